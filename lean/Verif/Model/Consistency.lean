import Verif.Model.Estimation

/-!
# The multilayer consistency check (`utilities/parameter_estimation.py:83-127,174-188`)
-/

namespace Verif
variable {F : Type _} [Field F] [LinearOrder F]

/-- `all(p(x) for x in l)`: short-circuits at the first false value, so later errors are not raised. -/
def pyAll {α : Type _} (p : α → Py Bool) : List α → Py Bool
  | [] => .ok true
  | x :: xs => do
    let b ← p x
    if b then pyAll p xs else .ok false

/-- `a * b` where `a` may be `None`: `TypeError`. -/
def mulNone (a : Option Nat) (b : Int) : Py Int :=
  match a with
  | some a => .ok (a * b)
  | none => .error .typeError

/-- `a % b` on non-negative Python integers. -/
def pyMod (a b : Nat) : Py Nat := if b = 0 then .error .zeroDivisionError else .ok (a % b)

/-- `all(nt == N for nt in Nt)`: iterating over `None` raises, comparing with `None` is false. -/
def allEqual (Nt : Option (List Nat)) (N : Option Nat) : Py Bool :=
  match Nt with
  | some Nt => .ok (Nt.all fun n => some n == N)
  | none => .error .typeError

/-- `all(nt > 0 for nt in Nt)` -/
def allPositive (Nt : Option (List Nat)) : Py Bool :=
  match Nt with
  | some Nt => .ok (Nt.all fun n => decide (0 < n))
  | none => .error .typeError

/-- `model != m or <check>`: the check is evaluated only for that model. -/
def unlessModel (model m : String) (check : Py Bool) : Py Bool := if model ≠ m then .ok true else check

/-- `G_interlayer.vcount() % T == 0 and G_intralayer.vcount() % T == 0` -/
def bothMultiples (a b T : Nat) : Py Bool := do
  let r ← pyMod a T
  if r = 0 then do
    let r' ← pyMod b T
    return decide (r' = 0)
  else return false

/-- `model != 'temporal' or G_interlayer.ecount() == N * (T - 1)` etc. -/
def edgeCountIs (n : Nat) (rhs : Py Int) : Py Bool := do
  let r ← rhs
  return decide ((n : Int) = r)

/-- `layer_vec[e.source] == layer_vec[e.target]` -/
def sameLayer (layerVec : List Nat) (e : Nat × Nat) : Py Bool := do
  let a ← pyGet layerVec e.1
  let b ← pyGet layerVec e.2
  return decide (a = b)

/-- `N * T * (T - 1)` -/
def mulMulNone (N : Option Nat) (T : Nat) : Py Int := do
  let a ← mulNone N T
  return a * ((T : Int) - 1)

/-- The list `rules`: checks with their messages, evaluated eagerly in order
(`/repo/utilities/parameter_estimation.py:97-122`). -/
def consistencyRules (Gi Gx : Graph F) (layerVec : List Nat) (model : String) (mt : List F) (T : Nat) (N : Option Nat)
    (Nt : Option (List Nat)) : List (Py Bool × String) :=
  [(.ok (decide (1 < T)), "Graph must have multiple layers"),
   (.ok Gx.directed, "Interlayer graph should be directed"),
   (.ok (decide (Gx.vcount = Gi.vcount)), "Inter-layer and Intra-layer graphs must be of the same size"),
   (.ok (decide (layerVec.length = Gi.vcount)), "Layer membership vector must have length matching graph size"),
   (.ok (mt.all fun m => decide (0 < m)), "All layers of graph must contain edges"),
   (pyAll (sameLayer layerVec) Gi.edges, "Intralayer graph should not contain edges across layers"),
   (unlessModel model "temporal" (edgeCountIs Gx.ecount (mulNone N ((T : Int) - 1))),
    "Interlayer temporal graph must contain (nodes per layer) * (number of layers - 1) edges"),
   (unlessModel model "temporal" (bothMultiples Gx.vcount Gi.vcount T),
    "Vertex count of a temporal graph should be a multiple of the number of layers"),
   (unlessModel model "temporal" (allEqual Nt N),
    "Temporal networks must have the same number of nodes in every layer"),
   (unlessModel model "multilevel" (allPositive Nt),
    "All layers of a multilevel graph must be consecutive and nonempty"),
   (unlessModel model "multilevel" (.ok (Gx.inDegrees.all fun d => decide (d ≤ 1))),
    "Multilevel networks should have at most one interlayer in-edge per node"),
   (unlessModel model "multiplex" (allEqual Nt N),
    "Multiplex networks must have the same number of nodes in every layer"),
   (unlessModel model "multiplex" (edgeCountIs Gx.ecount (mulMulNone N T)),
    "Multiplex interlayer networks must contain edges between all pairs of layers")]

/-- `checks` after eager evaluation (`/repo/utilities/parameter_estimation.py:97,124`). -/
def evalRules : List (Py Bool × String) → Py (List (Bool × String))
  | [] => .ok []
  | (c, msg) :: rest => do
    let b ← c
    let rest ← evalRules rest
    return (b, msg) :: rest

/-- `check_multilayer_graph_consistency` (`/repo/utilities/parameter_estimation.py:83-127`). -/
def checkConsistency (Gi Gx : Graph F) (layerVec : List Nat) (model : String) (mt : List F) (T : Nat) (N : Option Nat)
    (Nt : Option (List Nat)) : Py Unit := do
  let rules ← evalRules (consistencyRules Gi Gx layerVec model mt T N Nt)
  if rules.all fun r => r.1 then return ()
  else .error (.valueError ("Input graph is malformed\n" ++
    "\n".intercalate ((rules.filter fun r => !r.1).map fun r => r.2)))

/-- The preparation of `iterative_multilayer_resolution_parameter_estimation` up to and including the check
(`/repo/utilities/parameter_estimation.py:174-188`): returns `T`, `m_t`, `N`, `Nt`. -/
def prepareMultilayer (Gi Gx : Graph F) (layerVec : List Nat) (model : String) :
    Py (Nat × List F × Nat × List Nat) := do
  let T ← countLayers layerVec
  let es ← Gi.weightedEdges
  let mt ← layerWeights T es layerVec
  let N ← vcountFloorDiv Gi.vcount T
  let Nt ← layerSizes T layerVec
  checkConsistency Gi Gx layerVec model mt T (some N) (some Nt)
  return (T, mt, N, Nt)

end Verif
