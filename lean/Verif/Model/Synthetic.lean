import Verif.Model.Estimation
import Verif.Model.Leiden
import Verif.Model.Warnings

/-!
# Synthetic multilayer networks

The temporal stochastic block models of `experiments/pamfil_synthetic_networks/easy_regime_generation.py:36-91`,
`tests/shared_testing_functions.py:57-88` and `docs/source/basic_multilayer_example.rst:11-46`, and the random networks and
partitions of `tests/shared_testing_functions.py:8-47`.  The results of `random()`, `randint` and igraph's generator are
arbitrary (see `Spec.RandomDraws`); `n` vertices per layer and `T` layers are kept symbolic.
-/

namespace Verif

/-- `[i // n_per_layer for i in range(n_per_layer * num_layers)]`
(`/repo/docs/source/basic_multilayer_example.rst:22`, `/repo/experiments/pamfil_synthetic_networks/easy_regime_generation.py:43`,
`/repo/tests/shared_testing_functions.py:18`). -/
def layerVector (n T : Nat) : List Nat := (List.range (n * T)).map fun i => i / n

/-- `[i for i in range(num_layers) for _ in range(num_nodes_per_layer)]` (`/repo/tests/shared_testing_functions.py:75`). -/
def layerMembership (n T : Nat) : List Nat := (List.range T).flatMap fun i => List.replicate n i

/-- The results of the random choices of one attempt: `random()` and `randint(0, K - 1)` for a vertex of a layer, `random()`
for a pair `(v, u)` of vertices. -/
structure Draws where
  copy : Nat → Nat → ℝ
  label : Nat → Nat → Nat
  edge : Nat → Nat → ℝ

open Classical in
/-- The community labels of a layer: the first layer's are given; later ones are copied from the layer before or chosen at
random (`/repo/experiments/pamfil_synthetic_networks/easy_regime_generation.py:47-60`,
`/repo/tests/shared_testing_functions.py:59-70`). -/
noncomputable def copiedLabels (d : Draws) (eta : ℝ) (first : List Nat) : Nat → List Nat
  | 0 => first
  | l + 1 => (List.range first.length).map fun v =>
      if d.copy (l + 1) v < eta then (copiedLabels d eta first l).getD v 0 else d.label (l + 1) v

/-- `comm_vec = [item for sublist in comm_per_layer for item in sublist]`
(`/repo/experiments/pamfil_synthetic_networks/easy_regime_generation.py:62`, `/repo/tests/shared_testing_functions.py:74`). -/
noncomputable def labelVector (d : Draws) (eta : ℝ) (first : List Nat) (T : Nat) : List Nat :=
  (List.range T).flatMap fun l => copiedLabels d eta first l

open Classical in
/-- The intralayer edges of the block model
(`/repo/experiments/pamfil_synthetic_networks/easy_regime_generation.py:64,69-78`,
`/repo/tests/shared_testing_functions.py:73,77-86`, `/repo/docs/source/basic_multilayer_example.rst:37-41`). -/
noncomputable def blockEdges (layers comm : List Nat) (pIn pOut : ℝ) (draw : Nat → Nat → ℝ) : List (Nat × Nat) :=
  (List.range comm.length).flatMap fun v =>
    ((List.range' (v + 1) (comm.length - (v + 1))).filter fun u =>
      decide (layers[v]? = layers[u]? ∧ draw v u < if comm[v]? = comm[u]? then pIn else pOut)).map fun u => (u, v)

/-- `[(n * layer + v, n * layer + v + n) for layer in range(num_layers - 1) for v in range(n)]`
(`/repo/docs/source/basic_multilayer_example.rst:23-25`,
`/repo/experiments/pamfil_synthetic_networks/easy_regime_generation.py:65-67`). -/
def couplingEdges (n T : Nat) : List (Nat × Nat) :=
  (List.range (T - 1)).flatMap fun l => (List.range n).map fun v => (n * l + v, n * l + v + n)

/-- `ig.Graph(interlayer_edges, directed=True)`: as many vertices as needed
(`/repo/experiments/pamfil_synthetic_networks/easy_regime_generation.py:81`). -/
def couplingGraph (n T : Nat) : Graph ℝ := { graphOfEdges (couplingEdges n T) with directed := true }

/-- The first layer of the benchmark: `[i // (n_per_layer // K) for i in range(n_per_layer)]`
(`/repo/experiments/pamfil_synthetic_networks/easy_regime_generation.py:49`).  `K` is at most `n_per_layer`. -/
def balancedLabels (n K : Nat) : List Nat := (List.range n).map fun i => i / (n / K)

open Classical in
/-- One round of the loop of `generate_synthetic_network`
(`/repo/experiments/pamfil_synthetic_networks/easy_regime_generation.py:38-39,47-88`); `none` if the graph is rejected.  The
constants are `n = 150`, `T = 15`, `K = 2`. -/
noncomputable def syntheticAttempt (test : Graph ℝ → Bool) (fsolve : (ℝ → ℝ) → ℝ → ℝ) (n T K : Nat)
    (eta epsilon desiredGamma desiredOmega : ℝ) (d : Draws) :
    Py (Option (Graph ℝ × Graph ℝ × List Nat × List Nat)) := do
  let a ← pyDiv 32 (1 + epsilon)
  let pIn := a / 75
  let pOut := epsilon * pIn
  let first := balancedLabels n K
  if ¬ (∀ k ∈ first, first.count k = first.count 0) then .error .assertionError
  else do
    let comm := labelVector d eta first T
    let Gi := graphOfEdges (blockEdges (layerVector n T) comm pIn pOut d.edge)
    let Gx := couplingGraph n T
    let r ← gammaOmegaEstimate test fsolve Gi Gx (layerVector n T) comm defaultOmegaMax "temporal"
    match r.1.1 with
    | none => .error .typeError
    | some (.fin γ) =>
      if |γ - desiredGamma| < 5 / 1000 ∧ |r.1.2 - desiredOmega| < 5 / 1000 then
        return some (r.2, Gx, layerVector n T, comm)
      else return none
    | some _ => return none

/-- `generate_synthetic_network` (`/repo/experiments/pamfil_synthetic_networks/easy_regime_generation.py:36-91`): rounds until
a graph is accepted; `none` while `fuel` rounds are not enough. -/
noncomputable def syntheticNetwork (attempt : Draws → Py (Option (Graph ℝ × Graph ℝ × List Nat × List Nat)))
    (draws : Nat → Draws) : Nat → Nat → Option (Py (Graph ℝ × Graph ℝ × List Nat × List Nat))
  | _, 0 => none
  | k, fuel + 1 =>
    match attempt (draws k) with
    | .error e => some (.error e)
    | .ok (some r) => some (.ok r)
    | .ok none => syntheticNetwork attempt draws (k + 1) fuel

/-- `generate_multilayer_intralayer_SBM` (`/repo/tests/shared_testing_functions.py:57-88`). -/
noncomputable def testBlockModel (d : Draws) (copying pIn pOut : ℝ) (first : List Nat) (T : Nat) : Graph ℝ × List Nat :=
  (graphOfEdges (blockEdges (layerMembership first.length T) (labelVector d copying first T) pIn pOut d.edge),
    layerMembership first.length T)

/-- The last three statements of `generate_connected_multilayer_ER` (`/repo/tests/shared_testing_functions.py:18-23`), for the
connected random graph `G` with `n * T` vertices. -/
def splitByLayer (G : Graph ℝ) (n T : Nat) : Py (Graph ℝ × Graph ℝ × List Nat) := do
  let layers := layerVector n T
  let same ← G.edges.mapM fun e => do
    let a ← pyGet layers e.1
    let b ← pyGet layers e.2
    return decide (a = b)
  let intra := ((G.edges.zip same).filter fun es => es.2).map Prod.fst
  let inter := ((G.edges.zip same).filter fun es => !es.2).map Prod.fst
  let Gi ← newGraph (n * T) intra G.directed
  let Gx ← newGraph (n * T) inter G.directed
  return (Gi, Gx, layers)

/-- `generate_random_partition` (`/repo/tests/shared_testing_functions.py:31-35`): `draws k` is the `k`-th tuple of random
labels; `none` while `fuel` tuples are not enough. -/
def randomPartition (K : Nat) (draws : Nat → List Nat) : Nat → Nat → Option (List Nat)
  | _, 0 => none
  | k, fuel + 1 => if (draws k).dedup.length = K then some (draws k) else randomPartition K draws (k + 1) fuel

end Verif
