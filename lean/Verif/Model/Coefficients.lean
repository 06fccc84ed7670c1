import Verif.Model.Graph
import Verif.Model.Partition

/-!
# CHAMP partition coefficients (`utilities/champ_utilities.py`)
-/

namespace Verif
variable {F : Type _} [Field F] [LinearOrder F] {α : Type _} [DecidableEq α]

/-- `sum([membership[u] == membership[v] for u, v in all_edges])`
(`/repo/utilities/champ_utilities.py:235,238,314,317,343,346`). -/
def internalEdgeCount (edges : List (Nat × Nat)) (membership : List α) : Py Nat := do
  let bs ← edges.mapM fun e => do
    let a ← pyGet membership e.1
    let b ← pyGet membership e.2
    return if a = b then 1 else 0
  return bs.sum

/-- The `A_hat`/`C_hat` of one partition: doubled only if undirected
(`/repo/utilities/champ_utilities.py:234-239,313-318,342-347`). -/
def adjacencyCoefficient (directed : Bool) (edges : List (Nat × Nat)) (membership : List α) : Py Nat := do
  let s ← internalEdgeCount edges membership
  return if directed then s else 2 * s

/-- `sum(degree[v] for v in vs)` (`/repo/utilities/champ_utilities.py:246,252,329,336`). -/
def degreeSum (degree : List Nat) (vs : List Nat) : Py Nat := do
  let ds ← vs.mapM (pyGet degree)
  return ds.sum

/-- Numerator of the 2D `P_hat` of one partition (`/repo/utilities/champ_utilities.py:246-247,252`). -/
def nullModelNumerator (G : Graph F) (membership : List α) : Py Nat := do
  let terms ← (membershipToCommunities membership).mapM fun cvs => do
    if G.directed then
      let i ← degreeSum G.inDegrees cvs.2
      let o ← degreeSum G.outDegrees cvs.2
      return i * o
    else
      let s ← degreeSum G.allDegrees cvs.2
      return s ^ 2
  return terms.sum

/-- `partition_coefficients_2D_serial` (`/repo/utilities/champ_utilities.py:226-255`). -/
def partitionCoefficients2DSerial (G : Graph F) (partitions : List (List α)) : Py (List F × List (Fl F)) := do
  let A ← partitions.mapM (adjacencyCoefficient G.directed G.edges)
  let P ← partitions.mapM (nullModelNumerator G)
  let denom : F := if G.directed then (G.ecount : F) else 2 * (G.ecount : F)
  return (A.map (fun (a : Nat) => (a : F)), P.map fun (p : Nat) => npDiv (p : F) denom)

/-- `ecount_per_layer`: `np.zeros(max(layer_vec) + 1)` incremented at the source's layer of every intralayer edge
(`/repo/utilities/champ_utilities.py:320-323`). -/
def ecountPerLayer (G : Graph F) (layerVec : List Nat) : Py (List F) :=
  match layerVec.max? with
  | none => .error (.valueError "max() arg is an empty sequence")
  | some M =>
    G.edges.foldlM (fun acc e => do
      let l ← pyGet layerVec e.1
      pyAddAt acc l 1) (List.replicate (M + 1) (0 : F))

/-- The 3D `P_hat` of one partition (`/repo/utilities/champ_utilities.py:325-339`). -/
def nullModelCoefficient3D (G : Graph F) (layerVec : List Nat) (ecounts : List F) (membership : List α) :
    Py (Fl F) := do
  let comms ← membershipToLayeredCommunities membership layerVec
  let terms ← comms.mapM fun clvs => do
    if G.directed then
      let i ← degreeSum G.inDegrees clvs.2
      let o ← degreeSum G.outDegrees clvs.2
      let m ← pyGet ecounts clvs.1.2
      return npDiv ((i * o : Nat) : F) m
    else
      let s ← degreeSum G.allDegrees clvs.2
      let m ← pyGet ecounts clvs.1.2
      return npDiv ((s ^ 2 : Nat) : F) (2 * m)
  return Fl.sum terms

/-- `partition_coefficients_3D_serial` (`/repo/utilities/champ_utilities.py:303-349`). -/
def partitionCoefficients3DSerial (Gintra Ginter : Graph F) (layerVec : List Nat) (partitions : List (List α)) :
    Py (List F × List (Fl F) × List F) := do
  let A ← partitions.mapM (adjacencyCoefficient Gintra.directed Gintra.edges)
  let ecounts ← ecountPerLayer Gintra layerVec
  let P ← partitions.mapM (nullModelCoefficient3D Gintra layerVec ecounts)
  let C ← partitions.mapM (adjacencyCoefficient Ginter.directed Ginter.edges)
  return (A.map (fun (a : Nat) => (a : F)), P, C.map (fun (c : Nat) => (c : F)))

/-! ## Parallel drivers -/

/-- Chunk boundaries `floor(i * len(partitions) / cpu_count())` for `i = 0..cpu`
(`/repo/utilities/champ_utilities.py:265-268,355-358`).  The quotient is a float: `rnd a b` stands for Python's rounded
true division `a / b` followed by `floor`. -/
def chunkBoundary (rnd : Nat → Nat → Nat) (len cpu i : Nat) : Nat := rnd (i * len) cpu

/-- `partition_chunks` (Python slices clamp out-of-range bounds) (`/repo/utilities/champ_utilities.py:265-268,355-358`). -/
def partitionChunks {β : Type _} (rnd : Nat → Nat → Nat) (cpu : Nat) (l : List β) : List (List β) :=
  (List.range cpu).map fun i =>
    (l.take (chunkBoundary rnd l.length cpu (i + 1))).drop (chunkBoundary rnd l.length cpu i)

/-- A worker finishes task `i` and its result is stored in slot `i` (CPython `multiprocessing.pool.MapResult._set`). -/
def fillSlot {β γ : Type _} (f : β → Py γ) (tasks : List β) (slots : List (Option (Py γ))) (i : Nat) :
    List (Option (Py γ)) :=
  match tasks[i]? with
  | some t => slots.set i (some (f t))
  | none => slots

/-- `multiprocessing.Pool.starmap`: workers finish the tasks in some order `sched` (a list of task indices); the result
of task `i` is written to slot `i`; the call returns once every slot is filled, and raises if a task raised
(CPython `multiprocessing.pool.MapResult`; used at `/repo/utilities/champ_utilities.py:270-273,360-364`,
`/repo/utilities/louvain_utilities.py:170`).  Simplification: when several tasks raise, the exception of the first slot
is reported. -/
def poolStarmap {β γ : Type _} (f : β → Py γ) (tasks : List β) (sched : List Nat) : Option (Py (List γ)) :=
  let slots : List (Option (Py γ)) := sched.foldl (fillSlot f tasks) (List.replicate tasks.length none)
  (slots.mapM id).map fun rs => rs.mapM id

/-- `partition_coefficients_2D` (`/repo/utilities/champ_utilities.py:258-280`).  `none` means that the pool never
delivered all results (impossible for a complete schedule). -/
def partitionCoefficients2D (rnd : Nat → Nat → Nat) (cpu : Nat) (sched : List Nat)
    (G : Graph F) (partitions : List (List α)) (singleThreaded : Bool) : Option (Py (List F × List (Fl F))) := do
  let r : Py (List F × List (Fl F)) ←
    if singleThreaded then some (partitionCoefficients2DSerial G partitions)
    else (poolStarmap (partitionCoefficients2DSerial G) (partitionChunks rnd cpu partitions) sched).map fun rs => do
      let results ← rs
      pure (results.flatMap (fun r => r.1), results.flatMap (fun r => r.2))
  return (do
    let (A, P) ← r
    if A.length = P.length ∧ P.length = partitions.length then return (A, P) else throw .assertionError)

/-- `partition_coefficients_3D` (`/repo/utilities/champ_utilities.py:352-372`). -/
def partitionCoefficients3D (rnd : Nat → Nat → Nat) (cpu : Nat) (sched : List Nat)
    (Gintra Ginter : Graph F) (layerVec : List Nat) (partitions : List (List α)) :
    Option (Py (List F × List (Fl F) × List F)) := do
  let rs ← poolStarmap (partitionCoefficients3DSerial Gintra Ginter layerVec)
    (partitionChunks rnd cpu partitions) sched
  return (do
    let results ← rs
    let A := results.flatMap (fun r => r.1)
    let P := results.flatMap (fun r => r.2.1)
    let C := results.flatMap (fun r => r.2.2)
    if A.length = P.length ∧ P.length = C.length ∧ C.length = partitions.length then return (A, P, C)
    else throw .assertionError)

end Verif
