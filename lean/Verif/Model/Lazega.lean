import Verif.Model.Estimation
import Verif.Model.Leiden
import Verif.Model.Warnings
import Verif.Model.Synthetic
import Verif.Model.Prune

/-!
# The Lazega law firm network (`experiments/lazega_law_firm/lazega_figures.py`)

Modelled: the network built from the three adjacency matrices, the stable partitions computed from the Louvain partitions, and
the data of figure 5.10.  Reading the files, the caching of Louvain and CHAMP results and the drawing are not modelled.  `N = 71` lawyers and `T = 3` layers are kept symbolic.
-/

namespace Verif

/-- `interlayer_edges` (`/repo/experiments/lazega_law_firm/lazega_figures.py:50-51`). -/
def lazegaCoupling (N T : Nat) : List (Nat × Nat) :=
  ((List.range N).flatMap fun i => (List.range T).map fun t => (i, t * N + i)) ++
    ((List.range N).flatMap fun i => (List.range T).map fun t => (t * N + i, i))

/-- The edges of one layer (`/repo/experiments/lazega_law_firm/lazega_figures.py:54-59`): `for i in range(len(adj))`,
`for j in range(len(adj[i]))`. -/
def lazegaLayer (N t : Nat) (adj : List (List Int)) : List (Nat × Nat) :=
  adj.zipIdx.flatMap fun (row, i) => (row.zipIdx.filter fun (x, _) => x == 1).map fun (_, j) => (N * t + i, N * t + j)

/-- `intralayer_edges` (`/repo/experiments/lazega_law_firm/lazega_figures.py:52-59`). -/
def lazegaEdges (N : Nat) (mats : List (List (List Int))) : List (Nat × Nat) :=
  mats.zipIdx.flatMap fun (adj, t) => lazegaLayer N t adj

/-- `generate_lazega_igraph` for the matrices read from the files, in the order advice, friendship, work
(`/repo/experiments/lazega_law_firm/lazega_figures.py:44-66`). -/
def lazegaNetwork (N : Nat) (mats : List (List (List Int))) : Py (Graph ℝ × Graph ℝ × List Nat) :=
  let T := mats.length
  if ¬ (∀ adj ∈ mats, N = adj.length) then .error .assertionError
  else if ¬ (∀ e ∈ lazegaCoupling N T, e.1 < N * T ∧ e.2 < N * T) then .error .assertionError
  else if ¬ (∀ e ∈ lazegaEdges N mats, e.1 < N * T ∧ e.2 < N * T) then .error .assertionError
  else .ok ({ graphOfEdges (lazegaEdges N mats) with directed := true },
    { graphOfEdges (lazegaCoupling N T) with directed := true }, layerVector N T)

/-- The order of the lawyers in figure 5.10 (`/repo/experiments/lazega_law_firm/lazega_figures.py:267-271`). -/
def lazegaSort : List Nat :=
  [46, 21, 64, 55, 48, 54, 68, 40, 70, 56, 65, 66, 53, 51, 67, 38, 42,
   39, 37, 26, 20, 10, 12, 22, 25, 0, 23, 19, 7, 35, 61, 69, 63, 41,
   28, 16, 15, 8, 11, 9, 14, 1, 3, 36, 18, 52, 43, 47, 33, 44, 60,
   59, 45, 31, 34, 27, 62, 5, 49, 30, 58, 50, 17, 57, 4, 32, 6, 2,
   24, 13, 29]

/-- The membership handed to `plot_multiplex_community` in figure 5.10: three slices, each indexed by `sort` if there are two,
three or four communities, in the order advice, work, friendship
(`/repo/experiments/lazega_law_firm/lazega_figures.py:275-285`). -/
def lazegaPlotted (N : Nat) (sort : List Nat) (membership : List Nat) : Py (List Nat) := do
  let K ← numCommunities (membership.map Int.ofNat)
  let slice := fun (t : Nat) => (membership.drop (t * N)).take N
  let shown := fun (t : Nat) =>
    if K = 2 ∨ K = 3 ∨ K = 4 then sort.mapM (pyGet (slice t)) else .ok (slice t)
  let m1 ← shown 0
  let m2 ← shown 1
  let m3 ← shown 2
  return m1 ++ m3 ++ m2

/-- The truncation with the slack as an argument: `1e-3` (`/repo/experiments/lazega_law_firm/lazega_figures.py:109-111,187-189,
258-260`), `1e-2` for the markers of figure 5.8 (`:159-161`). -/
noncomputable def lazegaTruncate (slack : ℝ) (ds : List (List (ℝ × ℝ) × List Nat × Option (Fl ℝ) × ℝ)) :
    List (DomainEstimate Nat) :=
  ds.filterMap fun d =>
    match d.2.2.1 with
    | none => none
    | some g => some (d.1, d.2.1, some g, some (.fin (min d.2.2.2 (3 - slack))))

/-- The stable partitions with `K` communities: `run_champ_on_lazega_partitions_restricted_K`
(`/repo/experiments/lazega_law_firm/lazega_figures.py:90-98`) followed by the estimates, the truncation and the stability test
(`:154-162,182-192,253-264`).  `parts` are the pickled Louvain partitions; the domains go through a pickle file unchanged. -/
noncomputable def lazegaStable (env : PruneEnv) (Gi Gx : Graph ℝ) (layerVec : List Nat) (parts : List (List Nat)) (K : Nat)
    (slack : ℝ) : Run (List (List Nat)) := do
  let kept ← Run.ofPy (restrictParts env.setOrder (some K) (env.setOrder parts))
  let domains ← champ3D env.toChampEnv Gi Gx layerVec kept 0 2 0 3
  let estG ← Run.ofPy (domainsToEstimates env.test env.fsolve Gx layerVec "multiplex" Gi domains)
  return stablePartitions3D (lazegaTruncate slack estG.1)

end Verif
