import Mathlib.Logic.Relation
import Verif.Model.Prune

/-!
# Warnings of the pruning pipelines (`utilities/parameter_estimation_utilities.py:503-509,589-599,617-620`)

`warnings.warn` is modelled as reporting; filters that turn warnings into exceptions are not.
-/

namespace Verif

/-- The three warnings. -/
inductive Warning where
  | disconnected
  | weighted
  | truncating
  deriving DecidableEq, Repr

/-- There is an edge leading from `u` to `v` (in either direction for undirected graphs). -/
def Graph.Step {F : Type} (G : Graph F) (u v : Nat) : Prop :=
  (u, v) ∈ G.edges ∨ (G.directed = false ∧ (v, u) ∈ G.edges)

/-- igraph's `is_connected()` with its default mode (strong for directed graphs): every vertex reaches every other one
along edges; a graph without vertices is not connected. -/
def Graph.IsConnected {F : Type} (G : Graph F) : Prop :=
  0 < G.vcount ∧ ∀ u < G.vcount, ∀ v < G.vcount, Relation.ReflTransGen G.Step u v

/-- `ig.Graph(edges=edges)`: undirected, with as many vertices as needed
(`/repo/utilities/parameter_estimation_utilities.py:590-591`). -/
def graphOfEdges (edges : List (Nat × Nat)) : Graph ℝ :=
  ⟨edges.foldl (fun n e => max n (max (e.1 + 1) (e.2 + 1))) 0, false, edges, none⟩

open Classical in
/-- `G.is_weighted() and any(x != 1.0 for x in G.es['weight'])`
(`/repo/utilities/parameter_estimation_utilities.py:507,596-597`). -/
noncomputable def hasOtherWeights (G : Graph ℝ) : Bool :=
  match G.weight with
  | some ws => ws.any fun x => decide (x ≠ 1)
  | none => false

open Classical in
/-- `prune_to_stable_partitions` with the warnings it emits (`/repo/utilities/parameter_estimation_utilities.py:479-528`). -/
noncomputable def pruneWarned {α : Type} [LinearOrder α] (env : PruneEnv) (G : Graph ℝ) (parts : PartsArg α)
    (γ₀ γf : ℝ) (restrict : Option Nat) (singleThreaded : Bool) : List Warning × Run (List (List Nat) × Graph ℝ) :=
  ((if ¬ G.IsConnected then [.disconnected] else []) ++ (if hasOtherWeights G then [.weighted] else []),
    pruneToStable env G parts γ₀ γf restrict singleThreaded)

/-- `domains_with_estimates` before the truncation (`/repo/utilities/parameter_estimation_utilities.py:601-615`); `none` if
the call has returned before. -/
noncomputable def domainEstimates {α : Type} [LinearOrder α] (env : PruneEnv) (Gi Gx : Graph ℝ)
    (layerVec : List Nat) (model : String) (parts : PartsArg α) (γ₀ γf ω₀ ωf : ℝ) (restrict : Option Nat) :
    Run (Option (List (List (ℝ × ℝ) × List Nat × Option (Fl ℝ) × ℝ))) := do
  let ps ← Run.ofPy (canonicalParts env.setOrder parts)
  let ps ← Run.ofPy (restrictParts env.setOrder restrict ps)
  if ps.length = 0 then return none
  let domains ← champ3D env.toChampEnv Gi Gx layerVec ps γ₀ γf ω₀ ωf
  let estG ← Run.ofPy (domainsToEstimates env.test env.fsolve Gx layerVec model Gi domains)
  return some estG.1

open Classical in
/-- `any(o_est >= omega_end for _, _, g_est, o_est in domains_with_estimates if g_est is not None)`
(`/repo/utilities/parameter_estimation_utilities.py:617`). -/
noncomputable def needsTruncation (ωf : ℝ) (ds : List (List (ℝ × ℝ) × List Nat × Option (Fl ℝ) × ℝ)) : Bool :=
  ds.any fun d => d.2.2.1.isSome && decide (ωf ≤ d.2.2.2)

/-- The truncation warning, if the run gets that far (`/repo/utilities/parameter_estimation_utilities.py:617-620`). -/
noncomputable def truncationWarning (ωf : ℝ) :
    Run (Option (List (List (ℝ × ℝ) × List Nat × Option (Fl ℝ) × ℝ))) → List Warning
  | some (.ok (some ds)) => if needsTruncation ωf ds then [.truncating] else []
  | _ => []

open Classical in
/-- `prune_to_multilayer_stable_partitions` with the warnings it emits
(`/repo/utilities/parameter_estimation_utilities.py:531-629`). -/
noncomputable def pruneMultilayerWarned {α : Type} [LinearOrder α] (env : PruneEnv) (Gi Gx : Graph ℝ)
    (layerVec : List Nat) (model : String) (parts : PartsArg α) (γ₀ γf ω₀ ωf : ℝ) (restrict : Option Nat)
    (singleThreaded : Bool) : List Warning × Run (List (List Nat) × Graph ℝ) :=
  let result := pruneToMultilayerStable env Gi Gx layerVec model parts γ₀ γf ω₀ ωf restrict singleThreaded
  if singleThreaded then ([], result)
  else
    let combined := graphOfEdges (Gi.edges ++ Gx.edges)
    ((if ¬ combined.IsConnected ∨ combined.vcount ≠ Gx.vcount then [.disconnected] else []) ++
      (if hasOtherWeights Gi || hasOtherWeights Gx then [.weighted] else []) ++
      truncationWarning ωf (domainEstimates env Gi Gx layerVec model parts γ₀ γf ω₀ ωf restrict), result)

end Verif
