import Verif.Model.Partition
import Verif.Model.Stability

/-!
# The pruning pipelines (`utilities/parameter_estimation_utilities.py:369-428,479-629`)

Warnings are modelled separately (`Model/Warnings.lean`).
-/

namespace Verif

/-- The environment of the pipelines: that of CHAMP, scipy's `fsolve`, igraph's answer to `'weight' in G.es`, and the
iteration order of a Python set with the given elements (arbitrary, see `Spec.SoundPruneEnv`). -/
structure PruneEnv extends ChampEnv where
  fsolve : (ℝ → ℝ) → ℝ → ℝ
  test : Graph ℝ → Bool
  setOrder : List (List Nat) → List (List Nat)

/-- The argument `parts`: an iterable of membership vectors, or a leidenalg partition object (with its number of
clusters). -/
inductive PartsArg (α : Type) where
  | memberships (parts : List (List α))
  | clustering (numClusters : Nat)

/-- `{sorted_tuple(part.membership) for part in parts}` / `{sorted_tuple(part) for part in parts}`
(`/repo/utilities/parameter_estimation_utilities.py:511-516,601-606`).  Iterating over a leidenalg partition object yields
its clusters – lists of vertices without an attribute `membership` – so that branch raises `AttributeError` unless there
is no cluster.  `sorted_tuple` is used without its cache, which is transparent (C03). -/
def canonicalParts {α : Type} [LinearOrder α] (setOrder : List (List Nat) → List (List Nat)) :
    PartsArg α → Py (List (List Nat))
  | .memberships parts => do
    let cs ← parts.mapM sortedTuple
    return setOrder cs
  | .clustering n => if n = 0 then .ok (setOrder []) else .error .attributeError

/-- `{part for part in parts if num_communities(part) == restrict_num_communities}`
(`/repo/utilities/parameter_estimation_utilities.py:518-519,608-609`). -/
def restrictParts (setOrder : List (List Nat) → List (List Nat)) (restrict : Option Nat) (parts : List (List Nat)) :
    Py (List (List Nat)) :=
  match restrict with
  | none => .ok parts
  | some K => do
    let kept ← parts.mapM fun part => do
      let n ← numCommunities (part.map Int.ofNat)
      return if n = K then some part else none
    return setOrder (kept.filterMap id)

/-- `ranges_to_gamma_estimates` (`/repo/utilities/parameter_estimation_utilities.py:369-382`); the graph is threaded
because `gamma_estimate` may set its weights. -/
noncomputable def rangesToGammaEstimates (test : Graph ℝ → Bool) :
    Graph ℝ → List (ℝ × ℝ × List Nat) → Py (List (ℝ × ℝ × List Nat × Option (Fl ℝ)) × Graph ℝ)
  | G, [] => .ok ([], G)
  | G, r :: rest => do
    let eG ← gammaEstimate test G r.2.2
    let restG ← rangesToGammaEstimates test eG.2 rest
    return ((r.1, r.2.1, r.2.2, eG.1) :: restG.1, restG.2)

/-- `prune_to_stable_partitions` (`/repo/utilities/parameter_estimation_utilities.py:479-528`), without the warnings;
also returns the graph after the call. -/
noncomputable def pruneToStable {α : Type} [LinearOrder α] (env : PruneEnv) (G : Graph ℝ) (parts : PartsArg α)
    (γ₀ γf : ℝ) (restrict : Option Nat) (singleThreaded : Bool) : Run (List (List Nat) × Graph ℝ) := do
  let ps ← Run.ofPy (canonicalParts env.setOrder parts)
  let ps ← Run.ofPy (restrictParts env.setOrder restrict ps)
  if ps.length = 0 then return ([], G)
  let ranges ← champ2D env.toChampEnv G ps γ₀ γf singleThreaded
  let estG ← Run.ofPy (rangesToGammaEstimates env.test G ranges)
  return (stablePartitions2D estG.1, estG.2)

/-- `domains_to_gamma_omega_estimates` (`/repo/utilities/parameter_estimation_utilities.py:402-428`). -/
noncomputable def domainsToEstimates (test : Graph ℝ → Bool) (fsolve : (ℝ → ℝ) → ℝ → ℝ) (Gx : Graph ℝ)
    (layerVec : List Nat) (model : String) :
    Graph ℝ → List (List (ℝ × ℝ) × List Nat) → Py (List (List (ℝ × ℝ) × List Nat × Option (Fl ℝ) × ℝ) × Graph ℝ)
  | Gi, [] => .ok ([], Gi)
  | Gi, d :: rest => do
    let eG ← gammaOmegaEstimate test fsolve Gi Gx layerVec d.2 defaultOmegaMax model
    let restG ← domainsToEstimates test fsolve Gx layerVec model eG.2 rest
    return ((d.1, d.2, eG.1.1, eG.1.2) :: restG.1, restG.2)

/-- Truncation of the omega estimates, dropping missing gamma estimates
(`/repo/utilities/parameter_estimation_utilities.py:622-625`). -/
noncomputable def truncateOmegas (ωf : ℝ) (ds : List (List (ℝ × ℝ) × List Nat × Option (Fl ℝ) × ℝ)) :
    List (DomainEstimate Nat) :=
  ds.filterMap fun d =>
    match d.2.2.1 with
    | none => none
    | some g => some (d.1, d.2.1, some g, some (.fin (min d.2.2.2 (ωf - 1 / 1000))))

/-- `prune_to_multilayer_stable_partitions` (`/repo/utilities/parameter_estimation_utilities.py:531-629`), without the
warnings; also returns the intralayer graph after the call. -/
noncomputable def pruneToMultilayerStable {α : Type} [LinearOrder α] (env : PruneEnv) (Gi Gx : Graph ℝ)
    (layerVec : List Nat) (model : String) (parts : PartsArg α) (γ₀ γf ω₀ ωf : ℝ) (restrict : Option Nat)
    (singleThreaded : Bool) : Run (List (List Nat) × Graph ℝ) := do
  if singleThreaded then Run.ofPy (.error .notImplementedError)
  else do
    let ps ← Run.ofPy (canonicalParts env.setOrder parts)
    let ps ← Run.ofPy (restrictParts env.setOrder restrict ps)
    if ps.length = 0 then return ([], Gi)
    let domains ← champ3D env.toChampEnv Gi Gx layerVec ps γ₀ γf ω₀ ωf
    let estG ← Run.ofPy (domainsToEstimates env.test env.fsolve Gx layerVec model Gi domains)
    return (stablePartitions3D (truncateOmegas ωf estG.1), estG.2)

end Verif
