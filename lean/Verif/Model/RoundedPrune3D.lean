import Verif.Model.RoundedPrune

/-! # `prune_to_multilayer_stable_partitions` on rounded numbers -/

namespace Verif

/-- `prune_to_multilayer_stable_partitions` (`/repo/utilities/parameter_estimation_utilities.py:531-629`) with every coefficient
rounded by `fl` (`/repo/utilities/champ_utilities.py:181-223`) and every estimate of `gamma` and of `omega` by `fle`
(`/repo/utilities/parameter_estimation_utilities.py:402-428`), before `omega` is truncated
(`/repo/utilities/parameter_estimation_utilities.py:622-625`).  Simplification: the steps of an estimate are rounded together, an
estimate that is a number remains one, and the point-in-polygon test is exact. -/
noncomputable def pruneToMultilayerRounded {α : Type} [LinearOrder α] (fl fle : ℝ → ℝ) (env : PruneEnv) (Gi Gx : Graph ℝ)
    (layerVec : List Nat) (model : String) (parts : PartsArg α) (γ₀ γf ω₀ ωf : ℝ) (restrict : Option Nat)
    (singleThreaded : Bool) : Run (List (List Nat) × Graph ℝ) := do
  if singleThreaded then Run.ofPy (.error .notImplementedError)
  else do
    let ps ← Run.ofPy (canonicalParts env.setOrder parts)
    let ps ← Run.ofPy (restrictParts env.setOrder restrict ps)
    if ps.length = 0 then return ([], Gi)
    let domains ← champ3DRounded fl env.toChampEnv Gi Gx layerVec ps γ₀ γf ω₀ ωf
    let estG ← Run.ofPy (domainsToEstimates env.test env.fsolve Gx layerVec model Gi domains)
    return (stablePartitions3D (truncateOmegas ωf
      (estG.1.map fun e => (e.1, e.2.1, roundEstimate fle e.2.2.1, fle e.2.2.2))), estG.2)

end Verif
