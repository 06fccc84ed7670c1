import Verif.Model.Rounded
import Verif.Model.Prune

/-! # `prune_to_stable_partitions` on rounded numbers -/

namespace Verif

/-- Rounding of an estimate that is a number. -/
def roundEstimate (fle : ℝ → ℝ) : Option (Fl ℝ) → Option (Fl ℝ)
  | some (.fin x) => some (.fin (fle x))
  | e => e

/-- `prune_to_stable_partitions` (`/repo/utilities/parameter_estimation_utilities.py:479-528`) with every coefficient rounded by `fl`
(`/repo/utilities/champ_utilities.py:112-150`) and every estimate by `fle`
(`/repo/utilities/parameter_estimation_utilities.py:369-382`).  Simplification: the steps of the estimate are rounded together, and
an estimate that is a number remains one. -/
noncomputable def pruneToStableRounded {α : Type} [LinearOrder α] (fl fle : ℝ → ℝ) (env : PruneEnv) (G : Graph ℝ)
    (parts : PartsArg α) (γ₀ γf : ℝ) (restrict : Option Nat) (singleThreaded : Bool) : Run (List (List Nat) × Graph ℝ) := do
  let ps ← Run.ofPy (canonicalParts env.setOrder parts)
  let ps ← Run.ofPy (restrictParts env.setOrder restrict ps)
  if ps.length = 0 then return ([], G)
  let ranges ← champ2DRounded fl env.toChampEnv G ps γ₀ γf singleThreaded
  let estG ← Run.ofPy (rangesToGammaEstimates env.test G ranges)
  return (stablePartitions2D (estG.1.map fun e => (e.1, e.2.1, e.2.2.1, roundEstimate fle e.2.2.2)), estG.2)

end Verif
