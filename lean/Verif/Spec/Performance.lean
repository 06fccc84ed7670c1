import Mathlib.Data.Real.Basic

/-!
# Speed-up
-/

namespace Verif.Spec

/-- How many times faster a run is in the pool: `n` runs one after the other took `t`, `m` runs in the pool took `u`. -/
noncomputable def speedUp (n : ℕ) (t : ℝ) (m : ℕ) (u : ℝ) : ℝ := (t / n) / (u / m)

end Verif.Spec
