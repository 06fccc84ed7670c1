import Mathlib.Analysis.SpecialFunctions.Exp
import Verif.Model.Estimation

/-!
# Analytic formulas of the experiments (`experiments/plot_duality_details`)
-/

namespace Verif
open Real

/-- `parametric_omega(gamma, other_omega)` (`/repo/experiments/plot_duality_details/plot_gamma_omega_duality.py:14-19`,
repeated in `plot_maximum_gamma_estimates_general.py:14-19` and `plot_maximum_gamma_estimates_in_omega_space.py:9-14`);
`lambertw k z` is the real part of scipy's `lambertw(z, k)`.  Simplification: infinite values of `lambertw` (at `z = 0`)
are not represented. -/
noncomputable def parametricOmega (lambertw : Int → ℝ → ℝ) (gamma otherOmega : ℝ) : ℝ :=
  if gamma = 0 then 0
  else if otherOmega < gamma then
    -gamma * lambertw (-1) (-otherOmega * exp (-otherOmega / gamma) / gamma)
  else -gamma * lambertw 0 (-otherOmega * exp (-otherOmega / gamma) / gamma)

/-- `f(K, x)` (`/repo/experiments/plot_duality_details/plot_maximum_gamma_estimates.py:8-9`): the gamma estimate expected
for `K` balanced communities with `x = p_out / p_in`. -/
noncomputable def expectedGamma (K : Nat) (x : ℝ) : Py ℝ := do
  let y ← pyDiv 1 x
  let a ← pyDiv (K * (y - 1)) (y + K - 1)
  let l ← pyLog y
  pyDiv a l

/-- `(K - x) / (K - 1)` (`/repo/experiments/plot_duality_details/plot_maximum_gamma_estimates_general.py:27,50`,
`plot_maximum_gamma_estimates_in_omega_space.py:22-23`, there for `K = 2, 3`): the line of possible parameters. -/
noncomputable def possibleOmega (K : Nat) (x : ℝ) : ℝ := (K - x) / (K - 1)

end Verif
