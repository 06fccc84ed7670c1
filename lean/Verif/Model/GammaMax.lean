import Verif.Model.Experiments

/-!
# The largest expected gamma estimate as a function of the number of communities
(`experiments/plot_duality_details/plot_gamma_max_derivatives.py`)

The drawing and the progress bar are not modelled.  The results of `gamma_max` are cached (`lru_cache`), which has no observable
effect besides the time.
-/

namespace Verif

/-- `f(K, x)` (`/repo/experiments/plot_duality_details/plot_gamma_max_derivatives.py:9-13`). -/
noncomputable def clippedGamma (K : Nat) (x : ℝ) : Py ℝ :=
  if ¬ (0 < x ∧ x < 1) then .ok 0 else expectedGamma K x

/-- `gamma_max(K, eps)` (`/repo/experiments/plot_duality_details/plot_gamma_max_derivatives.py:16-18`); `minimize f a b` is
`minimize_scalar(f, [a, b]).fun` of scipy. -/
noncomputable def gammaMax (minimize : (ℝ → Py ℝ) → ℝ → ℝ → Py ℝ) (K : Nat) (eps : ℝ) : Py ℝ := do
  let v ← minimize (fun x => do let y ← clippedGamma K x; return -y) eps (1 - eps)
  return -v

/-- `fprime_estimate(K)` (`/repo/experiments/plot_duality_details/plot_gamma_max_derivatives.py:21-22`), for `K ≥ 1`. -/
noncomputable def fprimeEstimate (gm : Nat → Py ℝ) (K : Nat) : Py ℝ := do
  let a ← gm (K + 1)
  let b ← gm (K - 1)
  return (a - b) / 2

/-- `fprime2_estimate(K)` (`/repo/experiments/plot_duality_details/plot_gamma_max_derivatives.py:25-26`), for `K ≥ 1`. -/
noncomputable def fprime2Estimate (gm : Nat → Py ℝ) (K : Nat) : Py ℝ := do
  let a ← gm (K + 1)
  let b ← gm K
  let c ← gm (K - 1)
  return (a - 2 * b + c) / 1

/-- `fprime3_estimate(K)` (`/repo/experiments/plot_duality_details/plot_gamma_max_derivatives.py:29-31`), for `K ≥ 2`.  The script
never calls it. -/
noncomputable def fprime3Estimate (gm : Nat → Py ℝ) (K : Nat) : Py ℝ := do
  let a ← gm (K + 2)
  let b ← gm (K + 1)
  let c ← gm (K - 1)
  let d ← gm (K - 2)
  return (a - 2 * b + 2 * c - d) / 2

/-- The values plotted in the three panels of `plot_gamma_max_derivatives(Ks)`
(`/repo/experiments/plot_duality_details/plot_gamma_max_derivatives.py:52-65`); the abscissas are `Ks[1:]`, `Ks[1:]` and
`Ks[2:]`. -/
noncomputable def derivativePanels (gm : Nat → Py ℝ) (Ks : List Nat) : Py (List ℝ × List ℝ × List ℝ) := do
  let p1 ← (Ks.drop 1).mapM (fprimeEstimate gm)
  let p2 ← (Ks.drop 1).mapM (fprime2Estimate gm)
  let p3 ← (Ks.drop 2).mapM (fprime2Estimate gm)
  return (p1, p2, p3)

/-- The slope and the intercept of the tangents in `plot_gamma_max_tangent_examples`
(`/repo/experiments/plot_duality_details/plot_gamma_max_derivatives.py:75-79,95-99`). -/
noncomputable def tangent (gm : Nat → Py ℝ) (K : Nat) : Py (ℝ × ℝ) := do
  let slope ← fprimeEstimate gm K
  let g ← gm K
  return (slope, g - slope * K)

end Verif
