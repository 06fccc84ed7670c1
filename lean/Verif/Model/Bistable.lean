import Verif.Model.Estimation

/-!
# Analytic curves of the bistable block model (`experiments/bistable_SBM`)
-/

namespace Verif

/-- `gamma_cross(b, d)` (`/repo/experiments/bistable_SBM/plot_bistable_SBM_analytic.py:10-11`). -/
noncomputable def bistableCross (b d : ℝ) : Py ℝ :=
  pyDiv (7040 * b * d * (b * (7920 * d + 1099) - 1000)) ((b * (5280 * d + 433) - 400) ^ 2)

/-- `gamma_cross_limit(d)` (`/repo/experiments/bistable_SBM/plot_bistable_SBM_analytic.py:14-15`).  Simplification: applied
to each entry of the numpy array `deltas` (line 48), as a Python float (no entry makes the denominator 0). -/
noncomputable def bistableCrossLimit (d : ℝ) : Py ℝ := pyDiv (7040 * d * (1099 + 7920 * d)) ((433 + 5280 * d) ^ 2)

/-- `gamma_2(d)` (`/repo/experiments/bistable_SBM/plot_bistable_SBM_analytic.py:18-23`). -/
noncomputable def bistableGamma2 (d : ℝ) : Py ℝ := do
  let numerator := 2 * (80 * d + 11) ^ 2 * (256 * d + 19)
  let denominatorScalar := 9 * (160 * d + 13) * (2560 * d ^ 2 + 416 * d + 25)
  let q ← pyDiv (4 * (8 * d + 1) * (80 * d + 11)) (2560 * d ^ 2 + 416 * d + 25)
  let l ← pyLog q
  let q' ← pyDiv (160 * d + 22) (1440 * d + 117)
  let l' ← pyLog q'
  pyDiv numerator (denominatorScalar * (l - l'))

/-- `gamma_3(d)` (`/repo/experiments/bistable_SBM/plot_bistable_SBM_analytic.py:26-31`). -/
noncomputable def bistableGamma3 (d : ℝ) : Py ℝ := do
  let numerator := 8 * (80 * d + 11) ^ 2 * (320 * d * (80 * d - 7) - 549)
  let denominatorScalar := (160 * d + 13) * (160 * d + 49) * (320 * d * (80 * d + 13) + 331)
  let q ← pyDiv (8 * (80 * d + 1) * (80 * d + 11)) ((160 * d + 13) * (160 * d + 49))
  let l ← pyLog q
  let q' ← pyDiv (80 * (80 * d + 11)) (320 * d * (80 * d + 13) + 331)
  let l' ← pyLog q'
  pyDiv numerator (denominatorScalar * (l - l'))

/-- `p_in1` (`/repo/experiments/bistable_SBM/plot_bistable_SBM_realizations.py:10`,
`bistable_SBM_test_constant_probs.py:39`). -/
noncomputable def bistablePIn1 : ℝ := 10 / 99

/-- `p_in2` (`/repo/experiments/bistable_SBM/plot_bistable_SBM_realizations.py:11`,
`bistable_SBM_test_constant_probs.py:40`). -/
noncomputable def bistablePIn2 : ℝ := bistablePIn1 * (3 / 4)

/-- `p_out1` (`/repo/experiments/bistable_SBM/plot_bistable_SBM_realizations.py:12`,
`bistable_SBM_test_constant_probs.py:41`). -/
noncomputable def bistablePOut1 : ℝ := 1 / 4 / 40

/-- `pref_matrix` (`/repo/experiments/bistable_SBM/plot_bistable_SBM_realizations.py:15-17`,
`bistable_SBM_test_constant_probs.py:44-46`) for `p_out2 = d`. -/
noncomputable def bistablePref (d : ℝ) : List (List ℝ) :=
  [[bistablePIn1, bistablePOut1, bistablePOut1], [bistablePOut1, bistablePIn2, d], [bistablePOut1, d, bistablePIn2]]

/-- `ground_truth2` on blocks (`/repo/experiments/bistable_SBM/plot_bistable_SBM_realizations.py:24`,
`bistable_SBM_test_constant_probs.py:55`): `min(1, block)`. -/
def bistableMerged (blocks : List Nat) : List Nat := blocks.map fun b => min 1 b

end Verif
