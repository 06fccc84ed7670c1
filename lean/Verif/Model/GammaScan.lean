import Verif.Model.GammaMax
import Verif.Model.Snap
import Verif.Model.Champ

/-!
# The largest expected gamma estimates by sampling, and their figures (figures 6.1, 6.2 and 6.3)
(`experiments/plot_duality_details/plot_maximum_gamma_estimates.py`, `plot_maximum_gamma_estimates_in_omega_space.py`,
`plot_maximum_gamma_estimates_general.py`)

Exact arithmetic; of matplotlib only the data handed over.
-/

namespace Verif

/-- `np.linspace(1e-9, 1 - 1e-9, num_points)` (`/repo/experiments/plot_duality_details/plot_maximum_gamma_estimates.py:18,34`). -/
noncomputable def sampleRatios (num : Nat) : List ℝ := linspace (1 / 10 ^ 9) (1 - 1 / 10 ^ 9) num

/-- `max(f(K, x) for x in xs)` (`/repo/experiments/plot_duality_details/plot_maximum_gamma_estimates.py:21`). -/
noncomputable def sampledMax (num K : Nat) : Py ℝ := do
  let vals ← (sampleRatios num).mapM (expectedGamma K)
  pyMax vals

/-- One round of the loop: `current_vals` after `for K in range(2, 20)`
(`/repo/experiments/plot_duality_details/plot_maximum_gamma_estimates.py:14,18-23`).  Entries 0 and 1 are never set. -/
noncomputable def scanRound (num : Nat) : Py (List ℝ) := do
  let vals ← (List.range' 2 18).mapM (sampledMax num)
  return 0 :: 0 :: vals

/-- `all(abs(lv - cv) < 1e-6 for lv, cv in zip(last_vals, current_vals))`
(`/repo/experiments/plot_duality_details/plot_maximum_gamma_estimates.py:25`). -/
noncomputable def settled (last current : List ℝ) : Bool :=
  (last.zip current).all fun p => decide (|p.1 - p.2| < 1 / 10 ^ 6)

/-- The loop of `compute_and_print_maximum_gamma_estimates`
(`/repo/experiments/plot_duality_details/plot_maximum_gamma_estimates.py:17-30`): the rounds printed, with their numbers of sample
points; `none` when the loop has not stopped after `fuel` rounds.  Simplification: the values are not rounded for printing. -/
noncomputable def scanLoop : Nat → Nat → List ℝ → Py (Option (List (Nat × List ℝ)))
  | 0, _, _ => .ok none
  | fuel + 1, num, last => do
    let current ← scanRound num
    if settled last current then return some [(num, current)]
    else do
      let rest ← scanLoop fuel (num * 2) current
      return rest.map ((num, current) :: ·)

/-- `compute_and_print_maximum_gamma_estimates()`
(`/repo/experiments/plot_duality_details/plot_maximum_gamma_estimates.py:12-30`). -/
noncomputable def gammaScan (fuel : Nat) : Py (Option (List (Nat × List ℝ))) := scanLoop fuel (2 ^ 10) (List.replicate 20 0)

/-- The curves of figure 6.1 (`/repo/experiments/plot_duality_details/plot_maximum_gamma_estimates.py:34,41-42`). -/
noncomputable def figure61 : Py (List (Nat × List (ℝ × ℝ))) :=
  (List.range' 2 7).mapM fun K => do
    let ys ← (sampleRatios 1000).mapM (expectedGamma K)
    return (K, (sampleRatios 1000).zip ys)

/-- The points of the abscissa in figures 6.2 and 6.3 (`plot_maximum_gamma_estimates_in_omega_space.py:18`,
`plot_maximum_gamma_estimates_general.py:67`). -/
noncomputable def omegaAbscissa : List ℝ := linspace 0 3 500

/-- A straight line and a dashed contour (`/repo/experiments/plot_duality_details/plot_maximum_gamma_estimates_in_omega_space.py:22-25`,
`plot_maximum_gamma_estimates_general.py:27,32,50,55`) for `K` communities and the estimate `γ`. -/
noncomputable def lineAndContour (lambertw : Int → ℝ → ℝ) (K : Nat) (γ : ℝ) : List (ℝ × ℝ) × List (ℝ × ℝ) :=
  (omegaAbscissa.map fun x => (x, possibleOmega K x), omegaAbscissa.map fun x => (x, parametricOmega lambertw γ x))

/-- Figure 6.2 and the two panels of figure 6.3 draw the same lines and contours
(`/repo/experiments/plot_duality_details/plot_maximum_gamma_estimates_in_omega_space.py:22-25`,
`plot_maximum_gamma_estimates_general.py:22-62`). -/
noncomputable def omegaFigure (lambertw : Int → ℝ → ℝ) : List (List (ℝ × ℝ) × List (ℝ × ℝ)) :=
  [lineAndContour lambertw 2 1, lineAndContour lambertw 3 (10926 / 10000)]

/-- The two filled areas of a panel of figure 6.3: `(x, y1, y2)`
(`/repo/experiments/plot_duality_details/plot_maximum_gamma_estimates_general.py:28-31,51-54,68-71`). -/
noncomputable def filledAreas (K : Nat) : List (ℝ × ℝ × ℝ) × List (ℝ × ℝ × ℝ) :=
  ((linspace 0 1 500).map fun x => (x, possibleOmega K x, 2), (linspace 1 3 500).map fun x => (x, possibleOmega K x, 0))

end Verif
