import Verif.Model.Experiments
import Verif.Model.Snap

/-!
# Figures A.1 and A.2 (`experiments/plot_duality_details/plot_gamma_omega_duality.py`)

Exact arithmetic; of matplotlib only the data handed over.
-/

namespace Verif

/-- `xs = np.linspace(PLOT_START, PLOT_END, 1000)` (`/repo/experiments/plot_duality_details/plot_gamma_omega_duality.py:9-10,88`). -/
noncomputable def dualityAbscissa : List ℝ := linspace 0 3 1000

/-- `gamma_centers` (`/repo/experiments/plot_duality_details/plot_gamma_omega_duality.py:89`). -/
noncomputable def gammaCenters : List ℝ := [1 / 2, 1, 3 / 2, 2]

/-- `color_band_starts = np.linspace(PLOT_START, PLOT_END, NUM_COLOR_BANDS)`
(`/repo/experiments/plot_duality_details/plot_gamma_omega_duality.py:9-11,90`). -/
noncomputable def bandStarts : List ℝ := linspace 0 3 11

/-- A contour: the ordinates over `xs` (`/repo/experiments/plot_duality_details/plot_gamma_omega_duality.py:28,53,71-72,74`). -/
noncomputable def contour (lambertw : Int → ℝ → ℝ) (γ : ℝ) : List ℝ := dualityAbscissa.map (parametricOmega lambertw γ)

/-- A filled band of the figures: the value that determines its colour (or label), its lower and its upper polyline over `xs`. -/
structure FilledBand where
  value : ℝ
  lower : List ℝ
  upper : List ℝ

/-- The loop of `plot_figure1` (`/repo/experiments/plot_duality_details/plot_gamma_omega_duality.py:28-33`): the curves with the value
that determines their colour, and the bands between successive ones. -/
noncomputable def dualityBands (lambertw : Int → ℝ → ℝ) : List (ℝ × List ℝ) × List FilledBand :=
  let contours := bandStarts.map (contour lambertw)
  (bandStarts.zip contours,
    (List.range bandStarts.length).filterMap fun (i : Nat) =>
      if i + 1 < contours.length then
        match bandStarts[i]?, contours[i]?, contours[i + 1]? with
        | some γ, some lower, some upper => some ⟨γ, lower, upper⟩
        | _, _, _ => none
      else none)

/-- The labelled curves of `plot_figure2`, besides the diagonal
(`/repo/experiments/plot_duality_details/plot_gamma_omega_duality.py:51-53`). -/
noncomputable def dualityCurves (lambertw : Int → ℝ → ℝ) : List (ℝ × List ℝ) := gammaCenters.map fun γ => (γ, contour lambertw γ)

/-- The bands and the curves of `plot_figure3` (`/repo/experiments/plot_duality_details/plot_gamma_omega_duality.py:69-74`). -/
noncomputable def dualityRanges (lambertw : Int → ℝ → ℝ) : List (FilledBand × List ℝ) :=
  gammaCenters.map fun γ => (⟨γ, contour lambertw (γ - 1 / 10), contour lambertw (γ + 1 / 10)⟩, contour lambertw γ)

end Verif
