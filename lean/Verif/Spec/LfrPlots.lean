import Verif.Model.LfrPlots

/-!
# The plots of the LFR benchmark (specification)
-/

namespace Verif.Spec
open Verif

/-- How many of the numbers are at most `x`. -/
noncomputable def atMost (data : List ℝ) (x : ℝ) : Nat := data.countP fun y => decide (y ≤ x)

/-- How many of the numbers are at least `x`. -/
noncomputable def atLeast (data : List ℝ) (x : ℝ) : Nat := data.countP fun y => decide (x ≤ y)

/-- A point with error bars that shows the data: half of the numbers are at or below the point and half of them at or above, a
quarter of them at or below the lower end of the bar and a quarter of them at or above its upper end; the point is on the bar,
and the bar within the range of the data. -/
structure Shows (data : List ℝ) (median down up : ℝ) : Prop where
  half_below : data.length ≤ 2 * atMost data median
  half_above : data.length ≤ 2 * atLeast data median
  quarter_below : data.length ≤ 4 * atMost data (median - down)
  quarter_above : data.length ≤ 4 * atLeast data (median + up)
  down_nonneg : 0 ≤ down
  up_nonneg : 0 ≤ up
  range : ∃ lo ∈ data, ∃ hi ∈ data, lo ≤ median - down ∧ median + up ≤ hi

/-- The rows with data: at least one graph has a score. -/
def withData (dict : List (ℝ × List (List ℝ))) : List (ℝ × List (List ℝ)) := dict.filter fun row => decide (row.2.flatten ≠ [])

end Verif.Spec
