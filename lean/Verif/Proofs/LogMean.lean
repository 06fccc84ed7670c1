import Mathlib.Analysis.SpecialFunctions.Log.Basic
import Mathlib.Analysis.SpecialFunctions.Trigonometric.DerivHyp
import Mathlib.Analysis.Convex.SpecificFunctions.Basic
import Mathlib.Analysis.Convex.Slope
import Mathlib.Analysis.Real.Sqrt
import Mathlib.Tactic.Linarith
import Mathlib.Tactic.FieldSimp
import Mathlib.Tactic.Ring

/-! Logarithmic mean of two positive numbers. -/

namespace Verif
open Real

theorem logDiff_pos {a b : ℝ} (hb : 0 < b) (h : b < a) : 0 < log a - log b := by
  have := log_lt_log hb h; linarith

theorem logMean_lt_arith {a b : ℝ} (hb : 0 < b) (h : b < a) : (a - b) / (log a - log b) < (a + b) / 2 := by
  have ha : 0 < a := hb.trans h
  have hx : 0 < a / b - 1 := by rw [sub_pos, one_lt_div hb]; exact h
  have h1 := lt_log_one_add_of_pos hx
  have h2 : 2 * (a / b - 1) / (a / b - 1 + 2) = 2 * (a - b) / (a + b) := by
    have hab : a + b ≠ 0 := by positivity
    have e1 : a / b - 1 + 2 = (a + b) / b := by field_simp; ring
    rw [e1]; field_simp
  have h3 : (1 : ℝ) + (a / b - 1) = a / b := by ring
  rw [h2, h3, log_div ha.ne' hb.ne', div_lt_iff₀ (by linarith)] at h1
  rw [div_lt_div_iff₀ (logDiff_pos hb h) two_pos]
  linarith

theorem geom_lt_logMean {a b : ℝ} (hb : 0 < b) (h : b < a) : sqrt (a * b) < (a - b) / (log a - log b) := by
  have ha : 0 < a := hb.trans h
  set x := sqrt (a / b) with hx
  have hxpos : 0 < x := sqrt_pos.mpr (div_pos ha hb)
  have hx1 : 1 < x := by
    rw [hx, show (1 : ℝ) = sqrt 1 by simp]
    exact sqrt_lt_sqrt zero_le_one ((one_lt_div hb).mpr h)
  have h1 := self_lt_sinh_iff.mpr (log_pos hx1)
  rw [sinh_log hxpos] at h1
  have hlx : log x = (log a - log b) / 2 := by rw [hx, log_sqrt (div_pos ha hb).le, log_div ha.ne' hb.ne']
  have hxx : x * x = a / b := mul_self_sqrt (div_pos ha hb).le
  have hs : sqrt (a * b) = b * x := by
    rw [hx, show a * b = (a / b) * (b * b) by field_simp, sqrt_mul (div_pos ha hb).le, sqrt_mul_self hb.le]; ring
  rw [hs, lt_div_iff₀ (logDiff_pos hb h)]
  have h2 : log a - log b < x - x⁻¹ := by rw [hlx] at h1; linarith
  have h3 : b * x * (log a - log b) < b * x * (x - x⁻¹) := mul_lt_mul_of_pos_left h2 (by positivity)
  have h4 : b * x * (x - x⁻¹) = a - b := by
    have : b * x * (x - x⁻¹) = b * (x * x) - b * (x * x⁻¹) := by ring
    rw [this, hxx, mul_inv_cancel₀ hxpos.ne']; field_simp
  linarith

theorem logMean_symm (a b : ℝ) : (a - b) / (log a - log b) = (b - a) / (log b - log a) := by
  rw [← neg_div_neg_eq]; congr 1 <;> ring

theorem logMean_strictMono {b x y : ℝ} (hb : 0 < b) (hx : 0 < x) (hxb : x ≠ b) (hyb : y ≠ b) (hxy : x < y) :
    (x - b) / (log x - log b) < (y - b) / (log y - log b) := by
  have hy : 0 < y := hx.trans hxy
  have h := strictConcaveOn_log_Ioi.secant_strict_mono (a := b) (x := x) (y := y) hb hx hy hxb hyb hxy
  have hpos : ∀ z : ℝ, 0 < z → z ≠ b → 0 < (log z - log b) / (z - b) := by
    intro z hz hzb
    rcases lt_or_gt_of_ne hzb with h | h
    · have := log_lt_log hz h
      exact div_pos_of_neg_of_neg (by linarith) (by linarith)
    · have := log_lt_log hb h
      exact div_pos (by linarith) (by linarith)
  have h1 := hpos x hx hxb
  have h2 := hpos y hy hyb
  have := one_div_lt_one_div_of_lt h2 h
  rwa [one_div_div, one_div_div] at this

end Verif
