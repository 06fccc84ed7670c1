import Mathlib.Analysis.Complex.ExponentialBounds
import Mathlib.Analysis.Calculus.Deriv.MeanValue
import Mathlib.Analysis.SpecialFunctions.Log.Deriv
import Verif.Model.GammaScan
import Verif.Proofs.GammaMax

namespace Verif
open Real Spec

variable {K : Nat} {y : ℝ}

/-- moving `y` up costs at most the ratio -/
theorem yGamma_ratio (hK : 0 < K) (hy : 1 < y) {z : ℝ} (hz : y ≤ z) : yGamma K y * (y / z) ≤ yGamma K z := by
  have hKr : (0 : ℝ) < K := by exact_mod_cast hK
  have hK1 : (1 : ℝ) ≤ K := by exact_mod_cast hK
  have h1 := q_mono hy hz
  have h0 : 0 < (y - 1) / log y := by linarith [one_lt_q hy]
  have hzp : 0 < z := by linarith
  rw [yGamma_q, yGamma_q]
  have h2 : (K : ℝ) / (y + K - 1) * (y / z) ≤ K / (z + K - 1) := by
    rw [div_mul_div_comm, div_le_div_iff₀ (mul_pos (by linarith) hzp) (by linarith)]
    have : y * (z + K - 1) ≤ (y + K - 1) * z := by nlinarith
    nlinarith
  calc (K : ℝ) / (y + K - 1) * ((y - 1) / log y) * (y / z) = (K / (y + K - 1) * (y / z)) * ((y - 1) / log y) := by ring
    _ ≤ K / (z + K - 1) * ((y - 1) / log y) := mul_le_mul_of_nonneg_right h2 h0.le
    _ ≤ _ := mul_le_mul_of_nonneg_left h1 (div_nonneg hKr.le (by linarith))

theorem yGamma_nine_four (hK : 3 ≤ K) : 18 / 17 < yGamma K (9 / 4) := by
  have hK : (3 : ℝ) ≤ K := by exact_mod_cast hK
  have h := geom_lt_logMean (a := 9 / 4) (b := 1) one_pos (by norm_num)
  rw [log_one, sub_zero, mul_one, show (9 / 4 : ℝ) = (3 / 2) * (3 / 2) by norm_num, sqrt_mul_self (by norm_num)] at h
  rw [yGamma_q, show (9 / 4 : ℝ) = (3 / 2) * (3 / 2) by norm_num]
  have hpos : (0 : ℝ) < K / (3 / 2 * (3 / 2) + K - 1) := div_pos (by linarith) (by linarith)
  have h2 := mul_lt_mul_of_pos_left h hpos
  refine lt_of_le_of_lt ?_ h2
  rw [div_mul_eq_mul_div, div_le_div_iff₀ (by norm_num) (by linarith)]
  linarith

/-- where the largest estimate is attained -/
theorem yGamma_argmax (hK : 3 ≤ K) (hy : 1 < y) (hmax : ∀ z, 1 < z → yGamma K z ≤ yGamma K y) : 19 / 17 < y ∧ y ≤ 2 * K ^ 2 := by
  have hK0 : 0 < K := by omega
  have hKr : (3 : ℝ) ≤ K := by exact_mod_cast hK
  constructor
  · have h1 := yGamma_nine_four hK
    have h2 := hmax (9 / 4) (by norm_num)
    have h3 := yGamma_lt_q (K := K) hy
    have h4 := q_lt hy
    linarith
  · by_contra hlt
    have hlt := not_le.mp hlt
    have h1 := hmax K (by linarith)
    have h2 := yGamma_lt_log hK0 hy
    have hlK : 0 < log K := log_pos (by linarith)
    have hl2 : 0 < log 2 := log_pos (by norm_num)
    have hly : log 2 + 2 * log K < log y := by
      have := log_lt_log (by positivity) hlt
      rw [log_mul (by norm_num) (by positivity), log_pow] at this
      push_cast at this
      exact this
    have h3 : (K : ℝ) / log y < K / (log 2 + 2 * log K) := div_lt_div_of_pos_left (by linarith) (by linarith) hly
    have hpow : log K ≤ (K - 1) * log 2 := by
      have : K ≤ 2 ^ (K - 1) := by
        obtain ⟨k, rfl⟩ : ∃ k, K = k + 1 := ⟨K - 1, by omega⟩
        exact Nat.lt_two_pow_self
      have h : (K : ℝ) ≤ 2 ^ (K - 1) := by exact_mod_cast this
      have := log_le_log (by linarith) h
      rw [log_pow, Nat.cast_sub (by omega)] at this
      simpa using this
    have h4 : (K : ℝ) / (log 2 + 2 * log K) ≤ yGamma K K := by
      unfold yGamma
      rw [div_div, div_le_div_iff₀ (by linarith) (mul_pos (by linarith) hlK)]
      have : (K + K - 1 : ℝ) * log K ≤ (K - 1) * (log 2 + 2 * log K) := by nlinarith
      nlinarith
    linarith

theorem log_two_eight : log (14 / 5) < 102965 / 100000 := by
  rw [log_lt_iff_lt_exp (by norm_num)]
  have h1 := exp_one_gt_d9
  have h2 := quadratic_le_exp_of_nonneg (x := 2965 / 100000) (by norm_num)
  have : exp (102965 / 100000) = exp 1 * exp (2965 / 100000) := by rw [← exp_add]; norm_num
  rw [this]
  nlinarith

theorem yGamma_three_lower : 10926 / 10000 < yGamma 3 (14 / 5) := by
  have h := log_two_eight
  have hp : 0 < log (14 / 5) := log_pos (by norm_num)
  unfold yGamma
  push_cast
  rw [lt_div_iff₀ hp]
  nlinarith

/-- the same at the 291st point of the abscissa of the figures -/
theorem yGamma_three_drawn : 10926 / 10000 < yGamma 3 (291 / 104) := by
  have h : log (291 / 104) < 102896 / 100000 := by
    rw [log_lt_iff_lt_exp (by norm_num)]
    have h1 := exp_one_gt_d9
    have h2 := quadratic_le_exp_of_nonneg (x := 2896 / 100000) (by norm_num)
    have : exp (102896 / 100000) = exp 1 * exp (2896 / 100000) := by rw [← exp_add]; norm_num
    rw [this]
    nlinarith
  have hp : 0 < log (291 / 104) := log_pos (by norm_num)
  unfold yGamma
  push_cast
  rw [lt_div_iff₀ hp]
  nlinarith

theorem log_lower : 10356335 / 10000000 < log (28169 / 10000) := by
  rw [lt_log_iff_exp_lt (by norm_num)]
  have h1 := exp_one_lt_d9
  have h2 := exp_bound' (x := 356335 / 10000000) (by norm_num) (by norm_num) (n := 4) (by norm_num)
  have : exp (10356335 / 10000000) = exp 1 * exp (356335 / 10000000) := by rw [← exp_add]; norm_num
  rw [this]
  norm_num [Finset.sum_range_succ, Nat.factorial] at h2
  have hp := exp_pos (356335 / 10000000 : ℝ)
  nlinarith

/-- the difference whose sign bounds the estimate for three communities -/
noncomputable def gapThree (c y : ℝ) : ℝ := c * log y - 3 * (y - 1) / (y + 2)

theorem gapThree_deriv (c : ℝ) (hy : 0 < y) : HasDerivAt (gapThree c) (c / y - 9 / (y + 2) ^ 2) y := by
  have h1 := (hasDerivAt_log hy.ne').const_mul c
  have h2 : HasDerivAt (fun y : ℝ => 3 * (y - 1) / (y + 2)) ((3 * (y + 2) - 3 * (y - 1) * 1) / (y + 2) ^ 2) y := by
    have ha : HasDerivAt (fun y : ℝ => 3 * (y - 1)) 3 y := by
      have := ((hasDerivAt_id y).sub_const 1).const_mul 3
      simpa using this
    have hb : HasDerivAt (fun y : ℝ => y + 2) 1 y := (hasDerivAt_id y).add_const 2
    exact ha.div hb (by linarith)
  refine (h1.sub h2).congr_deriv ?_
  have : y + 2 ≠ 0 := by linarith
  field_simp
  ring

theorem gapThree_continuous (c : ℝ) {a : ℝ} (ha : 0 < a) : ContinuousOn (gapThree c) (Set.Ici a) := fun y hy =>
  (gapThree_deriv c (ha.trans_le hy)).continuousAt.continuousWithinAt

theorem yGamma_three_upper (hy : 1 < y) : yGamma 3 y < 109265 / 100000 := by
  set y2 : ℝ := 28169 / 10000 with hy2
  set c : ℝ := 9 * y2 / (y2 + 2) ^ 2 with hc
  have hc1 : c < 109265 / 100000 := by rw [hc, hy2]; norm_num
  have hc0 : 0 < c := by rw [hc, hy2]; norm_num
  have hd : ∀ y, 0 < y → c / y - 9 / (y + 2) ^ 2 = c * (y - y2) * (y - 4 / y2) / (y * (y + 2) ^ 2) := by
    intro y hy
    rw [hc]
    have h2 : y2 ≠ 0 := by rw [hy2]; norm_num
    have h3 : y2 + 2 ≠ 0 := by rw [hy2]; norm_num
    have h4 : y + 2 ≠ 0 := by linarith
    field_simp
    ring
  have hg1 : gapThree c 1 = 0 := by unfold gapThree; rw [log_one]; norm_num
  have hg2 : 0 < gapThree c y2 := by
    unfold gapThree
    have h := log_lower
    have h' : c * (10356335 / 10000000) < c * log y2 := mul_lt_mul_of_pos_left h hc0
    have : 3 * (y2 - 1) / (y2 + 2) < c * (10356335 / 10000000) := by rw [hc, hy2]; norm_num
    linarith
  have key : 0 ≤ gapThree c y := by
    rcases le_total y (4 / y2) with h | h
    · have hm : MonotoneOn (gapThree c) (Set.Icc 1 (4 / y2)) := by
        refine monotoneOn_of_deriv_nonneg (convex_Icc _ _) ((gapThree_continuous c one_pos).mono fun z hz => hz.1) ?_ ?_
        · intro z hz
          rw [interior_Icc] at hz
          exact (gapThree_deriv c (by linarith [hz.1])).differentiableAt.differentiableWithinAt
        · intro z hz
          rw [interior_Icc] at hz
          have hz0 : 0 < z := by linarith [hz.1]
          rw [(gapThree_deriv c hz0).deriv, hd z hz0]
          have h1 : z - 4 / y2 ≤ 0 := by linarith [hz.2]
          have h2 : z - y2 ≤ 0 := by
            have := hz.2
            rw [hy2] at this ⊢
            norm_num at this ⊢
            linarith
          refine div_nonneg ?_ (by positivity)
          rw [mul_assoc]
          exact mul_nonneg hc0.le (mul_nonneg_of_nonpos_of_nonpos h2 h1)
      have := hm ⟨le_rfl, hy.le.trans h⟩ ⟨hy.le, h⟩ hy.le
      linarith
    · rcases le_total y y2 with h2 | h2
      · have hm : AntitoneOn (gapThree c) (Set.Icc (4 / y2) y2) := by
          refine antitoneOn_of_deriv_nonpos (convex_Icc _ _) ((gapThree_continuous c (a := 4 / y2) (by rw [hy2]; norm_num)).mono
            fun z hz => hz.1) ?_ ?_
          · intro z hz
            rw [interior_Icc] at hz
            have : (0 : ℝ) < 4 / y2 := by rw [hy2]; norm_num
            exact (gapThree_deriv c (by linarith [hz.1])).differentiableAt.differentiableWithinAt
          · intro z hz
            rw [interior_Icc] at hz
            have : (0 : ℝ) < 4 / y2 := by rw [hy2]; norm_num
            have hz0 : 0 < z := by linarith [hz.1]
            rw [(gapThree_deriv c hz0).deriv, hd z hz0]
            refine div_nonpos_of_nonpos_of_nonneg ?_ (by positivity)
            rw [mul_assoc]
            exact mul_nonpos_of_nonneg_of_nonpos hc0.le
              (mul_nonpos_of_nonpos_of_nonneg (by linarith [hz.2]) (by linarith [hz.1]))
        have := hm ⟨h, h2⟩ ⟨h.trans h2, le_rfl⟩ h2
        linarith
      · have hm : MonotoneOn (gapThree c) (Set.Ici y2) := by
          have hp : (0 : ℝ) < y2 := by rw [hy2]; norm_num
          refine monotoneOn_of_deriv_nonneg (convex_Ici _) (gapThree_continuous c hp) ?_ ?_
          · intro z hz
            rw [interior_Ici] at hz
            exact (gapThree_deriv c (hp.trans hz)).differentiableAt.differentiableWithinAt
          · intro z hz
            rw [interior_Ici] at hz
            have hz : y2 < z := hz
            have hz0 : 0 < z := hp.trans hz
            rw [(gapThree_deriv c hz0).deriv, hd z hz0]
            have : 4 / y2 ≤ y2 := by rw [hy2]; norm_num
            refine div_nonneg ?_ (by positivity)
            rw [mul_assoc]
            exact mul_nonneg hc0.le (mul_nonneg (by linarith) (sub_nonneg.mpr (this.trans hz.le)))
        have := hm (Set.self_mem_Ici) h2 h2
        linarith
  have hl : 0 < log y := log_pos hy
  unfold yGamma
  push_cast
  rw [div_lt_iff₀ hl]
  unfold gapThree at key
  have : y + 3 - 1 = y + 2 := by ring
  rw [this]
  nlinarith

end Verif
