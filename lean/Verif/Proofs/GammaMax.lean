import Mathlib.Topology.Order.Compact
import Mathlib.Topology.ContinuousOn
import Mathlib.Analysis.SpecialFunctions.Log.Basic
import Mathlib.Tactic.Positivity
import Verif.Spec.GammaMax
import Verif.Proofs.LogMean
import Verif.Proofs.Omega

namespace Verif
open Real Spec

/-- The expected gamma estimate as a function of `y = 1 / x`. -/
noncomputable def yGamma (K : Nat) (y : ℝ) : ℝ := K * (y - 1) / (y + K - 1) / log y

variable {K : Nat} {y : ℝ}

theorem expectedGamma_eq {x : ℝ} (h0 : 0 < x) (h1 : x < 1) : expectedGamma K x = .ok (yGamma K (1 / x)) := by
  have hy : 1 < 1 / x := by rw [one_lt_div h0]; exact h1
  have hK : (0 : ℝ) ≤ K := Nat.cast_nonneg K
  unfold expectedGamma
  rw [pyDiv, if_neg h0.ne', Py.ok_bind, pyDiv, if_neg (by linarith), Py.ok_bind, pyLog_pos (by linarith), Py.ok_bind, pyDiv,
    if_neg (log_pos hy).ne']
  rfl

theorem expectedGammas_eq : expectedGammas K = yGamma K '' Set.Ioi 1 := by
  ext g
  constructor
  · rintro ⟨x, h0, h1, h⟩
    rw [expectedGamma_eq h0 h1] at h
    exact ⟨1 / x, by rw [Set.mem_Ioi, one_lt_div h0]; exact h1, Except.ok.inj h⟩
  · rintro ⟨y, hy, rfl⟩
    have hy : 1 < y := hy
    have hy0 : 0 < y := by linarith
    have h1 : 1 / y < 1 := by rw [div_lt_one hy0]; exact hy
    refine ⟨1 / y, by positivity, h1, ?_⟩
    rw [expectedGamma_eq (by positivity) h1, one_div_one_div]

theorem one_lt_q (hy : 1 < y) : 1 < (y - 1) / log y := by
  rw [one_lt_div (log_pos hy)]
  exact log_lt_sub_one_of_pos (by linarith) (by linarith)

theorem q_lt (hy : 1 < y) : (y - 1) / log y < (y + 1) / 2 := by
  have := logMean_lt_arith one_pos hy
  rwa [log_one, sub_zero] at this

theorem q_mono {z : ℝ} (hy : 1 < y) (hyz : y ≤ z) : (y - 1) / log y ≤ (z - 1) / log z := by
  rcases hyz.eq_or_lt with rfl | h
  · exact le_rfl
  · have := logMean_strictMono one_pos (by linarith : 0 < y) (by linarith) (by linarith) h
    rw [log_one, sub_zero, sub_zero] at this
    exact this.le

theorem yGamma_q (K : Nat) (y : ℝ) : yGamma K y = K / (y + K - 1) * ((y - 1) / log y) := by
  unfold yGamma
  ring

theorem yGamma_pos (hK : 0 < K) (hy : 1 < y) : 0 < yGamma K y := by
  have hK : (0 : ℝ) < K := by exact_mod_cast hK
  rw [yGamma_q]
  exact mul_pos (div_pos hK (by linarith)) (by linarith [one_lt_q hy])

theorem yGamma_lt_q (hy : 1 < y) : yGamma K y < (y - 1) / log y := by
  have hK : (0 : ℝ) ≤ K := Nat.cast_nonneg K
  rw [yGamma_q]
  have h := one_lt_q hy
  have h1 : K / (y + K - 1) < 1 := by rw [div_lt_one (by linarith)]; linarith
  have : K / (y + K - 1) * ((y - 1) / log y) < 1 * ((y - 1) / log y) := mul_lt_mul_of_pos_right h1 (by linarith)
  linarith

theorem yGamma_lt_log (hK : 0 < K) (hy : 1 < y) : yGamma K y < K / log y := by
  have hK : (0 : ℝ) < K := by exact_mod_cast hK
  unfold yGamma
  refine div_lt_div_of_pos_right ?_ (log_pos hy)
  rw [div_lt_iff₀ (by linarith)]
  nlinarith

theorem yGamma_two_lt (hy : 1 < y) : yGamma 2 y < 1 := by
  have h := q_lt hy
  rw [yGamma_q]
  have h2 : (0 : ℝ) < y + 2 - 1 := by linarith
  have : ((2 : ℕ) : ℝ) / (y + ((2 : ℕ) : ℝ) - 1) * ((y - 1) / log y) <
      ((2 : ℕ) : ℝ) / (y + ((2 : ℕ) : ℝ) - 1) * ((y + 1) / 2) := by
    refine mul_lt_mul_of_pos_left h ?_
    push_cast
    positivity
  refine lt_of_lt_of_eq this ?_
  push_cast
  have : y + 2 - 1 ≠ 0 := by linarith
  field_simp
  ring

theorem one_lt_yGamma (hK : 3 ≤ K) : 1 < yGamma K (9 / 4) := by
  have hK : (3 : ℝ) ≤ K := by exact_mod_cast hK
  have h := geom_lt_logMean (a := 9 / 4) (b := 1) one_pos (by norm_num)
  rw [log_one, sub_zero, mul_one, show (9 / 4 : ℝ) = (3 / 2) * (3 / 2) by norm_num, sqrt_mul_self (by norm_num)] at h
  rw [yGamma_q, show (9 / 4 : ℝ) = (3 / 2) * (3 / 2) by norm_num]
  have hpos : (0 : ℝ) < K / (3 / 2 * (3 / 2) + K - 1) := div_pos (by linarith) (by linarith)
  have h2 := mul_lt_mul_of_pos_left h hpos
  refine lt_of_le_of_lt ?_ h2
  rw [div_mul_eq_mul_div, one_le_div (by linarith)]
  linarith

theorem yGamma_continuousOn (hK : 0 < K) : ContinuousOn (yGamma K) (Set.Ioi 1) := by
  have hK : (0 : ℝ) < K := by exact_mod_cast hK
  unfold yGamma
  refine ContinuousOn.div (ContinuousOn.div ?_ ?_ ?_) ?_ ?_
  · fun_prop
  · fun_prop
  · intro y hy
    have : 1 < y := hy
    linarith
  · refine continuousOn_log.mono ?_
    intro y hy
    have hy : 1 < y := hy
    simp only [Set.mem_compl_iff, Set.mem_singleton_iff]
    linarith
  · intro y hy
    exact (log_pos hy).ne'

/-- For three or more communities the maximum is attained. -/
theorem yGamma_max (hK : 3 ≤ K) : ∃ y, 1 < y ∧ ∀ z, 1 < z → yGamma K z ≤ yGamma K y := by
  have hK0 : 0 < K := by omega
  have h1 := one_lt_yGamma hK
  set z₀ := yGamma K (9 / 4) with hz₀
  have hlow : ∀ z, 1 < z → z < 2 * z₀ - 1 → yGamma K z < z₀ := by
    intro z hz hlt
    have := yGamma_lt_q (K := K) hz
    have := q_lt hz
    linarith
  have hhigh : ∀ z, 1 < z → exp K < z → yGamma K z < z₀ := by
    intro z hz hlt
    have hlog : (K : ℝ) < log z := by
      rw [lt_log_iff_exp_lt (by linarith)]; exact hlt
    have h2 := yGamma_lt_log hK0 hz
    have h3 : (K : ℝ) / log z < 1 := by rw [div_lt_one (log_pos hz)]; exact hlog
    linarith
  have hmem : (9 / 4 : ℝ) ∈ Set.Icc (2 * z₀ - 1) (exp K) := by
    constructor
    · by_contra h
      exact lt_irrefl _ (hlow _ (by norm_num) (not_le.mp h))
    · by_contra h
      exact lt_irrefl _ (hhigh _ (by norm_num) (not_le.mp h))
  obtain ⟨y, hy, hmax⟩ := (isCompact_Icc (a := 2 * z₀ - 1) (b := exp (K : ℝ))).exists_isMaxOn ⟨_, hmem⟩
    ((yGamma_continuousOn hK0).mono fun y hy => by
      have : 2 * z₀ - 1 ≤ y := hy.1
      show 1 < y
      linarith)
  have hmax : ∀ z ∈ Set.Icc (2 * z₀ - 1) (exp (K : ℝ)), yGamma K z ≤ yGamma K y := fun z hz => hmax hz
  have hy1 : 1 < y := by linarith [hy.1]
  refine ⟨y, hy1, fun z hz => ?_⟩
  have hz0 := hmax _ hmem
  by_cases ha : 2 * z₀ - 1 ≤ z
  · by_cases hb : z ≤ exp K
    · exact hmax z ⟨ha, hb⟩
    · exact ((hhigh z hz (not_le.mp hb)).trans_le hz0).le
  · exact ((hlow z hz (not_le.mp ha)).trans_le hz0).le

theorem yGamma_two_lub : IsLUB (expectedGammas 2) 1 := by
  rw [expectedGammas_eq]
  constructor
  · rintro g ⟨y, hy, rfl⟩
    exact (yGamma_two_lt hy).le
  · intro b hb
    by_contra hlt
    have hlt := not_le.mp hlt
    have hb0 : 0 < b := lt_of_lt_of_le (yGamma_pos (by norm_num) (by norm_num : (1 : ℝ) < 2)) (hb ⟨2, by norm_num, rfl⟩)
    -- choose y with 2 / (y + 1) > b
    have hy : 1 < (1 / b + 1) / 2 := by
      have : 1 < 1 / b := by rw [one_lt_div hb0]; exact hlt
      linarith
    have h1 := hb ⟨_, hy, rfl⟩
    have h2 := one_lt_q hy
    rw [yGamma_q] at h1
    set y := (1 / b + 1) / 2 with hyd
    have h3 : ((2 : ℕ) : ℝ) / (y + ((2 : ℕ) : ℝ) - 1) < ((2 : ℕ) : ℝ) / (y + ((2 : ℕ) : ℝ) - 1) * ((y - 1) / log y) := by
      have hp : (0 : ℝ) < ((2 : ℕ) : ℝ) / (y + ((2 : ℕ) : ℝ) - 1) := by push_cast; exact div_pos two_pos (by linarith)
      have := mul_lt_mul_of_pos_left h2 hp
      linarith
    have h4 : b < ((2 : ℕ) : ℝ) / (y + ((2 : ℕ) : ℝ) - 1) := by
      push_cast
      rw [lt_div_iff₀ (by linarith), hyd]
      have : b * ((1 / b + 1) / 2 + 2 - 1) = (1 + 3 * b) / 2 := by field_simp; ring
      rw [this]
      linarith
    linarith

theorem yGamma_three_lub (hK : 3 ≤ K) : ∃ y, 1 < y ∧ IsLUB (expectedGammas K) (yGamma K y) := by
  obtain ⟨y, hy, h⟩ := yGamma_max hK
  refine ⟨y, hy, ?_⟩
  rw [expectedGammas_eq]
  constructor
  · rintro g ⟨z, hz, rfl⟩
    exact h z hz
  · intro b hb
    exact hb ⟨y, hy, rfl⟩

theorem yGamma_succ (hK : 0 < K) (hy : 1 < y) :
    yGamma K y < yGamma (K + 1) y ∧ yGamma (K + 1) y < yGamma K y * ((K + 1) / K) := by
  have hK : (0 : ℝ) < K := by exact_mod_cast hK
  have hq := one_lt_q hy
  have hq0 : 0 < (y - 1) / log y := by linarith
  rw [yGamma_q, yGamma_q]
  push_cast
  constructor
  · refine mul_lt_mul_of_pos_right ?_ hq0
    rw [div_lt_div_iff₀ (by linarith) (by linarith)]
    nlinarith
  · have : (K : ℝ) / (y + K - 1) * ((y - 1) / log y) * ((K + 1) / K) = (K + 1) / (y + K - 1) * ((y - 1) / log y) := by
      field_simp
    rw [this]
    refine mul_lt_mul_of_pos_right ?_ hq0
    exact div_lt_div_of_pos_left (by linarith) (by linarith) (by linarith)

theorem yGamma_upper (hK : 0 < K) (hy : 1 < y) : yGamma K y < K / log (K + 1) := by
  have hKr : (0 : ℝ) < K := by exact_mod_cast hK
  by_cases h : y ≤ K + 1
  · have h1 := q_mono hy h
    have h2 := yGamma_lt_q (K := K) hy
    rw [add_sub_cancel_right] at h1
    linarith
  · have h := not_le.mp h
    have h1 := yGamma_lt_log hK hy
    refine h1.trans_le (div_le_div_of_nonneg_left hKr.le (log_pos (by linarith)) (log_le_log (by linarith) h.le))

theorem yGamma_half (hK : 2 ≤ K) (hy : 1 < y) : yGamma K y < K / 2 := by
  have hKr : (2 : ℝ) ≤ K := by exact_mod_cast hK
  have hq := q_lt hy
  rw [yGamma_q]
  have hp : (0 : ℝ) < K / (y + K - 1) := div_pos (by linarith) (by linarith)
  refine (mul_lt_mul_of_pos_left hq hp).trans_le ?_
  rw [div_mul_div_comm, div_le_div_iff₀ (by linarith) two_pos]
  nlinarith

end Verif
