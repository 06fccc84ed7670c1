import Verif.Model.Experiments
import Verif.Spec.Experiments
import Verif.Props.Estimation
import Mathlib.Analysis.SpecialFunctions.Log.NegMulLog
import Mathlib.Algebra.Order.Chebyshev

/-!
# Properties C70, C71: gamma/omega duality and the largest possible gamma estimates
-/

namespace Verif.Props
open Verif Verif.Spec Finset Real

/-! ## C70 -/

/-- `t ≤ -1` or `-1 < t < 0` determine `z = t e^t` in `[-1/e, 0)`. -/
theorem mul_exp_range {t : ℝ} (ht : t < 0) : -exp (-1) ≤ t * exp t ∧ t * exp t < 0 := by
  refine ⟨?_, mul_neg_of_neg_of_pos ht (exp_pos t)⟩
  have h := add_one_le_exp (-t - 1)
  have h1 : -t ≤ exp (-t - 1) := by linarith
  have h2 : -t * exp t ≤ exp (-t - 1) * exp t := mul_le_mul_of_nonneg_right h1 (exp_pos t).le
  rw [← exp_add, show -t - 1 + t = -1 by ring] at h2
  linarith

variable {lambertw : Int → ℝ → ℝ}

theorem parametricOmega_spec (hW : SoundLambertW lambertw) {γ x : ℝ} (hγ : 0 < γ) (hx : 0 < x) :
    ∃ w, parametricOmega lambertw γ x = -γ * w ∧ w < 0 ∧ w * exp w = -x / γ * exp (-x / γ) ∧
      (x < γ → w ≤ -1) ∧ (γ ≤ x → -1 ≤ w) := by
  have ht : -x / γ < 0 := div_neg_of_neg_of_pos (by linarith) hγ
  obtain ⟨h1, h2⟩ := mul_exp_range ht
  have hz : -x * exp (-x / γ) / γ = -x / γ * exp (-x / γ) := by ring
  obtain ⟨w1, w2, w3, w4⟩ := hW _ h1 h2
  unfold parametricOmega
  rw [if_neg hγ.ne', hz]
  by_cases h : x < γ
  · rw [if_pos h]
    exact ⟨_, rfl, by linarith, w3, fun _ => w4, fun h' => absurd h (not_lt.mpr h')⟩
  · rw [if_neg h]
    refine ⟨_, rfl, ?_, w1, fun h' => absurd h' h, fun _ => w2⟩
    by_contra h'
    have := mul_nonneg (not_lt.mp h') (exp_pos (lambertw 0 (-x / γ * exp (-x / γ)))).le
    linarith

/-- **C70.** For `γ > 0` and one parameter `x > 0`, `x ≠ γ`, the curve `parametric_omega(γ, x)` of the figures is exactly
the set of second parameters whose gamma estimate is `γ`: it is positive, different from `x`, on the other side of `γ`,
its estimate is `γ`, and no other value has that estimate. -/
theorem c70_duality (hW : SoundLambertW lambertw) {γ x : ℝ} (hγ : 0 < γ) (hx : 0 < x) (hne : x ≠ γ) :
    0 < parametricOmega lambertw γ x ∧
    (x < γ ↔ γ < parametricOmega lambertw γ x) ∧
    ∀ y, gammaFromParameters x y = some (.fin γ) ↔ y = parametricOmega lambertw γ x := by
  obtain ⟨w, hw, hneg, he, hlt, hge⟩ := parametricOmega_spec hW hγ hx
  set t := -x / γ with ht
  have htneg : t < 0 := div_neg_of_neg_of_pos (by linarith) hγ
  have hxt : x = -γ * t := by rw [ht]; field_simp
  have htne : t ≠ -1 := fun h => hne (by rw [hxt, h]; ring)
  have hside : x < γ ↔ -1 < t := by
    rw [hxt]; constructor <;> intro h <;> nlinarith
  have hwt : w ≠ t := by
    rintro rfl
    by_cases h : x < γ
    · exact absurd (hside.mp h) (not_lt.mpr (hlt h))
    · exact htne (le_antisymm (not_lt.mp (fun h' => h (hside.mpr h'))) (hge (not_lt.mp h)))
  have hw1 : w ≠ -1 := by
    rintro rfl
    -- `t e^t = -1/e` only at `-1`
    have h := add_one_lt_exp (x := -t - 1) (fun h => htne (by linarith))
    have h2 : -t * exp t < exp (-t - 1) * exp t := mul_lt_mul_of_pos_right (by linarith) (exp_pos t)
    rw [← exp_add, show -t - 1 + t = -1 by ring] at h2
    linarith
  have hy0 : 0 < -γ * w := by nlinarith
  have hyx : -γ * w ≠ x := by
    rw [hxt]; intro h; exact hwt (mul_left_cancel₀ (by linarith : -γ ≠ 0) h)
  have hlog : log x - log (-γ * w) = w - t := by
    have h1 : log (w * exp w) = log (t * exp t) := by rw [he]
    rw [log_mul hneg.ne (exp_pos w).ne', log_mul htneg.ne (exp_pos t).ne', log_exp, log_exp] at h1
    rw [hxt, log_mul (by linarith) htneg.ne, log_mul (by linarith) hneg.ne]
    linarith
  have hmean : logMean x (-γ * w) = γ := by
    unfold logMean
    rw [hlog, hxt, div_eq_iff (sub_ne_zero.mpr hwt)]; ring
  refine ⟨hw ▸ hy0, ?_, ?_⟩
  · rw [hw]
    constructor
    · intro h
      have := lt_of_le_of_ne (hlt h) hw1
      nlinarith
    · intro h
      by_contra h'
      have := hge (not_lt.mp h')
      nlinarith
  · intro y
    rw [hw, (c27_degenerate_estimates x y).2.2.1]
    constructor
    · rintro ⟨_, hy, hxy, hg⟩
      by_contra hne'
      unfold logMean at hg hmean
      rw [logMean_symm] at hg hmean
      rcases lt_or_gt_of_ne hne' with h | h
      · have := logMean_strictMono hx hy (Ne.symm hxy) hyx h
        linarith
      · have := logMean_strictMono hx hy0 hyx (Ne.symm hxy) h
        linarith
    · rintro rfl
      exact ⟨hx, hy0, Ne.symm hyx, hmean.symm⟩

/-- **C70.** The curve is its own inverse. -/
theorem c70_involution (hW : SoundLambertW lambertw) {γ x : ℝ} (hγ : 0 < γ) (hx : 0 < x) (hne : x ≠ γ) :
    parametricOmega lambertw γ (parametricOmega lambertw γ x) = x := by
  obtain ⟨h0, hs, h⟩ := c70_duality hW hγ hx hne
  have hne' : parametricOmega lambertw γ x ≠ γ := by
    intro he
    have h1 := (h _).mpr rfl
    rw [he] at h1
    have h2 := ((c27_degenerate_estimates x γ).2.2.1 γ).mp h1
    obtain ⟨_, _, hxγ, hm⟩ := h2
    obtain ⟨g, hg, _, hmin, hmax, _⟩ := c26_logarithmic_mean hx hγ hxγ
    rw [h1] at hg
    cases hg
    rcases lt_or_gt_of_ne hxγ with h' | h'
    · rw [max_eq_right h'.le] at hmax; exact lt_irrefl _ hmax
    · rw [min_eq_right h'.le] at hmin; exact lt_irrefl _ hmin
  obtain ⟨_, _, h'⟩ := c70_duality hW hγ h0 hne'
  symm
  rw [← h']
  have h1 := (h _).mpr rfl
  have h2 := ((c27_degenerate_estimates x (parametricOmega lambertw γ x)).2.2.1 γ).mp h1
  rw [(c27_degenerate_estimates _ x).2.2.1]
  exact ⟨h2.2.1, h2.1, h2.2.2.1.symm, h2.2.2.2.trans (logMean_symm _ _)⟩

/-- **C70.** Where the two parameters meet (`x = γ`) the curve passes through `γ` itself, where the estimate is NaN. -/
theorem c70_diagonal (hW : SoundLambertW lambertw) {γ : ℝ} (hγ : 0 < γ) :
    parametricOmega lambertw γ γ = γ ∧ gammaFromParameters γ γ = some .nan := by
  refine ⟨?_, ((c27_degenerate_estimates γ γ).2.1).mpr ⟨hγ.ne', hγ.ne', Or.inl rfl⟩⟩
  obtain ⟨w, hw, hneg, he, _, hge⟩ := parametricOmega_spec hW hγ hγ
  rw [hw]
  have h1 : -γ / γ = -1 := by field_simp
  rw [h1] at he
  have : w = -1 := by
    by_contra hne
    have h := add_one_lt_exp (x := -w - 1) (fun h => hne (by linarith))
    have h2 : -w * exp w < exp (-w - 1) * exp w := mul_lt_mul_of_pos_right (by linarith) (exp_pos w)
    rw [← exp_add, show -w - 1 + w = -1 by ring] at h2
    linarith
  rw [this]; ring

/-- **C70.** The contours of the figures are ordered: at every `x > 0` a larger estimate has the higher contour, the one of
`γ = 0` being the axis itself – so the coloured bands between successive contours do not overlap and the band between the
contours of `γ` and `γ'` is where the estimate is between them. -/
theorem c70_bands (hW : SoundLambertW lambertw) {γ γ' x : ℝ} (hγ : 0 ≤ γ) (hlt : γ < γ') (hx : 0 < x) :
    parametricOmega lambertw 0 x = 0 ∧ parametricOmega lambertw γ x < parametricOmega lambertw γ' x := by
  have hz : parametricOmega lambertw 0 x = 0 := by unfold parametricOmega; exact if_pos rfl
  have hγ' : 0 < γ' := hγ.trans_lt hlt
  have hpos : 0 < parametricOmega lambertw γ' x := by
    by_cases h : x = γ'
    · subst h; rw [(c70_diagonal hW hx).1]; exact hx
    · exact (c70_duality hW hγ' hx h).1
  refine ⟨hz, ?_⟩
  rcases hγ.eq_or_lt with rfl | hγ
  · rw [hz]; exact hpos
  by_cases h1 : x = γ
  · subst h1
    rw [(c70_diagonal hW hx).1]
    exact hlt.trans ((c70_duality hW hγ' hx hlt.ne).2.1.mp hlt)
  by_cases h2 : x = γ'
  · subst h2
    rw [(c70_diagonal hW hx).1]
    have := (c70_duality hW hγ hx h1).2.1.not.mp (not_lt.mpr hlt.le)
    linarith
  obtain ⟨p1, -, e1⟩ := c70_duality hW hγ hx h1
  obtain ⟨p2, -, e2⟩ := c70_duality hW hγ' hx h2
  have g1 := ((c27_degenerate_estimates _ _).2.2.1 γ).mp ((e1 _).mpr rfl)
  have g2 := ((c27_degenerate_estimates _ _).2.2.1 γ').mp ((e2 _).mpr rfl)
  obtain ⟨-, -, n1, m1⟩ := g1
  obtain ⟨-, -, n2, m2⟩ := g2
  by_contra hge
  rcases (not_lt.mp hge).eq_or_lt with he | hl
  · rw [he] at m2
    linarith
  · have := logMean_strictMono hx p2 (Ne.symm n2) (Ne.symm n1) hl
    rw [logMean_symm, logMean_symm _ x] at this
    unfold logMean at m1 m2
    linarith

/-- Such a function `lambertw` exists. -/
theorem exists_lambertW : ∃ lambertw, SoundLambertW lambertw := by
  have hc : Continuous fun w : ℝ => w * exp w := continuous_id.mul continuous_exp
  have h0 : ∀ z : ℝ, -exp (-1) ≤ z → z < 0 → ∃ w, w * exp w = z ∧ -1 ≤ w := by
    intro z h1 h2
    have := intermediate_value_Icc (show (-1 : ℝ) ≤ 0 by norm_num) hc.continuousOn
    obtain ⟨w, hw, he⟩ := this (show z ∈ Set.Icc _ _ from ⟨by simpa using h1, by simpa using h2.le⟩)
    exact ⟨w, he, hw.1⟩
  have h1 : ∀ z : ℝ, -exp (-1) ≤ z → z < 0 → ∃ w, w * exp w = z ∧ w ≤ -1 := by
    intro z h1 h2
    have hz : 0 < -z / 2 := by linarith
    set u := -2 * log (-z / 2) with hu
    have hl : log (-z / 2) < -1 := by
      rw [log_lt_iff_lt_exp hz]; linarith [exp_pos (-1 : ℝ)]
    have hu1 : -u ≤ -1 := by linarith
    have hend : z ≤ -u * exp (-u) := by
      have e1 : exp (-u) = (-z / 2) * (-z / 2) := by
        rw [hu, show -(-2 * log (-z / 2)) = log (-z / 2) + log (-z / 2) by ring, exp_add, exp_log hz]
      have e2 := add_one_le_exp (u / 2)
      have e3 : exp (u / 2) * (-z / 2) = 1 := by
        rw [hu, show -2 * log (-z / 2) / 2 = -log (-z / 2) by ring, exp_neg, exp_log hz, inv_mul_cancel₀ hz.ne']
      have e4 : u / 2 * (-z / 2) ≤ 1 := by nlinarith
      rw [e1]; nlinarith
    have := intermediate_value_Icc' hu1 hc.continuousOn
    obtain ⟨w, hw, he⟩ := this (show z ∈ Set.Icc _ _ from ⟨by simpa using h1, hend⟩)
    exact ⟨w, he, hw.2⟩
  classical
  refine ⟨fun k z => if h : -exp (-1) ≤ z ∧ z < 0 then
    (if k = 0 then (h0 z h.1 h.2).choose else (h1 z h.1 h.2).choose) else 0, ?_⟩
  intro z hz1 hz2
  have hz : -exp (-1) ≤ z ∧ z < 0 := ⟨hz1, hz2⟩
  simp only [hz, and_self, dite_true, if_true]
  have a := (h0 z hz.1 hz.2).choose_spec
  have b := (h1 z hz.1 hz.2).choose_spec
  exact ⟨a.1, a.2, b.1, b.2⟩

example : ∃ lambertw, SoundLambertW lambertw ∧ (0 : ℝ) < 1 ∧ (0 : ℝ) < 2 ∧ (2 : ℝ) ≠ 1 :=
  exists_lambertW.imp fun _ h => ⟨h, by norm_num, by norm_num, by norm_num⟩

end Verif.Props
