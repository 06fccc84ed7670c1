import Verif.Proofs.Bistable
import Verif.Props.Estimation
import Mathlib.Tactic.NormNum
import Mathlib.Analysis.SpecificLimits.Basic
import Mathlib.Analysis.Complex.ExponentialBounds
import Mathlib.Tactic.Positivity

/-!
# Property C85: the analytic curves of the bistable block model
-/

namespace Verif.Props
open Verif Verif.Spec Verif.Proofs Finset Real Filter

/-- the three-community parameters in closed form -/
theorem bistable_three {d : ℝ} (h0 : 0 ≤ d) {B : Nat} (hB : B = 100) :
    estimateSinglelayerSBM (expectedNetwork 3 (bistablePref d) B) (blocksOf 3 B) none =
      .ok (80 * (80 * d + 11) / (320 * d * (80 * d + 13) + 331),
        8 * (80 * d + 1) * (80 * d + 11) / ((160 * d + 13) * (160 * d + 49))) := by
  obtain ⟨n1, n2, n3, n4, n5⟩ := bistable_numbers d (B := B) (by omega)
  have hb : (B : ℝ) = 100 := by rw [hB]; norm_num
  have hp : 1 < partLen (blocksOf 3 B) := by rw [show partLen (blocksOf 3 B) = 3 from partLen_blocks (by omega)]; norm_num
  have q1 : 0 < 80 * d + 11 := by positivity
  have q2 : 0 < 320 * d * (80 * d + 13) + 331 := by positivity
  have q3 : 0 < (160 * d + 13) * (160 * d + 49) := by positivity
  have q4 : 250 * (80 * d + 11) - 125 / 2 * 125 * (320 * d * (80 * d + 13) + 331) / (250 * (80 * d + 11)) =
      125 * ((160 * d + 13) * (160 * d + 49)) / (4 * (80 * d + 11)) := by
    field_simp; ring
  have q5 : 125 / 2 * 125 * (320 * d * (80 * d + 13) + 331) / (250 * (80 * d + 11)) ≠ 0 := by positivity
  rw [expected_estimate (W := 250 * (80 * d + 11)) (A := 2500) (S := 125 / 2 * 125 * (320 * d * (80 * d + 13) + 331))
    (c := blocksOf 3 B) (blockLabels_length 3 B id) hp (by rw [n1, hb]; ring) (by rw [n2, hb]; ring)
    (by rw [n4, hb]; ring) (by positivity) q5 (by rw [q4]; positivity), q4]
  congr 2
  · field_simp; ring
  · field_simp; ring

/-- the two-community parameters in closed form -/
theorem bistable_two {d : ℝ} (h0 : 0 ≤ d) {B : Nat} (hB : B = 100) :
    estimateSinglelayerSBM (expectedNetwork 3 (bistablePref d) B) (bistableMerged (blocksOf 3 B)) none =
      .ok (4 * (8 * d + 1) * (80 * d + 11) / (2560 * d ^ 2 + 416 * d + 25), (160 * d + 22) / (1440 * d + 117)) := by
  obtain ⟨n1, n2, n3, n4, n5⟩ := bistable_numbers d (B := B) (by omega)
  have hb : (B : ℝ) = 100 := by rw [hB]; norm_num
  have hp : 1 < partLen (bistableMerged (blocksOf 3 B)) := by
    rw [merged_labels, partLen_merged (by omega)]; norm_num
  have hl : (bistableMerged (blocksOf 3 B)).length = 3 * B := by rw [merged_labels, blockLabels_length]
  have q1 : 0 < 80 * d + 11 := by positivity
  have q2 : 0 < 2560 * d ^ 2 + 416 * d + 25 := by positivity
  have q4 : 250 * (80 * d + 11) - 156250 * (2560 * d ^ 2 + 416 * d + 25) / (250 * (80 * d + 11)) =
      125 * (1440 * d + 117) / (80 * d + 11) := by
    field_simp; ring
  rw [expected_estimate (W := 250 * (80 * d + 11)) (A := 2500 * (8 * d + 1))
    (S := 156250 * (2560 * d ^ 2 + 416 * d + 25))
    hl hp (by rw [n1, hb]; ring) (by rw [n3, hb]; ring)
    (by rw [n5, hb]; ring) (by positivity) (by positivity) (by rw [q4]; positivity), q4]
  congr 2
  · field_simp; ring
  · field_simp; ring

/-- the quotient the curves compute is the estimate -/
theorem bistable_curve {k x y : ℝ} (hk : 0 < k) (hx : 0 < x) (hy : 0 < y) {G : Graph ℝ} (g : ℝ) :
    (Except.ok (gammaFromParameters x y, G) : Py (Option (Fl ℝ) × Graph ℝ)) = .ok (some (.fin g), G) ↔
      (if k * (log y - log x) = 0 then (.error .zeroDivisionError : Py ℝ)
        else .ok (k * (y - x) / (k * (log y - log x)))) = .ok g := by
  have h := (c27_degenerate_estimates x y).2.2.1 g
  have hl : log y - log x = 0 ↔ x = y := by
    rw [sub_eq_zero]
    exact ⟨fun h => (log_injOn_pos hy hx h).symm, fun h => by rw [h]⟩
  constructor
  · intro he
    injection he with he
    obtain ⟨-, -, hne, rfl⟩ := h.mp (Prod.mk.inj he).1
    rw [if_neg (mul_ne_zero hk.ne' (mt hl.mp hne)), mul_div_mul_left _ _ hk.ne', ← logMean_symm]
    rfl
  · intro he
    split at he
    · cases he
    · rename_i hne
      injection he with he
      rw [h.mpr ⟨hx, hy, fun hxy => hne (by rw [hl.mpr hxy, mul_zero]), ?_⟩]
      rw [← he, mul_div_mul_left _ _ hk.ne', ← logMean_symm]
      rfl

theorem gammaFromParameters_symm {x y : ℝ} (hx : 0 < x) (hy : 0 < y) :
    gammaFromParameters x y = gammaFromParameters y x := by
  by_cases h : x = y
  · rw [h]
  · obtain ⟨g, e1, e2, -⟩ := c26_logarithmic_mean hx hy h
    rw [e1, e2]

theorem gammaEstimate_of {test : Graph ℝ → Bool} {G : Graph ℝ} (ht : test G = true) {c : List Nat}
    (hc : c.length = G.vcount) {a b : ℝ} (h : estimateSinglelayerSBM G c none = .ok (a, b)) :
    gammaEstimate test G c = .ok (gammaFromParameters a b, G) := by
  unfold gammaEstimate ensureWeight leidenPartWithMembership
  rw [if_pos ht]
  simp only [Py.ok_bind, hc, if_true, h]
  rfl

/-- **C85 (the estimate curves).** On the expected network of the bistable block model with blocks of 100 vertices (every
pair of vertices weighted by its edge probability), `gamma_estimate` returns the number `gamma_3(δ)` for the three blocks
and `gamma_2(δ)` for the two-community ground truth, for every `δ ≥ 0`; it has no finite value exactly where `gamma_3`
raises. -/
theorem c85_estimate_curves {test : Graph ℝ → Bool} {d : ℝ} (h0 : 0 ≤ d)
    (ht : test (expectedNetwork 3 (bistablePref d) 100) = true) (g : ℝ) :
    (gammaEstimate test (expectedNetwork 3 (bistablePref d) 100) (blocksOf 3 100) =
      .ok (some (.fin g), expectedNetwork 3 (bistablePref d) 100) ↔ bistableGamma3 d = .ok g) ∧
    (gammaEstimate test (expectedNetwork 3 (bistablePref d) 100) (bistableMerged (blocksOf 3 100)) =
      .ok (some (.fin g), expectedNetwork 3 (bistablePref d) 100) ↔ bistableGamma2 d = .ok g) := by
  constructor
  · rw [gammaEstimate_of (c := blocksOf 3 100) ht (blockLabels_length 3 100 id) (bistable_three h0 rfl)]
    have q1 : 0 < 80 * d + 11 := by positivity
    have q2 : 0 < 320 * d * (80 * d + 13) + 331 := by positivity
    have q3 : 0 < (160 * d + 13) * (160 * d + 49) := by positivity
    have w1 : 0 < 80 * (80 * d + 11) / (320 * d * (80 * d + 13) + 331) := by positivity
    have w2 : 0 < 8 * (80 * d + 1) * (80 * d + 11) / ((160 * d + 13) * (160 * d + 49)) := by positivity
    have e : 8 * (80 * d + 11) ^ 2 * (320 * d * (80 * d - 7) - 549) =
        (160 * d + 13) * (160 * d + 49) * (320 * d * (80 * d + 13) + 331) *
        (8 * (80 * d + 1) * (80 * d + 11) / ((160 * d + 13) * (160 * d + 49)) -
        80 * (80 * d + 11) / (320 * d * (80 * d + 13) + 331)) := by field_simp; ring
    unfold bistableGamma3
    simp only [pyDiv, if_neg q2.ne', if_neg q3.ne', Py.ok_bind, pyLog, if_pos w1, if_pos w2, e]
    exact bistable_curve (mul_pos q3 q2) w1 w2 g
  · rw [gammaEstimate_of ht (by rw [merged_labels, blockLabels_length]; rfl) (bistable_two h0 rfl)]
    have q1 : 0 < 80 * d + 11 := by positivity
    have q2 : 0 < 2560 * d ^ 2 + 416 * d + 25 := by positivity
    have q3 : 0 < 1440 * d + 117 := by positivity
    have w1 : 0 < 4 * (8 * d + 1) * (80 * d + 11) / (2560 * d ^ 2 + 416 * d + 25) := by positivity
    have w2 : 0 < (160 * d + 22) / (1440 * d + 117) := by positivity
    have q4 : 0 < 9 * (160 * d + 13) * (2560 * d ^ 2 + 416 * d + 25) := by positivity
    have e : 2 * (80 * d + 11) ^ 2 * (256 * d + 19) =
        9 * (160 * d + 13) * (2560 * d ^ 2 + 416 * d + 25) *
        (4 * (8 * d + 1) * (80 * d + 11) / (2560 * d ^ 2 + 416 * d + 25) -
        (160 * d + 22) / (1440 * d + 117)) := by
      rw [show 1440 * d + 117 = 9 * (160 * d + 13) by ring]
      field_simp; ring
    unfold bistableGamma2
    simp only [pyDiv, if_neg q2.ne', if_neg q3.ne', Py.ok_bind, pyLog, if_pos w1, if_pos w2, e]
    rw [gammaFromParameters_symm w1 w2]
    exact bistable_curve q4 w2 w1 g

/-- **C85 (the switch curve).** For every block size and `δ ≥ 0` the three blocks have at least the modularity of the
two-community partition on the expected network exactly from `γ = gamma_cross(B, δ)` on, and at most its modularity exactly
up to there. -/
theorem c85_switch {B : Nat} (hB : 0 < B) {d : ℝ} (h0 : 0 ≤ d) :
    ∃ x, bistableCross B d = .ok x ∧ ∀ γ : ℝ,
      (wModularity (3 * B) (weightedEdgesOf (expectedNetwork 3 (bistablePref d) B)) (bistableMerged (blocksOf 3 B)) γ ≤
        wModularity (3 * B) (weightedEdgesOf (expectedNetwork 3 (bistablePref d) B)) (blocksOf 3 B) γ ↔ x ≤ γ) ∧
      (wModularity (3 * B) (weightedEdgesOf (expectedNetwork 3 (bistablePref d) B)) (blocksOf 3 B) γ ≤
        wModularity (3 * B) (weightedEdgesOf (expectedNetwork 3 (bistablePref d) B)) (bistableMerged (blocksOf 3 B)) γ ↔
          γ ≤ x) := by
  have hb : (1 : ℝ) ≤ B := by exact_mod_cast hB
  have hk : 0 < B * (5280 * d + 433) - 400 := by nlinarith
  have hm : 0 < B * (7920 * d + 1099) - 1000 := by nlinarith
  refine ⟨_, if_neg (pow_pos hk 2).ne', ?_⟩
  intro γ
  obtain ⟨n1, n2, n3, n4, n5⟩ := bistable_numbers d hB
  have hends := expected_ends (n := 3) (M := bistablePref d) (B := B)
  simp only [wModularity_eq, pairsInside_eq hends]
  rw [nullInside_eq hends (by rw [merged_labels, blockLabels_length]),
    nullInside_eq (c := blocksOf 3 B) hends (blockLabels_length 3 B id), n1, n2, n3, n4, n5]
  set k := B * (5280 * d + 433) - 400 with hk'
  set m := B * (7920 * d + 1099) - 1000 with hm'
  have e1 : (B : ℝ) * (433 + 5280 * d) - 400 = k := by rw [hk']; ring
  have e2 : (B : ℝ) * (1099 + 7920 * d) - 1000 = m := by rw [hm']; ring
  rw [e1, e2]
  have hB0 : (0 : ℝ) < B := by linarith
  have key : (((B : ℝ) ^ 2 - B) * (25 / 99) + 2 * B ^ 2 * d - γ *
      ((((B ^ 2 - B) * (10 / 99) + B ^ 2 / 80) ^ 2 + (2 * (B / 5280 * k)) ^ 2) / (B / 3960 * m))) -
      ((B ^ 2 - B) * (25 / 99) - γ *
      ((((B ^ 2 - B) * (10 / 99) + B ^ 2 / 80) ^ 2 + 2 * (B / 5280 * k) ^ 2) / (B / 3960 * m))) =
      (B * k ^ 2 / (3520 * m)) * (7040 * B * d * m / k ^ 2 - γ) := by
    field_simp; ring
  have hpos : 0 < B * k ^ 2 / (3520 * m) := by positivity
  constructor
  · rw [← sub_nonpos, key]
    constructor
    · intro h
      by_contra hn
      push Not at hn
      have : 0 < (B * k ^ 2 / (3520 * m)) * (7040 * B * d * m / k ^ 2 - γ) := mul_pos hpos (by linarith)
      linarith
    · intro h
      exact mul_nonpos_of_nonneg_of_nonpos hpos.le (by linarith)
  · rw [← sub_nonneg, key]
    constructor
    · intro h
      by_contra hn
      push Not at hn
      have : (B * k ^ 2 / (3520 * m)) * (7040 * B * d * m / k ^ 2 - γ) < 0 := mul_neg_of_pos_of_neg hpos (by linarith)
      linarith
    · intro h
      exact mul_nonneg hpos.le (by linarith)

/-- **C85 (the plotted switch curve is the limit, from above).** `gamma_cross(B, δ)` tends to `gamma_cross_limit(δ)` as the
blocks grow, and for `δ > 0` it is strictly larger for every block size. -/
theorem c85_limit {d : ℝ} (h0 : 0 ≤ d) :
    ∃ lim, bistableCrossLimit d = .ok lim ∧ ∃ x : ℕ → ℝ, (∀ B : ℕ, 0 < B → bistableCross B d = .ok (x B)) ∧
      Tendsto x atTop (nhds lim) ∧ (0 < d → ∀ B : ℕ, 0 < B → lim < x B) := by
  have hκ : 0 < 433 + 5280 * d := by positivity
  refine ⟨_, if_neg (pow_pos hκ 2).ne', fun B => (7040 * B * d * (B * (7920 * d + 1099) - 1000)) /
    ((B * (5280 * d + 433) - 400) ^ 2), ?_, ?_, ?_⟩
  · intro B hB
    have hb : (1 : ℝ) ≤ B := by exact_mod_cast hB
    have hk : 0 < B * (5280 * d + 433) - 400 := by nlinarith
    exact if_neg (pow_pos hk 2).ne'
  · have t1 : Tendsto (fun B : ℕ => (1000 : ℝ) / B) atTop (nhds 0) := tendsto_const_div_atTop_nhds_zero_nat 1000
    have t2 : Tendsto (fun B : ℕ => (400 : ℝ) / B) atTop (nhds 0) := tendsto_const_div_atTop_nhds_zero_nat 400
    have t3 : Tendsto (fun B : ℕ => 7040 * d * (1099 + 7920 * d - 1000 / B) / (433 + 5280 * d - 400 / B) ^ 2) atTop
        (nhds (7040 * d * (1099 + 7920 * d - 0) / (433 + 5280 * d - 0) ^ 2)) := by
      refine ((tendsto_const_nhds.sub t1).const_mul _).div ((tendsto_const_nhds.sub t2).pow 2) ?_
      rw [sub_zero]; exact (pow_pos hκ 2).ne'
    rw [sub_zero, sub_zero] at t3
    refine t3.congr' ?_
    filter_upwards [eventually_ge_atTop 1] with B hB
    have hb : (1 : ℝ) ≤ B := by exact_mod_cast hB
    have hk : 0 < B * (5280 * d + 433) - 400 := by nlinarith
    have hk2 : 433 + 5280 * d - 400 / B = (B * (5280 * d + 433) - 400) / B := by field_simp; ring
    rw [hk2]
    field_simp
    ring
  · intro hd B hB
    have hb : (1 : ℝ) ≤ B := by exact_mod_cast hB
    have hk : 0 < B * (5280 * d + 433) - 400 := by nlinarith
    simp only
    rw [div_lt_div_iff₀ (pow_pos hκ 2) (pow_pos hk 2)]
    have h1 : 0 < (433 + 5280 * d) * (446200 + 1056000 * d) := by positivity
    have h2 : (433 + 5280 * d) * (446200 + 1056000 * d) ≤ B * ((433 + 5280 * d) * (446200 + 1056000 * d)) := by nlinarith
    have h3 : 160000 * (1099 + 7920 * d) < (433 + 5280 * d) * (446200 + 1056000 * d) := by nlinarith
    have h4 : 0 < 7040 * d * (B * ((433 + 5280 * d) * (446200 + 1056000 * d)) - 160000 * (1099 + 7920 * d)) := by
      apply mul_pos (by positivity); linarith
    nlinarith

/-! ### bistability -/

theorem logMean_lt_of {a b c : ℝ} {n k : ℕ} (hb : 0 < b) (hab : b < a) (hn : 0 < n) (hc : 0 < c)
    (h1 : (2.7182818286 : ℝ) ^ k ≤ (a / b) ^ n) (h2 : (a - b) * n < c * k) : logMean a b < c := by
  have ha : 0 < a := hb.trans hab
  have hl : (k : ℝ) ≤ n * (log a - log b) := by
    have e1 : exp k ≤ (a / b) ^ n := by
      have : exp (k : ℝ) = exp 1 ^ k := by rw [← exp_nat_mul, mul_one]
      rw [this]
      exact (pow_le_pow_left₀ (exp_pos 1).le exp_one_lt_d9.le k).trans h1
    have := (le_log_iff_exp_le (pow_pos (div_pos ha hb) n)).mpr e1
    rwa [log_pow, log_div ha.ne' hb.ne'] at this
  have hd := logDiff_pos hb hab
  have hn' : (0 : ℝ) < n := by exact_mod_cast hn
  unfold logMean
  rw [div_lt_iff₀ hd]
  have : c * k ≤ c * (n * (log a - log b)) := mul_le_mul_of_nonneg_left hl hc.le
  have h3 : (a - b) * n < (c * (log a - log b)) * n := by nlinarith
  exact lt_of_mul_lt_mul_right h3 hn'.le

theorem lt_logMean_of {a b c : ℝ} {n k : ℕ} (hb : 0 < b) (hab : b < a) (hn : 0 < n) (hc : 0 < c)
    (h1 : (a / b) ^ n ≤ (2.7182818283 : ℝ) ^ k) (h2 : c * k < (a - b) * n) : c < logMean a b := by
  have ha : 0 < a := hb.trans hab
  have hl : n * (log a - log b) ≤ (k : ℝ) := by
    have e1 : (a / b) ^ n ≤ exp k := by
      have : exp (k : ℝ) = exp 1 ^ k := by rw [← exp_nat_mul, mul_one]
      rw [this]
      exact h1.trans (pow_le_pow_left₀ (by norm_num) exp_one_gt_d9.le k)
    have := (log_le_iff_le_exp (pow_pos (div_pos ha hb) n)).mpr e1
    rwa [log_pow, log_div ha.ne' hb.ne'] at this
  have hd := logDiff_pos hb hab
  have hn' : (0 : ℝ) < n := by exact_mod_cast hn
  unfold logMean
  rw [lt_div_iff₀ hd]
  have : c * (n * (log a - log b)) ≤ c * k := mul_le_mul_of_nonneg_left hl hc.le
  have h3 : (c * (log a - log b)) * n < (a - b) * n := by nlinarith
  exact lt_of_mul_lt_mul_right h3 hn'.le

theorem logMean_mono {a b a' b' : ℝ} (hb : 0 < b) (hab : b < a) (ha' : a ≤ a') (hb' : b ≤ b') (hab' : b' < a) :
    logMean a b ≤ logMean a' b' := by
  have ha : 0 < a := hb.trans hab
  have h1 : logMean a b ≤ logMean a b' := by
    rcases hb'.lt_or_eq with h | h
    · unfold logMean
      rw [logMean_symm a b, logMean_symm a b']
      exact (logMean_strictMono ha hb hab.ne hab'.ne h).le
    · rw [h]
  refine h1.trans ?_
  rcases ha'.lt_or_eq with h | h
  · exact (logMean_strictMono (hb.trans_le hb') ha hab'.ne' (hab'.trans h).ne' h).le
  · rw [h]

/-- parameters of the curves, as functions -/
noncomputable def bIn3 (d : ℝ) : ℝ := 80 * (80 * d + 11) / (320 * d * (80 * d + 13) + 331)
noncomputable def bOut3 (d : ℝ) : ℝ := 8 * (80 * d + 1) * (80 * d + 11) / ((160 * d + 13) * (160 * d + 49))
noncomputable def bIn2 (d : ℝ) : ℝ := 4 * (8 * d + 1) * (80 * d + 11) / (2560 * d ^ 2 + 416 * d + 25)
noncomputable def bOut2 (d : ℝ) : ℝ := (160 * d + 22) / (1440 * d + 117)
noncomputable def bCross (d : ℝ) : ℝ := 640 * d * (80 * d + 11) / (160 * d + 13) ^ 2

theorem bCross_mono {x y : ℝ} (hx : 0 ≤ x) (h : x ≤ y) : bCross x ≤ bCross y := by
  have hy := hx.trans h
  unfold bCross
  rw [div_le_div_iff₀ (by positivity) (by positivity)]
  have : 0 ≤ (y - x) * (51200 * x * y + 13520 * (x + y) + 1859) := mul_nonneg (by linarith) (by positivity)
  nlinarith

theorem bIn3_anti {x y : ℝ} (hx : 0 ≤ x) (h : x ≤ y) : bIn3 y ≤ bIn3 x := by
  have hy := hx.trans h
  unfold bIn3
  rw [div_le_div_iff₀ (by positivity) (by positivity)]
  have : 0 ≤ (y - x) * (2048000 * x * y + 281600 * (x + y) + 19280) := mul_nonneg (by linarith) (by positivity)
  nlinarith

theorem bOut3_mono {x y : ℝ} (hx : 0 ≤ x) (h : x ≤ y) : bOut3 x ≤ bOut3 y := by
  have hy := hx.trans h
  unfold bOut3
  rw [div_le_div_iff₀ (by positivity) (by positivity)]
  have : 0 ≤ (y - x) * (38912000 * x * y + 3795200 * (x + y) + 502400) := mul_nonneg (by linarith) (by positivity)
  nlinarith

theorem bIn2_anti {x y : ℝ} (hx : 0 ≤ x) (h : x ≤ y) : bIn2 y ≤ bIn2 x := by
  have hy := hx.trans h
  unfold bIn2
  rw [div_le_div_iff₀ (by positivity) (by positivity)]
  have : 0 ≤ (y - x) * (163840 * x * y + 12160 * (x + y) + 376) := mul_nonneg (by linarith) (by positivity)
  nlinarith

theorem bOut2_anti {x y : ℝ} (hx : 0 ≤ x) (h : x ≤ y) : bOut2 y ≤ bOut2 x := by
  have hy := hx.trans h
  unfold bOut2
  rw [div_le_div_iff₀ (by positivity) (by positivity)]
  nlinarith

theorem bCross_eq {d : ℝ} (h0 : 0 ≤ d) {B : Nat} (hB : B = 100) : bistableCross B d = .ok (bCross d) := by
  have hb : (B : ℝ) = 100 := by rw [hB]; norm_num
  unfold bistableCross bCross pyDiv
  rw [hb, if_neg (by nlinarith)]
  congr 1
  rw [show (100 : ℝ) * (5280 * d + 433) - 400 = 3300 * (160 * d + 13) by ring]
  field_simp; ring

theorem bPositive {d : ℝ} (h0 : 0 ≤ d) : 0 < bIn3 d ∧ 0 < bOut3 d ∧ 0 < bIn2 d ∧ 0 < bOut2 d := by
  refine ⟨?_, ?_, ?_, ?_⟩
  · unfold bIn3; positivity
  · unfold bOut3; positivity
  · unfold bIn2; positivity
  · unfold bOut2; positivity

theorem bOut2_lt {d : ℝ} (h0 : 0 ≤ d) : bOut2 d < bIn2 d := by
  unfold bOut2 bIn2
  rw [div_lt_div_iff₀ (by positivity) (by positivity)]
  nlinarith [mul_nonneg h0 h0, mul_nonneg h0 (mul_nonneg h0 h0)]

theorem bOut3_lt {d : ℝ} (h0 : 0 ≤ d) (h1 : d ≤ 5 / 100) : bOut3 d < bIn3 d := by
  have e1 := bOut3_mono h0 h1
  have e2 := bIn3_anti h0 h1
  have e3 : bOut3 (5 / 100) < bIn3 (5 / 100) := by unfold bOut3 bIn3; norm_num
  linarith

/-- one step of the chain: on `[x, y]` the three-community estimate stays above the switch -/
theorem above {x y d : ℝ} (hx : 0 ≤ x) (hxd : x ≤ d) (hdy : d ≤ y) (hy : y ≤ 5 / 100)
    (h : bCross y < logMean (bIn3 y) (bOut3 x)) : bCross d < logMean (bIn3 d) (bOut3 d) := by
  have h0 := hx.trans hxd
  have h5 := hdy.trans hy
  refine (bCross_mono h0 hdy).trans_lt (h.trans_le ?_)
  refine logMean_mono (bPositive hx).2.1 ?_ (bIn3_anti h0 hdy) (bOut3_mono hx hxd) ?_
  · exact (bOut3_mono hx (hxd.trans hdy)).trans_lt (bOut3_lt (h0.trans hdy) hy)
  · exact (bOut3_mono h0 hdy).trans_lt (bOut3_lt (h0.trans hdy) hy)

theorem three_above {d : ℝ} (h0 : 0 ≤ d) (h1 : d ≤ 485 / 10000) : bCross d < logMean (bIn3 d) (bOut3 d) := by
  rcases le_total d (27 / 1000) with h' | h'
  · exact above le_rfl h0 h' (by norm_num) (lt_logMean_of (n := 11) (k := 31)
      (by norm_num [bIn3, bOut3, bCross]) (by norm_num [bIn3, bOut3, bCross]) (by norm_num) (by norm_num [bCross])
      (by norm_num [bIn3, bOut3, bCross]) (by norm_num [bIn3, bOut3, bCross]))
  have g11 := h'
  clear h'
  rcases le_total d (41 / 1000) with h' | h'
  · exact above (by norm_num) g11 h' (by norm_num) (lt_logMean_of (n := 13) (k := 23)
      (by norm_num [bIn3, bOut3, bCross]) (by norm_num [bIn3, bOut3, bCross]) (by norm_num) (by norm_num [bCross])
      (by norm_num [bIn3, bOut3, bCross]) (by norm_num [bIn3, bOut3, bCross]))
  have g13 := h'
  clear h'
  rcases le_total d (46 / 1000) with h' | h'
  · exact above (by norm_num) g13 h' (by norm_num) (lt_logMean_of (n := 23) (k := 35)
      (by norm_num [bIn3, bOut3, bCross]) (by norm_num [bIn3, bOut3, bCross]) (by norm_num) (by norm_num [bCross])
      (by norm_num [bIn3, bOut3, bCross]) (by norm_num [bIn3, bOut3, bCross]))
  have g23 := h'
  clear h'
  rcases le_total d (48 / 1000) with h' | h'
  · exact above (by norm_num) g23 h' (by norm_num) (lt_logMean_of (n := 16) (k := 23)
      (by norm_num [bIn3, bOut3, bCross]) (by norm_num [bIn3, bOut3, bCross]) (by norm_num) (by norm_num [bCross])
      (by norm_num [bIn3, bOut3, bCross]) (by norm_num [bIn3, bOut3, bCross]))
  have g16 := h'
  clear h'
  exact above (by norm_num) g16 h1 (by norm_num) (lt_logMean_of (n := 17) (k := 24)
      (by norm_num [bIn3, bOut3, bCross]) (by norm_num [bIn3, bOut3, bCross]) (by norm_num) (by norm_num [bCross])
      (by norm_num [bIn3, bOut3, bCross]) (by norm_num [bIn3, bOut3, bCross]))

theorem two_below {d : ℝ} (h0 : 225 / 10000 ≤ d) : logMean (bIn2 d) (bOut2 d) < bCross d := by
  have hd : 0 ≤ d := le_trans (by norm_num) h0
  have h1 : logMean (bIn2 d) (bOut2 d) ≤ logMean (bIn2 (225 / 10000)) (bOut2 (225 / 10000)) := by
    rcases lt_or_ge (bOut2 (225 / 10000)) (bIn2 d) with h | h
    · exact logMean_mono (bPositive hd).2.2.2 (bOut2_lt hd) (bIn2_anti (by norm_num) h0) (bOut2_anti (by norm_num) h0) h
    · exfalso
      have e1 : bOut2 (225 / 10000) < 1 := by norm_num [bOut2]
      have e2 : 1 < bIn2 d := by
        unfold bIn2
        rw [one_lt_div (by positivity)]
        nlinarith
      linarith
  refine h1.trans_lt (lt_of_lt_of_le ?_ (bCross_mono (by norm_num) h0))
  exact logMean_lt_of (n := 7) (k := 16)
      (by norm_num [bIn2, bOut2, bCross]) (by norm_num [bIn2, bOut2, bCross]) (by norm_num) (by norm_num [bCross])
      (by norm_num [bIn2, bOut2, bCross]) (by norm_num [bIn2, bOut2, bCross])

theorem gamma3_value {d : ℝ} (h0 : 0 ≤ d) (h1 : d ≤ 5 / 100) {test : Graph ℝ → Bool} {B : Nat} (hB : B = 100)
    (ht : test (expectedNetwork 3 (bistablePref d) B) = true) :
    gammaEstimate test (expectedNetwork 3 (bistablePref d) B) (blocksOf 3 B) =
      .ok (some (.fin (logMean (bIn3 d) (bOut3 d))), expectedNetwork 3 (bistablePref d) B) := by
  have hp := bPositive h0
  rw [gammaEstimate_of (c := blocksOf 3 B) ht (blockLabels_length 3 B id) (bistable_three h0 hB)]
  have := ((c27_degenerate_estimates (bIn3 d) (bOut3 d)).2.2.1 _).mpr ⟨hp.1, hp.2.1, (bOut3_lt h0 h1).ne', rfl⟩
  rw [← this]; rfl

theorem gamma2_value {d : ℝ} (h0 : 0 ≤ d) {test : Graph ℝ → Bool} {B : Nat} (hB : B = 100)
    (ht : test (expectedNetwork 3 (bistablePref d) B) = true) :
    gammaEstimate test (expectedNetwork 3 (bistablePref d) B) (bistableMerged (blocksOf 3 B)) =
      .ok (some (.fin (logMean (bIn2 d) (bOut2 d))), expectedNetwork 3 (bistablePref d) B) := by
  have hp := bPositive h0
  rw [gammaEstimate_of ht (by rw [merged_labels, blockLabels_length]; rfl) (bistable_two h0 hB)]
  have := ((c27_degenerate_estimates (bIn2 d) (bOut2 d)).2.2.1 _).mpr ⟨hp.2.2.1, hp.2.2.2, (bOut2_lt h0).ne', rfl⟩
  rw [← this]; rfl

/-- **C85 (the model is bistable).** Blocks of 100 vertices and `0.0225 ≤ δ ≤ 0.0485`: each of the two partitions beats the
other on the expected network at its own gamma estimate. -/
theorem c85_bistable {d : ℝ} (h0 : 225 / 10000 ≤ d) (h1 : d ≤ 485 / 10000) {test : Graph ℝ → Bool} {B : Nat} (hB : B = 100)
    (ht : test (expectedNetwork 3 (bistablePref d) B) = true) :
    ∃ g2 g3, gammaEstimate test (expectedNetwork 3 (bistablePref d) B) (bistableMerged (blocksOf 3 B)) =
        .ok (some (.fin g2), expectedNetwork 3 (bistablePref d) B) ∧
      gammaEstimate test (expectedNetwork 3 (bistablePref d) B) (blocksOf 3 B) =
        .ok (some (.fin g3), expectedNetwork 3 (bistablePref d) B) ∧
      wModularity (3 * B) (weightedEdgesOf (expectedNetwork 3 (bistablePref d) B)) (blocksOf 3 B) g2 <
        wModularity (3 * B) (weightedEdgesOf (expectedNetwork 3 (bistablePref d) B)) (bistableMerged (blocksOf 3 B)) g2 ∧
      wModularity (3 * B) (weightedEdgesOf (expectedNetwork 3 (bistablePref d) B)) (bistableMerged (blocksOf 3 B)) g3 <
        wModularity (3 * B) (weightedEdgesOf (expectedNetwork 3 (bistablePref d) B)) (blocksOf 3 B) g3 := by
  have hd : 0 ≤ d := le_trans (by norm_num) h0
  obtain ⟨x, hx, hsw⟩ := c85_switch (B := B) (by omega) hd
  rw [bCross_eq hd hB] at hx
  injection hx with hx
  refine ⟨_, _, gamma2_value hd hB ht, gamma3_value hd (h1.trans (by norm_num)) hB ht, ?_, ?_⟩
  · rw [← not_le, (hsw _).1, not_le, ← hx]
    exact two_below h0
  · rw [← not_le, (hsw _).2, not_le, ← hx]
    exact three_above hd h1

/-- **C85 (the figure shows more).** At `δ = 0.0495` the curves of the figure say that the three communities are stable –
their estimate lies above the plotted switch curve, and `δ` lies left of the plotted line `cross2 = 0.04966` – but with the
blocks of 100 vertices for which the estimates are computed the two-community partition beats the three communities at
the estimate of the three communities. -/
theorem c85_figure {test : Graph ℝ → Bool} {B : Nat} (hB : B = 100)
    (ht : test (expectedNetwork 3 (bistablePref (495 / 10000)) B) = true) :
    ∃ g3 lim, gammaEstimate test (expectedNetwork 3 (bistablePref (495 / 10000)) B) (blocksOf 3 B) =
        .ok (some (.fin g3), expectedNetwork 3 (bistablePref (495 / 10000)) B) ∧
      bistableCrossLimit (495 / 10000) = .ok lim ∧ lim < g3 ∧
      wModularity (3 * B) (weightedEdgesOf (expectedNetwork 3 (bistablePref (495 / 10000)) B)) (blocksOf 3 B) g3 <
        wModularity (3 * B) (weightedEdgesOf (expectedNetwork 3 (bistablePref (495 / 10000)) B))
          (bistableMerged (blocksOf 3 B)) g3 := by
  obtain ⟨x, hx, hsw⟩ := c85_switch (B := B) (d := 495 / 10000) (by omega) (by norm_num)
  rw [bCross_eq (by norm_num) hB] at hx
  injection hx with hx
  refine ⟨_, _, gamma3_value (by norm_num) (by norm_num) hB ht, if_neg (by norm_num), ?_, ?_⟩
  · exact lt_logMean_of (n := 18) (k := 25)
      (by norm_num [bIn3, bOut3]) (by norm_num [bIn3, bOut3]) (by norm_num) (by norm_num)
      (by norm_num [bIn3, bOut3]) (by norm_num [bIn3, bOut3])
  · rw [← not_le, (hsw _).1, not_le, ← hx]
    exact logMean_lt_of (n := 13) (k := 18)
      (by norm_num [bIn3, bOut3]) (by norm_num [bIn3, bOut3]) (by norm_num) (by norm_num [bCross])
      (by norm_num [bIn3, bOut3]) (by norm_num [bIn3, bOut3, bCross])

/-- The hypotheses of the theorems above are met: the code's test for weights may recognise them, `δ = 0.03` lies in the
range. -/
example : (fun G : Graph ℝ => G.weight.isSome) (expectedNetwork 3 (bistablePref (3 / 100)) 100) = true ∧
    (225 / 10000 : ℝ) ≤ 3 / 100 ∧ (3 / 100 : ℝ) ≤ 485 / 10000 := by
  refine ⟨rfl, by norm_num, by norm_num⟩

end Verif.Props
