import Mathlib.Tactic.NormNum
import Verif.Props.Duality

/-!
# Property C71: the largest possible gamma estimates
-/

namespace Verif.Props
open Verif Verif.Spec Finset Real

variable {G : Graph ℝ} {ws : List ℝ} {c : List Nat} {K : Nat} {θin θout : ℝ}

theorem sq_sum_le {K : Nat} (κ : Nat → ℝ) : (∑ r ∈ range K, κ r) ^ 2 ≤ K * ∑ r ∈ range K, κ r ^ 2 := by
  simpa using sq_sum_le_card_mul_sum_sq (s := range K) (f := κ)

theorem wInside_bounds {es : List ((Nat × Nat) × ℝ)} (h : ∀ e ∈ es, 0 ≤ e.2) (c : List Nat) :
    0 ≤ wInside es c ∧ wInside es c ≤ wTotal es := by
  unfold wInside wTotal
  constructor
  · apply List.sum_nonneg
    intro x hx
    obtain ⟨e, he, rfl⟩ := List.mem_map.mp hx
    split
    · exact h e he
    · exact le_refl _
  · apply List.sum_le_sum
    intro e he
    split
    · exact le_refl _
    · exact h e he

/-- the estimated parameters, with the squared strengths `S` normalised by `m` -/
theorem singlelayer_numbers (hG : G.WF) (hw : G.weight = some ws) (hpos : ∀ w ∈ ws, 0 < w)
    (hc : c.length = G.vcount) (hK : Contiguous c K) (h2 : 2 ≤ K)
    (hr : estimateSinglelayerSBM G c none = .ok (θin, θout)) :
    ∃ m I S : ℝ, 0 < m ∧ 0 ≤ I ∧ I ≤ m ∧ (2 * m) ^ 2 ≤ K * (S * (2 * m)) ∧ 0 < S ∧ S < 2 * m ∧
      θin * S = 2 * I ∧ θout * (2 * m - S) = 2 * m - 2 * I ∧
      (Balanced (G.edges.zip ws) c K → (2 * m) ^ 2 = K * (S * (2 * m))) := by
  have hends : EndsIn (G.edges.zip ws) c.length := by
    intro e he
    rw [hc]
    exact hG.1 e.1 (List.of_mem_zip he).1
  have hlen := hG.2 ws hw
  have hzpos : ∀ e ∈ G.edges.zip ws, 0 < e.2 := fun e he => hpos _ (List.of_mem_zip he).2
  have hws : ws.sum = wTotal (G.edges.zip ws) := by
    unfold wTotal
    congr 1
    exact (List.map_snd_zip (by omega)).symm
  have hpl := partLen_contiguous hK
  rw [estimateSinglelayerSBM_eq hG hc hw, hpl, if_pos (show 1 < K by omega)] at hr
  have hsum := sum_wStrength hends (n := K) (by omega)
  rw [← hws] at hsum
  split at hr
  · cases hr
  rename_i h0
  split at hr
  · cases hr
  rename_i h1
  split at hr
  · cases hr
  rename_i h3
  injection hr with hr
  have e1 := (congrArg Prod.fst hr).symm
  have e2 := (congrArg Prod.snd hr).symm
  simp only at e1 e2
  have hm : 0 < ws.sum := by
    have : 0 ≤ ws.sum := List.sum_nonneg fun w hw' => (hpos w hw').le
    exact lt_of_le_of_ne this fun h => h0 (by rw [← h]; ring)
  have hb := wInside_bounds (fun e he => (hzpos e he).le) c
  rw [← hws] at hb
  have hsqle : strengthSq (G.edges.zip ws) c ≤ (2 * ws.sum) ^ 2 := by
    rw [← hsum]
    unfold strengthSq
    rw [hpl]
    exact sum_sq_le_sq_sum_of_nonneg fun r _ => wStrength_nonneg (fun e he => (hzpos e he).le) c r
  have hsqge : (2 * ws.sum) ^ 2 ≤ K * strengthSq (G.edges.zip ws) c := by
    rw [← hsum]
    unfold strengthSq
    rw [hpl]
    exact sq_sum_le _
  have hSm : strengthSq (G.edges.zip ws) c / (2 * ws.sum) * (2 * ws.sum) = strengthSq (G.edges.zip ws) c := by
    field_simp
  refine ⟨ws.sum, wInside (G.edges.zip ws) c, strengthSq (G.edges.zip ws) c / (2 * ws.sum), hm, hb.1, hb.2, ?_, ?_, ?_,
    ?_, ?_, ?_⟩
  · rw [hSm]; exact hsqge
  · refine lt_of_le_of_ne (div_nonneg ?_ (by linarith)) (Ne.symm h1)
    exact sum_nonneg fun r _ => sq_nonneg _
  · refine lt_of_le_of_ne ?_ (fun h => h3 (by rw [h]; ring))
    rw [div_le_iff₀ (by linarith)]
    linarith
  · rw [e1, div_mul_cancel₀ _ h1]
  · rw [e2, div_mul_cancel₀ _ h3]
  · intro hbal
    rw [hSm, ← hsum]
    unfold strengthSq
    rw [hpl]
    have hconst : ∀ r ∈ range K, wStrength (G.edges.zip ws) c r = wStrength (G.edges.zip ws) c 0 :=
      fun r hr' => hbal r (mem_range.mp hr') 0 (by omega)
    have hconst' : ∀ r ∈ range K, wStrength (G.edges.zip ws) c r ^ 2 = wStrength (G.edges.zip ws) c 0 ^ 2 :=
      fun r hr' => by rw [hconst r hr']
    rw [sum_congr rfl hconst, sum_congr rfl hconst']
    simp only [sum_const, card_range, nsmul_eq_mul]
    ring

/-- **C71.** Positive weights, labels `0..K-1`, `K ≥ 2`: whenever `estimate_singlelayer_SBM_parameters` returns
`(θ_in, θ_out)`, the pair lies in the region drawn in the figures: `0 ≤ θ_in ≤ K`, `0 ≤ θ_out`, and `θ_out` is at most
`(K - θ_in) / (K - 1)` if `θ_in ≥ 1`, at least that if `θ_in ≤ 1`, and exactly that if all communities have the same
strength. -/
theorem c71_possible_parameters (hG : G.WF) (hw : G.weight = some ws) (hpos : ∀ w ∈ ws, 0 < w)
    (hc : c.length = G.vcount) (hK : Contiguous c K) (h2 : 2 ≤ K)
    (hr : estimateSinglelayerSBM G c none = .ok (θin, θout)) :
    0 ≤ θin ∧ θin ≤ K ∧ 0 ≤ θout ∧ (1 ≤ θin → θout ≤ possibleOmega K θin) ∧
      (θin ≤ 1 → possibleOmega K θin ≤ θout) ∧
      (Balanced (G.edges.zip ws) c K → θout = possibleOmega K θin) := by
  obtain ⟨m, I, S, hm, hI0, hIm, hge, hS0, hSm, h1, h3, hbal⟩ := singlelayer_numbers hG hw hpos hc hK h2 hr
  have hKr : (2 : ℝ) ≤ K := by exact_mod_cast h2
  have hge' : 2 * m ≤ K * S := by nlinarith
  have hkey : θin * S + θout * (2 * m - S) = 2 * m := by rw [h1, h3]; ring
  have hin : 0 ≤ θin := by
    by_contra h
    nlinarith [not_le.mp h]
  have hout : 0 ≤ θout := by
    by_contra h
    nlinarith [not_le.mp h]
  refine ⟨hin, ?_, hout, ?_, ?_, ?_⟩
  · by_contra h
    have := not_le.mp h
    nlinarith
  · intro h
    unfold possibleOmega
    rw [le_div_iff₀ (by linarith)]
    -- θout (2m - S) = 2m - θin S
    have hd : 0 < 2 * m - S := by linarith
    by_contra hcon
    have hcon := not_le.mp hcon
    have : (K - θin) * (2 * m - S) < (2 * m - θin * S) * (K - 1) := by
      have e : (2 * m - θin * S) = θout * (2 * m - S) := by linarith
      rw [e]
      nlinarith
    nlinarith [mul_nonneg (sub_nonneg.mpr h) (sub_nonneg.mpr hge')]
  · intro h
    unfold possibleOmega
    rw [div_le_iff₀ (by linarith)]
    have hd : 0 < 2 * m - S := by linarith
    by_contra hcon
    have hcon := not_le.mp hcon
    have : (2 * m - θin * S) * (K - 1) < (K - θin) * (2 * m - S) := by
      have e : (2 * m - θin * S) = θout * (2 * m - S) := by linarith
      rw [e]
      nlinarith
    nlinarith [mul_nonneg (sub_nonneg.mpr h) (sub_nonneg.mpr hge')]
  · intro hb
    have heq : 2 * m = K * S := by
      have := hbal hb
      have h' : (2 * m) * (2 * m) = (K * S) * (2 * m) := by linarith [this, sq (2 * m)]
      exact mul_right_cancel₀ (by linarith) h'
    unfold possibleOmega
    rw [eq_div_iff (by linarith)]
    have hd : (2 * m - S) ≠ 0 := by linarith
    apply mul_right_cancel₀ hS0.ne'
    have : θin * S + θout * (K * S - S) = K * S := by rw [← heq]; linarith
    linarith

/-- on the line, the logarithmic mean is the formula of the figures -/
theorem expectedGamma_line {K : Nat} (hK : 2 ≤ K) {θ : ℝ} (h1 : 1 < θ) (h2 : θ < K) :
    expectedGamma K (possibleOmega K θ / θ) = .ok (logMean θ (possibleOmega K θ)) ∧
      0 < possibleOmega K θ ∧ possibleOmega K θ < 1 := by
  have hKr : (2 : ℝ) ≤ K := by exact_mod_cast hK
  have hK1 : (0 : ℝ) < K - 1 := by linarith
  have ht : 0 < possibleOmega K θ := div_pos (by linarith) hK1
  have ht1 : possibleOmega K θ < 1 := by unfold possibleOmega; rw [div_lt_one hK1]; linarith
  have hline : θ + (K - 1) * possibleOmega K θ = K := by unfold possibleOmega; field_simp; ring
  set t := possibleOmega K θ
  have hθ : 0 < θ := by linarith
  refine ⟨?_, ht, ht1⟩
  unfold expectedGamma
  have hy : (1 : ℝ) / (t / θ) = θ / t := by rw [one_div_div]
  have hy1 : 1 < θ / t := by rw [one_lt_div ht]; linarith
  rw [pyDiv, if_neg (div_pos ht hθ).ne', Py.ok_bind, hy]
  have hden : θ / t + K - 1 = K / t := by
    rw [eq_div_iff ht.ne']
    have : (θ / t + K - 1) * t = θ + (K - 1) * t := by field_simp; ring
    rw [this, hline]
  rw [hden, pyDiv, if_neg (by positivity), Py.ok_bind, pyLog_pos (by linarith), Py.ok_bind, pyDiv,
    if_neg (log_pos hy1).ne']
  congr 1
  unfold logMean
  rw [log_div hθ.ne' ht.ne']
  congr 1
  have : (K : ℝ) ≠ 0 := by linarith
  field_simp

/-- **C71.** If moreover the partition is assortative (`θ_out < θ_in`), its gamma estimate `g` is at most the value
`f(K, x)` of the figures at some ratio `0 < x < 1`, hence at most their maximum; `g < K/2`, so below 1 for two
communities; and if all communities have the same strength, `g` is `f(K, θ_out/θ_in)`. -/
theorem c71_maximum_gamma (hG : G.WF) (hw : G.weight = some ws) (hpos : ∀ w ∈ ws, 0 < w)
    (hc : c.length = G.vcount) (hK : Contiguous c K) (h2 : 2 ≤ K)
    (hr : estimateSinglelayerSBM G c none = .ok (θin, θout)) (hlt : θout < θin) {g : ℝ}
    (hg : gammaFromParameters θin θout = some (.fin g)) :
    (∃ x y : ℝ, 0 < x ∧ x < 1 ∧ expectedGamma K x = .ok y ∧ g ≤ y) ∧ g < K / 2 ∧
      (Balanced (G.edges.zip ws) c K → expectedGamma K (θout / θin) = .ok g) := by
  obtain ⟨hin0, hinK, hout0, hline, _, hbal⟩ := c71_possible_parameters hG hw hpos hc hK h2 hr
  obtain ⟨m, I, S, hm, hI0, hIm, hge, hS0, hSm, h1, h3, _⟩ := singlelayer_numbers hG hw hpos hc hK h2 hr
  obtain ⟨hin, hout, hne, hgm⟩ := ((c27_degenerate_estimates θin θout).2.2.1 g).mp hg
  have hKr : (2 : ℝ) ≤ K := by exact_mod_cast h2
  have hkey : θin * S + θout * (2 * m - S) = 2 * m := by rw [h1, h3]; ring
  have hin1 : 1 < θin := by
    by_contra h
    nlinarith [not_lt.mp h]
  have hinK' : θin < K := by
    have hl := hline hin1.le
    by_contra h
    have : possibleOmega K θin ≤ 0 := div_nonpos_of_nonpos_of_nonneg (by linarith [not_lt.mp h]) (by linarith)
    linarith
  obtain ⟨hex, ht0, ht1⟩ := expectedGamma_line h2 hin1 hinK'
  have hle : g ≤ logMean θin (possibleOmega K θin) := by
    rcases eq_or_lt_of_le (hline hin1.le) with h | h
    · rw [← h, hgm]
    · rw [hgm]
      unfold logMean
      rw [logMean_symm θin θout, logMean_symm θin (possibleOmega K θin)]
      exact (logMean_strictMono hin hout hne.symm (by linarith) h).le
  refine ⟨⟨_, _, div_pos ht0 hin, by rw [div_lt_one hin]; linarith, hex, hle⟩, ?_, ?_⟩
  · refine lt_of_le_of_lt hle ?_
    have := logMean_lt_arith ht0 (show possibleOmega K θin < θin by linarith)
    refine lt_of_lt_of_le this ?_
    unfold possibleOmega
    have hK1 : (0 : ℝ) < K - 1 := by linarith
    rw [div_le_div_iff_of_pos_right two_pos]
    rw [← sub_nonneg]
    have : (K : ℝ) - (θin + (K - θin) / (K - 1)) = (K - θin) * (K - 2) / (K - 1) := by field_simp; ring
    rw [this]
    exact div_nonneg (mul_nonneg (by linarith) (by linarith)) hK1.le
  · intro hb
    rw [hbal hb, hex, hgm, ← hbal hb]

/-- Two triangles joined by an edge, with weights. -/
def gBarbellR : Graph ℝ :=
  ⟨6, false, [(0, 1), (1, 2), (0, 2), (3, 4), (4, 5), (3, 5), (2, 3)], some (List.replicate 7 1)⟩

theorem gBarbellR_wf : gBarbellR.WF := ⟨by unfold gBarbellR; decide, by intro ws h; cases h; rfl⟩

theorem gBarbellR_estimate : estimateSinglelayerSBM gBarbellR [0, 0, 0, 1, 1, 1] none = .ok (12 / 7, 2 / 7) := by
  rw [estimateSinglelayerSBM_eq gBarbellR_wf rfl rfl]
  have hp : partLen [0, 0, 0, 1, 1, 1] = 2 := rfl
  have hs : (List.replicate 7 (1 : ℝ)).sum = 7 := by norm_num
  have hi : wInside (gBarbellR.edges.zip (List.replicate 7 (1 : ℝ))) [0, 0, 0, 1, 1, 1] = 6 := by
    norm_num [wInside, gBarbellR, List.replicate]
  have hk : strengthSq (gBarbellR.edges.zip (List.replicate 7 (1 : ℝ))) [0, 0, 0, 1, 1, 1] = 98 := by
    norm_num [strengthSq, hp, sum_range_succ, wStrength, gBarbellR, List.replicate]
  rw [hp, hs, hi, hk]
  norm_num

example : gBarbellR.WF ∧ gBarbellR.weight = some (List.replicate 7 1) ∧ (∀ w ∈ List.replicate 7 (1 : ℝ), 0 < w) ∧
    Contiguous [0, 0, 0, 1, 1, 1] 2 ∧ (2 / 7 : ℝ) < 12 / 7 ∧
    (∃ g, gammaFromParameters (12 / 7) (2 / 7) = some (.fin g)) ∧
    Balanced (gBarbellR.edges.zip (List.replicate 7 (1 : ℝ))) [0, 0, 0, 1, 1, 1] 2 := by
  refine ⟨gBarbellR_wf, rfl, by simp, fun k => by simp; omega, by norm_num, ?_, ?_⟩
  · obtain ⟨g, h, _⟩ := c26_logarithmic_mean (a := 12 / 7) (b := 2 / 7) (by norm_num) (by norm_num) (by norm_num)
    exact ⟨g, h⟩
  · have h : ∀ r < 2, wStrength (gBarbellR.edges.zip (List.replicate 7 (1 : ℝ))) [0, 0, 0, 1, 1, 1] r = 7 := by
      intro r hr
      rcases (by omega : r = 0 ∨ r = 1) with rfl | rfl <;> norm_num [wStrength, gBarbellR, List.replicate]
    intro r hr s hs
    rw [h r hr, h s hs]

end Verif.Props
