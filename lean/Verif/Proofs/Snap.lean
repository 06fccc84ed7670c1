import Mathlib.Tactic.Positivity
import Mathlib.Tactic.FieldSimp
import Verif.Spec.Snap
import Verif.Model.Snap
import Verif.Props.Bistable
import Verif.Props.MaxGamma
import Verif.Props.Weights

namespace Verif.Props
open Verif Verif.Spec Finset Real

/-! ### at most twice as many edges between communities as expected -/

/-- weight of the edges with exactly one end in community `r` -/
def wCut (es : List ((Nat × Nat) × ℝ)) (c : List Nat) (r : Nat) : ℝ :=
  (es.map fun e => if c[e.1.1]? = c[e.1.2]? then 0 else
    (if c[e.1.1]? = some r then e.2 else 0) + (if c[e.1.2]? = some r then e.2 else 0)).sum

theorem sum_wCut {es : List ((Nat × Nat) × ℝ)} {c : List Nat} (h : EndsIn es c.length) {n : Nat}
    (hn : partLen c ≤ n) : ∑ r ∈ range n, wCut es c r = 2 * (wTotal es - wInside es c) := by
  unfold wCut wTotal wInside
  induction es with
  | nil => simp
  | cons e es ih =>
    have hih := ih (fun e' he' => h e' (List.mem_cons_of_mem _ he'))
    obtain ⟨h1, h2⟩ := h e (by simp)
    simp only [List.map_cons, List.sum_cons]
    rw [Finset.sum_add_distrib, hih]
    by_cases hc : c[e.1.1]? = c[e.1.2]?
    · simp only [if_pos hc, sum_const_zero]; ring
    · simp only [if_neg hc]
      rw [Finset.sum_add_distrib, sum_ite_getElem? h1 hn, sum_ite_getElem? h2 hn]
      ring

theorem wCut_le {es : List ((Nat × Nat) × ℝ)} (h : ∀ e ∈ es, 0 ≤ e.2) (c : List Nat) (r : Nat) :
    wCut es c r ≤ wStrength es c r ∧ wCut es c r + wStrength es c r ≤ 2 * wTotal es := by
  unfold wCut wStrength wTotal
  induction es with
  | nil => simp
  | cons e es ih =>
    obtain ⟨i1, i2⟩ := ih (fun e' he' => h e' (List.mem_cons_of_mem _ he'))
    have h0 := h e (by simp)
    simp only [List.map_cons, List.sum_cons]
    constructor
    · refine add_le_add ?_ i1
      split
      · refine add_nonneg ?_ ?_ <;> split <;> linarith
      · exact le_refl _
    · have : (if c[e.1.1]? = c[e.1.2]? then 0 else
          (if c[e.1.1]? = some r then e.2 else 0) + (if c[e.1.2]? = some r then e.2 else 0)) +
          ((if c[e.1.1]? = some r then e.2 else 0) + (if c[e.1.2]? = some r then e.2 else 0)) ≤ 2 * e.2 := by
        by_cases hc : c[e.1.1]? = c[e.1.2]?
        · rw [if_pos hc]
          split <;> split <;> linarith
        · rw [if_neg hc]
          by_cases ha : c[e.1.1]? = some r
          · have hb : ¬ c[e.1.2]? = some r := fun hb => hc (ha.trans hb.symm)
            rw [if_pos ha, if_neg hb]; linarith
          · rw [if_neg ha]
            split <;> linarith
      linarith

theorem cut_bound {es : List ((Nat × Nat) × ℝ)} (h : ∀ e ∈ es, 0 ≤ e.2) {c : List Nat} (hends : EndsIn es c.length) :
    2 * (wTotal es - wInside es c) * (2 * wTotal es) ≤ 2 * ((2 * wTotal es) ^ 2 - strengthSq es c) := by
  rw [← sum_wCut hends (le_refl _)]
  have hs := sum_wStrength hends (le_refl (partLen c))
  have : 2 * ((2 * wTotal es) ^ 2 - strengthSq es c) =
      ∑ r ∈ range (partLen c), 2 * (wStrength es c r * (2 * wTotal es - wStrength es c r)) := by
    unfold strengthSq
    simp only [mul_sub, sum_sub_distrib, ← mul_sum, ← sum_mul]
    rw [hs]
    simp only [sq]
  rw [this, sum_mul]
  apply sum_le_sum
  intro r _
  obtain ⟨h1, h2⟩ := wCut_le h c r
  have h3 := wStrength_nonneg h c r
  have hm : 0 ≤ wTotal es := by
    unfold wTotal
    apply List.sum_nonneg
    intro x hx
    obtain ⟨e, he, rfl⟩ := List.mem_map.mp hx
    exact h e he
  by_cases hcase : wStrength es c r ≤ wTotal es
  · have a : wCut es c r * (2 * wTotal es) ≤ wStrength es c r * (2 * wTotal es) :=
      mul_le_mul_of_nonneg_right h1 (by linarith)
    nlinarith
  · have hcase := not_le.mp hcase
    have h2' : wCut es c r ≤ 2 * wTotal es - wStrength es c r := by linarith
    have a : wCut es c r * (2 * wTotal es) ≤ (2 * wTotal es - wStrength es c r) * (2 * wTotal es) :=
      mul_le_mul_of_nonneg_right h2' (by linarith)
    have h5 : 0 ≤ 2 * wTotal es - wStrength es c r ∨ 2 * wTotal es - wStrength es c r < 0 := le_or_gt _ _
    rcases h5 with h5 | h5
    · nlinarith
    · exfalso
      have : wStrength es c r ≤ 2 * wTotal es := by
        have := wStrength_nonneg h c r
        -- strength is at most twice the total
        unfold wStrength wTotal
        rw [← List.sum_map_mul_left]
        apply List.sum_le_sum
        intro e he
        have := h e he
        split <;> split <;> linarith
      linarith

/-! ### the bound 15 -/

theorem line_mono {K : Nat} (h2 : 2 ≤ K) (hK : K ≤ 70) {x : ℝ} (h1 : 1 ≤ x) :
    possibleOmega K x ≤ (70 - x) / 69 := by
  have hKr : (2 : ℝ) ≤ K := by exact_mod_cast h2
  have hK70 : (K : ℝ) ≤ 70 := by exact_mod_cast hK
  unfold possibleOmega
  rw [div_le_div_iff₀ (by linarith) (by norm_num)]
  nlinarith

theorem logMean_lt_15 {x y : ℝ} (hy : 0 < y) (h1 : 1 < x) (hx : x < 70) (hyx : y ≤ (70 - x) / 69) : logMean x y < 15 := by
  have hy1 : y < 1 := by
    refine lt_of_le_of_lt hyx ?_
    rw [div_lt_one (by norm_num)]; linarith
  rcases le_or_gt x 29 with h | h
  · have := logMean_lt_arith hy (hy1.trans h1)
    refine lt_trans this ?_
    rw [div_lt_iff₀ (by norm_num)]; linarith
  · have hyx' : y ≤ 41 / 69 := hyx.trans (by rw [div_le_div_iff_of_pos_right (by norm_num)]; linarith)
    refine lt_of_le_of_lt (logMean_mono hy (by linarith) hx.le hyx' (by linarith)) ?_
    refine logMean_lt_of (n := 10) (k := 47) (by norm_num) (by norm_num) (by norm_num) (by norm_num) ?_ (by norm_num)
    norm_num

end Verif.Props
