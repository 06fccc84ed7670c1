import Verif.Spec.Likelihood
import Verif.Proofs.Estimation
import Verif.Proofs.Champ2DMore
import Verif.Proofs.LogMean

/-! # The likelihood of the planted-partition model in terms of four numbers -/

namespace Verif.Proofs
open Verif Verif.Spec Finset Real

variable {α : Type} [DecidableEq α]

/-- `∑_ij A_ij f(i,j)` as a sum over the edges -/
theorem sum_wAdj {n : Nat} {es : List ((Nat × Nat) × ℝ)} (h : EndsIn es n) (f : Nat → Nat → ℝ) :
    ∑ i ∈ range n, ∑ j ∈ range n, wAdj es i j * f i j =
      (es.map fun e => e.2 * (f e.1.1 e.1.2 + f e.1.2 e.1.1)).sum := by
  induction es with
  | nil => simp [wAdj]
  | cons e es ih =>
    have ih' := ih fun x hx => h x (List.mem_cons_of_mem _ hx)
    obtain ⟨h1, h2⟩ := h e List.mem_cons_self
    obtain ⟨⟨s, t⟩, w⟩ := e
    simp only at h1 h2
    have hs : ∀ i j, wAdj (((s, t), w) :: es) i j * f i j =
        (if s = i ∧ t = j then w * f i j else 0) + (if s = j ∧ t = i then w * f i j else 0) + wAdj es i j * f i j := by
      intro i j
      simp only [wAdj, List.map_cons, List.sum_cons, Prod.mk.injEq]
      split_ifs <;> ring
    simp only [hs, Finset.sum_add_distrib, ih', List.map_cons, List.sum_cons]
    have e1 : ∑ i ∈ range n, ∑ j ∈ range n, (if s = i ∧ t = j then w * f i j else 0) = w * f s t := by
      rw [Finset.sum_eq_single s, Finset.sum_eq_single t]
      · simp
      · intro j _ hj; rw [if_neg]; rintro ⟨-, rfl⟩; exact hj rfl
      · intro hn; exact absurd (Finset.mem_range.mpr h2) hn
      · intro i _ hi; apply Finset.sum_eq_zero; intro j _; rw [if_neg]; rintro ⟨rfl, -⟩; exact hi rfl
      · intro hn; exact absurd (Finset.mem_range.mpr h1) hn
    have e2 : ∑ i ∈ range n, ∑ j ∈ range n, (if s = j ∧ t = i then w * f i j else 0) = w * f t s := by
      rw [Finset.sum_eq_single t, Finset.sum_eq_single s]
      · simp
      · intro j _ hj; rw [if_neg]; rintro ⟨rfl, -⟩; exact hj rfl
      · intro hn; exact absurd (Finset.mem_range.mpr h1) hn
      · intro i _ hi; apply Finset.sum_eq_zero; intro j _; rw [if_neg]; rintro ⟨-, rfl⟩; exact hi rfl
      · intro hn; exact absurd (Finset.mem_range.mpr h2) hn
    rw [e1, e2]; ring

theorem wTwoM_eq {n : Nat} {es : List ((Nat × Nat) × ℝ)} (h : EndsIn es n) : wTwoM n es = 2 * wTotal es := by
  have := sum_wAdj h fun _ _ => 1
  simp only [mul_one] at this
  unfold wTwoM wTotal
  rw [this, ← List.sum_map_mul_left]
  congr 1
  apply List.map_congr_left; intro e _; ring

/-- weight of the pairs inside communities -/
noncomputable def pairsInside (n : Nat) (es : List ((Nat × Nat) × ℝ)) (c : List α) : ℝ :=
  ∑ i ∈ range n, ∑ j ∈ range n, wAdj es i j * (if c[i]? = c[j]? then 1 else 0)

/-- expected weight of the pairs inside communities -/
noncomputable def nullInside (n : Nat) (es : List ((Nat × Nat) × ℝ)) (c : List α) : ℝ :=
  ∑ i ∈ range n, ∑ j ∈ range n, wDegree n es i * wDegree n es j / wTwoM n es * (if c[i]? = c[j]? then 1 else 0)

theorem nullTotal (n : Nat) (es : List ((Nat × Nat) × ℝ)) :
    ∑ i ∈ range n, ∑ j ∈ range n, wDegree n es i * wDegree n es j / wTwoM n es = wTwoM n es := by
  have hd : ∑ i ∈ range n, wDegree n es i = wTwoM n es := rfl
  have : ∀ i, ∑ j ∈ range n, wDegree n es i * wDegree n es j / wTwoM n es =
      wDegree n es i * wTwoM n es / wTwoM n es := by
    intro i
    rw [← Finset.sum_div, ← Finset.mul_sum, hd]
  simp only [this]
  rw [← Finset.sum_div, ← Finset.sum_mul, hd]
  by_cases h0 : wTwoM n es = 0
  · rw [h0]; simp
  · field_simp

/-- the likelihood depends on the partition through two numbers -/
theorem logLikelihood_eq (n : Nat) (es : List ((Nat × Nat) × ℝ)) (c : List α) (a b : ℝ) :
    logLikelihood n es c a b = 1 / 2 * (pairsInside n es c * log a + (wTwoM n es - pairsInside n es c) * log b -
      nullInside n es c * a - (wTwoM n es - nullInside n es c) * b) := by
  have key : ∀ i j, wAdj es i j * log (if c[i]? = c[j]? then a else b) -
      wDegree n es i * wDegree n es j / wTwoM n es * (if c[i]? = c[j]? then a else b) =
      (log a - log b) * (wAdj es i j * (if c[i]? = c[j]? then 1 else 0)) + log b * wAdj es i j -
      (a - b) * (wDegree n es i * wDegree n es j / wTwoM n es * (if c[i]? = c[j]? then 1 else 0)) -
      b * (wDegree n es i * wDegree n es j / wTwoM n es) := by
    intro i j
    split_ifs <;> ring
  unfold logLikelihood
  simp only [key, Finset.sum_sub_distrib, Finset.sum_add_distrib, ← Finset.mul_sum, nullTotal]
  unfold pairsInside nullInside wTwoM
  ring

theorem pairsInside_eq {n : Nat} {es : List ((Nat × Nat) × ℝ)} (h : EndsIn es n) (c : List Nat) :
    pairsInside n es c = 2 * wInside es c := by
  unfold pairsInside wInside
  rw [sum_wAdj h, ← List.sum_map_mul_left]
  congr 1
  apply List.map_congr_left
  intro e _
  by_cases hc : c[e.1.1]? = c[e.1.2]?
  · simp [hc]; ring
  · simp [hc, Ne.symm hc]

/-- strength of a community = total degree of its vertices -/
theorem wStrength_eq {n : Nat} {es : List ((Nat × Nat) × ℝ)} (h : EndsIn es n) (c : List Nat) (r : Nat) :
    wStrength es c r = ∑ i ∈ range n, wDegree n es i * (if c[i]? = some r then 1 else 0) := by
  have := sum_wAdj h fun i _ => if c[i]? = some r then 1 else 0
  unfold wStrength wDegree
  simp only [Finset.sum_mul]
  rw [this]
  congr 1
  apply List.map_congr_left
  intro e _
  split_ifs <;> ring

theorem nullInside_eq {n : Nat} {es : List ((Nat × Nat) × ℝ)} (h : EndsIn es n) {c : List Nat} (hc : c.length = n) :
    nullInside n es c = strengthSq es c / (2 * wTotal es) := by
  unfold nullInside strengthSq
  rw [wTwoM_eq h]
  have e1 : ∀ i j, wDegree n es i * wDegree n es j / (2 * wTotal es) * (if c[i]? = c[j]? then (1 : ℝ) else 0) =
      wDegree n es i * wDegree n es j * (if c[i]? = c[j]? then 1 else 0) / (2 * wTotal es) := by intro i j; ring
  simp only [e1, ← Finset.sum_div]
  congr 1
  simp only [wStrength_eq h, pow_two, Finset.sum_mul_sum]
  symm
  rw [Finset.sum_comm]
  refine Finset.sum_congr rfl fun i hi => ?_
  rw [Finset.sum_comm]
  refine Finset.sum_congr rfl fun j hj => ?_
  rw [Finset.mem_range] at hi hj
  have hi' : i < c.length := by omega
  have hj' : j < c.length := by omega
  rw [List.getElem?_eq_getElem hi', List.getElem?_eq_getElem hj']
  rw [Finset.sum_eq_single c[i]]
  · by_cases hij : c[i] = c[j]
    · simp [hij]
    · simp [hij, Ne.symm hij]
  · intro r _ hr
    rw [if_neg (by simpa using Ne.symm hr)]; ring
  · intro hn
    exact absurd (Finset.mem_range.mpr (lt_partLen (List.getElem_mem hi'))) hn

/-! ### maximising `A log a - P a` -/

theorem poisson_lt {A P a : ℝ} (hA : 0 < A) (hP : 0 < P) (ha : 0 < a) (hne : a ≠ A / P) :
    A * log a - P * a < A * log (A / P) - P * (A / P) := by
  have hx : 0 < a / (A / P) := by positivity
  have hx1 : a / (A / P) ≠ 1 := by
    intro h
    rw [div_eq_one_iff_eq (by positivity)] at h
    exact hne h
  have := log_lt_sub_one_of_pos hx hx1
  rw [log_div ha.ne' (by positivity)] at this
  have h2 : A * (log a - log (A / P)) < A * (a / (A / P) - 1) := mul_lt_mul_of_pos_left this hA
  have h3 : A * (a / (A / P) - 1) = P * a - P * (A / P) := by field_simp
  linarith

theorem poisson_le {A P a : ℝ} (hA : 0 < A) (hP : 0 < P) (ha : 0 < a) :
    A * log a - P * a ≤ A * log (A / P) - P * (A / P) := by
  by_cases hne : a = A / P
  · rw [hne]
  · exact (poisson_lt hA hP ha hne).le

/-- unique maximum of the two-parameter likelihood -/
theorem two_poisson {A P W a b : ℝ} (hA : 0 ≤ A) (hAW : A ≤ W) (hP : 0 < P) (hPW : P ≤ W) :
    (0 < a ∧ 0 < b ∧ ∀ a' b' : ℝ, 0 < a' → 0 < b' → (a', b') ≠ (a, b) →
      1 / 2 * (A * log a' + (W - A) * log b' - P * a' - (W - P) * b') <
        1 / 2 * (A * log a + (W - A) * log b - P * a - (W - P) * b)) ↔
    0 < A ∧ A < W ∧ P < W ∧ a = A / P ∧ b = (W - A) / (W - P) := by
  constructor
  · rintro ⟨ha, hb, hmax⟩
    have hA0 : 0 < A := by
      rcases hA.lt_or_eq with h | h
      · exact h
      · exfalso
        have := hmax (a / 2) b (by positivity) hb (by intro h; have := (Prod.mk.inj h).1; linarith)
        rw [← h] at this
        have hpa : 0 < P * a := by positivity
        linarith
    have hAW' : A < W := by
      rcases hAW.lt_or_eq with h | h
      · exact h
      · exfalso
        have := hmax a (b / 2) ha (by positivity) (by intro h; have := (Prod.mk.inj h).2; linarith)
        rw [← h] at this hPW
        have hpb : 0 ≤ (A - P) * b := mul_nonneg (by linarith) hb.le
        linarith
    have hPW' : P < W := by
      rcases hPW.lt_or_eq with h | h
      · exact h
      · exfalso
        have := hmax a (2 * b) ha (by positivity) (by intro h; have := (Prod.mk.inj h).2; linarith)
        rw [← h] at this hAW'
        have hl : log b < log (2 * b) := log_lt_log hb (by linarith)
        have : (P - A) * log b < (P - A) * log (2 * b) := mul_lt_mul_of_pos_left hl (by linarith)
        linarith
    refine ⟨hA0, hAW', hPW', ?_, ?_⟩
    · by_contra hne
      have := hmax (A / P) b (by positivity) hb (by intro h; exact hne (Prod.mk.inj h).1.symm)
      have := poisson_lt hA0 hP ha hne
      linarith
    · by_contra hne
      have hq : 0 < (W - A) / (W - P) := div_pos (by linarith) (by linarith)
      have := hmax a _ ha hq (by intro h; exact hne (Prod.mk.inj h).2.symm)
      have := poisson_lt (A := W - A) (P := W - P) (by linarith) (by linarith) hb hne
      linarith
  · rintro ⟨hA0, hAW', hPW', rfl, rfl⟩
    have hq : 0 < (W - A) / (W - P) := div_pos (by linarith) (by linarith)
    refine ⟨by positivity, hq, ?_⟩
    intro a' b' ha' hb' hne
    have l1 := poisson_le hA0 hP ha'
    have l2 := poisson_le (A := W - A) (P := W - P) (by linarith) (by linarith) hb'
    by_cases h1 : a' = A / P
    · have h2 : b' ≠ (W - A) / (W - P) := by
        intro h; exact hne (by rw [h1, h])
      have := poisson_lt (A := W - A) (P := W - P) (by linarith) (by linarith) hb' h2
      linarith
    · have := poisson_lt hA0 hP ha' h1
      linarith

/-! ### unweighted graphs -/

theorem endsIn_unit {G : Graph ℝ} (hG : G.WF) : EndsIn (unitEdges G) G.vcount := by
  intro e he
  obtain ⟨x, hx, rfl⟩ := List.mem_map.mp he
  exact hG.1 x hx

theorem wAdj_unit {G : Graph ℝ} (hd : G.directed = false) (i j : Nat) : wAdj (unitEdges G) i j = adj G i j := by
  unfold wAdj unitEdges adj
  rw [hd]
  simp only [Bool.false_eq_true, if_false, List.map_map, Function.comp_def]
  push_cast
  induction G.edges with
  | nil => simp
  | cons e es ih =>
    simp only [List.map_cons, List.sum_cons, ih, List.count_cons, beq_iff_eq]
    push_cast
    ring

theorem wTwoM_unit {G : Graph ℝ} (hd : G.directed = false) : wTwoM G.vcount (unitEdges G) = total G := by
  unfold wTwoM total
  push_cast
  simp only [wAdj_unit hd]

theorem wDegree_unit {G : Graph ℝ} (hd : G.directed = false) (i : Nat) :
    wDegree G.vcount (unitEdges G) i = rowSum G i := by
  unfold wDegree rowSum
  push_cast
  simp only [wAdj_unit hd]

theorem pairsInside_unit {G : Graph ℝ} (hd : G.directed = false) (c : List α) :
    pairsInside G.vcount (unitEdges G) c = withinAdj G c := by
  unfold pairsInside withinAdj
  simp only [wAdj_unit hd, mul_ite, mul_one, mul_zero]

theorem nullInside_unit {G : Graph ℝ} (hd : G.directed = false) (c : List α) :
    nullInside G.vcount (unitEdges G) c = withinNull G c := by
  unfold nullInside withinNull
  simp only [wDegree_unit hd, wTwoM_unit hd, mul_ite, mul_one, mul_zero, colSum_eq_rowSum hd]

/-- likelihood = modularity at the logarithmic mean, up to scale and constant -/
theorem logLikelihood_modularity {G : Graph ℝ} (hd : G.directed = false) (c : List α) {a b : ℝ}
    (hab : log a ≠ log b) :
    logLikelihood G.vcount (unitEdges G) c a b =
      1 / 2 * (log a - log b) * modularity G ((a - b) / (log a - log b)) c + 1 / 2 * (total G * (log b - b)) := by
  rw [logLikelihood_eq, pairsInside_unit hd, nullInside_unit hd, wTwoM_unit hd, modularity_affine]
  have : log a - log b ≠ 0 := sub_ne_zero.mpr hab
  field_simp
  ring

end Verif.Proofs
