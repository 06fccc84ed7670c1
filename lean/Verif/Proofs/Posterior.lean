import Verif.Proofs.Likelihood
import Verif.Proofs.Coefficients3D

/-! # The temporal posterior in terms of the CHAMP coefficients -/

namespace Verif.Proofs
open Verif Verif.Spec Finset Real

variable {α : Type} [DecidableEq α] {G : Graph ℝ} {layer : List Nat}

/-- null weight of the pairs in one layer adds up to all edges -/
theorem layeredNull_total (hl : layer.length = G.vcount) :
    ∑ i ∈ range G.vcount, ∑ j ∈ range G.vcount, (if layer[i]? = layer[j]? then
      (rowSum G i : ℝ) * (rowSum G j : ℝ) / (layerTotal G layer (layer[i]?.getD 0) : ℝ) else 0) = total G := by
  have htot : (total G : ℝ) = ∑ i ∈ range G.vcount, (rowSum G i : ℝ) := by
    unfold total rowSum; push_cast; rfl
  rw [htot]
  refine Finset.sum_congr rfl fun i hi => ?_
  have hi' : i < layer.length := by rw [hl]; exact Finset.mem_range.mp hi
  have hg : layer[i]? = some layer[i] := List.getElem?_eq_getElem hi'
  have hLT : (layerTotal G layer layer[i] : ℝ) =
      ∑ j ∈ range G.vcount, if layer[i]? = layer[j]? then (rowSum G j : ℝ) else 0 := by
    unfold layerTotal
    push_cast
    refine Finset.sum_congr rfl fun j _ => ?_
    rw [hg]
    by_cases h : layer[j]? = some layer[i]
    · rw [if_pos h.symm]
      simp only [h, if_true]
      unfold rowSum; push_cast; rfl
    · rw [if_neg (fun e => h e.symm)]
      simp [h]
  have e1 : ∀ j, (if layer[i]? = layer[j]? then
      (rowSum G i : ℝ) * (rowSum G j : ℝ) / (layerTotal G layer (layer[i]?.getD 0) : ℝ) else 0) =
      (rowSum G i : ℝ) / (layerTotal G layer layer[i] : ℝ) * (if layer[i]? = layer[j]? then (rowSum G j : ℝ) else 0) := by
    intro j
    rw [hg, Option.getD_some]
    split_ifs <;> ring
  simp only [e1, ← Finset.mul_sum, ← hLT]
  by_cases h0 : (layerTotal G layer layer[i] : ℝ) = 0
  · rw [h0, div_zero, zero_mul]
    have hz : ∑ j ∈ range G.vcount, (if layer[i]? = layer[j]? then (rowSum G j : ℝ) else 0) = 0 := hLT ▸ h0
    rw [Finset.sum_eq_zero_iff_of_nonneg (fun j _ => by split <;> positivity)] at hz
    have := hz i hi
    rw [if_pos rfl] at this
    exact this.symm
  · rw [div_mul_cancel₀ _ h0]

theorem adj_cross (hd : G.directed = false) (hx : ∀ e ∈ G.edges, layer[e.1]? = layer[e.2]?) {i j : Nat}
    (h : layer[i]? ≠ layer[j]?) : adj G i j = 0 := by
  unfold adj
  rw [hd]
  have h1 : G.edges.count (i, j) = 0 := List.count_eq_zero.mpr fun hm => h (hx _ hm)
  have h2 : G.edges.count (j, i) = 0 := List.count_eq_zero.mpr fun hm => h (hx _ hm).symm
  simp [h1, h2]

/-- the intralayer likelihood depends on the labels through two numbers -/
theorem layeredLogLikelihood_eq (hd : G.directed = false) (hl : layer.length = G.vcount)
    (hx : ∀ e ∈ G.edges, layer[e.1]? = layer[e.2]?) (c : List α) (a b : ℝ) :
    layeredLogLikelihood G layer c a b = 1 / 2 * (withinAdj G c * log a + (total G - withinAdj G c) * log b -
      withinNullLayered G layer c * a - (total G - withinNullLayered G layer c) * b) := by
  have key : ∀ i j, (if layer[i]? = layer[j]? then
      (adj G i j : ℝ) * log (if c[i]? = c[j]? then a else b) -
        (rowSum G i : ℝ) * (rowSum G j : ℝ) / (layerTotal G layer (layer[i]?.getD 0) : ℝ) * (if c[i]? = c[j]? then a else b)
      else 0) =
      (log a - log b) * (if c[i]? = c[j]? then (adj G i j : ℝ) else 0) + log b * (adj G i j : ℝ) -
      (a - b) * (if c[i]? = c[j]? ∧ layer[i]? = layer[j]? then
        (colSum G i : ℝ) * (rowSum G j : ℝ) / (layerTotal G layer (layer[i]?.getD 0) : ℝ) else 0) -
      b * (if layer[i]? = layer[j]? then
        (rowSum G i : ℝ) * (rowSum G j : ℝ) / (layerTotal G layer (layer[i]?.getD 0) : ℝ) else 0) := by
    intro i j
    rw [colSum_eq_rowSum hd]
    by_cases h1 : layer[i]? = layer[j]?
    · by_cases h2 : c[i]? = c[j]?
      · rw [if_pos h1, if_pos h2, if_pos h2, if_pos ⟨h2, h1⟩, if_pos h1]; ring
      · rw [if_pos h1, if_neg h2, if_neg h2, if_neg (fun h => h2 h.1), if_pos h1]; ring
    · rw [adj_cross hd hx h1]
      simp [h1]
  unfold layeredLogLikelihood
  simp only [key, Finset.sum_sub_distrib, Finset.sum_add_distrib, ← Finset.mul_sum, layeredNull_total hl]
  have ht : (total G : ℝ) = ∑ i ∈ range G.vcount, ∑ j ∈ range G.vcount, (adj G i j : ℝ) := by
    unfold total; push_cast; rfl
  unfold withinAdj withinNullLayered
  rw [ht]
  ring

theorem couplingLogProbability_eq (Gx : Graph ℝ) (c : List α) (K : Nat) (p : ℝ) :
    couplingLogProbability Gx c K p =
      ((Gx.edges.map fun e => if c[e.1]? = c[e.2]? then (1 : ℝ) else 0).sum) * log (p + (1 - p) / K) +
      (Gx.ecount - (Gx.edges.map fun e => if c[e.1]? = c[e.2]? then (1 : ℝ) else 0).sum) * log ((1 - p) / K) := by
  unfold couplingLogProbability Graph.ecount
  induction Gx.edges with
  | nil => simp
  | cons e es ih =>
    simp only [List.map_cons, List.sum_cons, List.length_cons]
    rw [ih]
    push_cast
    split_ifs <;> ring

/-- `S log q + (M - S) log (1 - q)` on `[1/K, 1)` -/
theorem bernoulli_lt {S M q q' : ℝ} (hS : 0 ≤ S) (hSM : S < M) (hq : 0 < q) (hq1 : q < 1) (hq' : 0 < q') (hq1' : q' < 1)
    (hne : q' ≠ q) (hslope : (q' - q) * (S / q - (M - S) / (1 - q)) ≤ 0) :
    S * log q' + (M - S) * log (1 - q') < S * log q + (M - S) * log (1 - q) := by
  have h1 : log (q' / q) ≤ q' / q - 1 := log_le_sub_one_of_pos (by positivity)
  have h2 : log ((1 - q') / (1 - q)) < (1 - q') / (1 - q) - 1 :=
    log_lt_sub_one_of_pos (div_pos (by linarith) (by linarith)) (by
      intro h
      rw [div_eq_one_iff_eq (by linarith)] at h
      exact hne (by linarith))
  rw [log_div hq'.ne' hq.ne'] at h1
  rw [log_div (by linarith) (by linarith)] at h2
  have k1 : S * (log q' - log q) ≤ S * (q' / q - 1) := mul_le_mul_of_nonneg_left h1 hS
  have k2 : (M - S) * (log (1 - q') - log (1 - q)) < (M - S) * ((1 - q') / (1 - q) - 1) :=
    mul_lt_mul_of_pos_left h2 (by linarith)
  have k3 : S * (q' / q - 1) + (M - S) * ((1 - q') / (1 - q) - 1) = (q' - q) * (S / q - (M - S) / (1 - q)) := by
    have : (1 - q) ≠ 0 := by linarith
    field_simp
    ring
  linarith

/-- maximum of the coupling term -/
theorem coupling_max {S M : ℝ} {K : Nat} (hS : 0 ≤ S) (hSM : S < M) (hK : 1 < K) {p p' : ℝ}
    (hp : p = max ((K * (S / M) - 1) / (K - 1)) 0) (h0 : 0 ≤ p') (h1 : p' < 1) (hne : p' ≠ p) :
    S * log (p' + (1 - p') / K) + (M - S) * log ((1 - p') / K) <
      S * log (p + (1 - p) / K) + (M - S) * log ((1 - p) / K) := by
  have hK' : (1 : ℝ) < K := by exact_mod_cast hK
  have hK0 : (0 : ℝ) < K := by linarith
  have hM : 0 < M := by linarith
  have hd : (0 : ℝ) < K - 1 := by linarith
  have hp0 : 0 ≤ p := hp ▸ le_max_right _ _
  have hx1 : (K * (S / M) - 1) / (K - 1) < 1 := by
    rw [div_lt_one hd]
    have : S / M < 1 := (div_lt_one hM).mpr hSM
    have : K * (S / M) < K * 1 := mul_lt_mul_of_pos_left this hK0
    linarith
  have hp1 : p < 1 := by rw [hp]; exact max_lt hx1 one_pos
  -- switch to `q = p + (1 - p)/K`
  have hsub : ∀ x : ℝ, (1 - x) / K = (1 - (x + (1 - x) / K)) / (K - 1) := by
    intro x; field_simp; ring
  have hlog : ∀ x : ℝ, x < 1 → log ((1 - x) / K) = log (1 - (x + (1 - x) / K)) - log (K - 1) := by
    intro x hx
    have hpos : 0 < (1 - x) / K := div_pos (by linarith) hK0
    have hpos' : 0 < 1 - (x + (1 - x) / K) := by
      have := hsub x
      rw [this] at hpos
      exact (div_pos_iff_of_pos_right hd).mp hpos
    rw [hsub x, log_div hpos'.ne' hd.ne', ← hsub x]
  have hq : ∀ x : ℝ, 0 ≤ x → x < 1 → 0 < x + (1 - x) / K ∧ x + (1 - x) / K < 1 := by
    intro x hx hx1
    have hpos : 0 < (1 - x) / K := div_pos (by linarith) hK0
    refine ⟨by linarith, ?_⟩
    have := hsub x
    rw [this] at hpos
    have := (div_pos_iff_of_pos_right hd).mp hpos
    linarith
  rw [hlog p hp1, hlog p' h1]
  obtain ⟨q0, q1⟩ := hq p hp0 hp1
  obtain ⟨q0', q1'⟩ := hq p' h0 h1
  have hdiff : (p' + (1 - p') / K) - (p + (1 - p) / K) = (p' - p) * ((K - 1) / K) := by field_simp; ring
  have hne' : p' + (1 - p') / K ≠ p + (1 - p) / K := by
    intro h
    have h0 : (p' - p) * ((K - 1) / K) = 0 := by rw [← hdiff, h, sub_self]
    rcases mul_eq_zero.mp h0 with h | h
    · exact hne (by linarith)
    · rw [div_eq_zero_iff] at h
      rcases h with h | h <;> linarith
  have hslope : ((p' + (1 - p') / K) - (p + (1 - p) / K)) *
      (S / (p + (1 - p) / K) - (M - S) / (1 - (p + (1 - p) / K))) ≤ 0 := by
    rcases le_total ((K * (S / M) - 1) / (K - 1)) 0 with hle | hle
    · -- clipped at 0
      rw [max_eq_right hle] at hp
      subst hp
      rw [hdiff]
      have hle' : K * (S / M) - 1 ≤ 0 := by
        by_contra hc
        exact absurd hle (not_le.mpr (div_pos (not_le.mp hc) hd))
      have hSK : S * K ≤ M := by
        have h := hle'
        have e : K * (S / M) = K * S / M := by ring
        rw [e] at h
        have : K * S / M ≤ 1 := by linarith
        rw [div_le_one hM] at this
        linarith
      have e1 : S / (0 + (1 - 0) / (K : ℝ)) = S * K := by field_simp; ring
      have e2 : (M - S) / (1 - (0 + (1 - 0) / (K : ℝ))) = (M - S) * K / (K - 1) := by
        have e : 1 - (0 + (1 - 0) / (K : ℝ)) = (K - 1) / K := by field_simp; ring
        rw [e, div_div_eq_mul_div]
      rw [e1, e2]
      have h3 : S * K ≤ (M - S) * K / (K - 1) := by
        rw [le_div_iff₀ hd]
        nlinarith
      have h4 : 0 ≤ (p' - 0) * (((K : ℝ) - 1) / K) := mul_nonneg (by linarith) (by positivity)
      exact mul_nonpos_of_nonneg_of_nonpos h4 (by linarith)
    · rw [max_eq_left hle] at hp
      have hq' : p + (1 - p) / K = S / M := by
        rw [hp]; field_simp; ring
      rw [hq'] at q0 q1 ⊢
      have hS0 : 0 < S := by
        rcases hS.lt_or_eq with h | h
        · exact h
        · rw [← h, zero_div] at q0; exact absurd q0 (lt_irrefl _)
      have e1 : S / (S / M) = M := by field_simp
      have e2 : (M - S) / (1 - S / M) = M := by
        have : M - S ≠ 0 := by linarith
        have e : 1 - S / M = (M - S) / M := by field_simp
        rw [e]; field_simp
      rw [e1, e2, sub_self, mul_zero]
  have := bernoulli_lt hS hSM q0 q1 q0' q1' hne' hslope
  linarith

end Verif.Proofs
