import Verif.Spec.Bistable
import Verif.Proofs.Likelihood

/-! # Sums over the expected network of a block model -/

namespace Verif.Proofs
open Verif Verif.Spec Finset

theorem sum_allPairs (n : Nat) (f : Nat → Nat → ℝ) :
    ((allPairs n).map fun e => f e.1 e.2).sum = ∑ i ∈ range n, ∑ j ∈ range i, f j i := by
  unfold allPairs
  rw [List.map_flatMap, List.flatMap_def, List.sum_flatten, List.map_map]
  rw [← list_range_sum]
  congr 1
  apply List.map_congr_left
  intro i _
  simp only [Function.comp_def, List.map_map, list_range_sum]

theorem mem_allPairs {n : Nat} {e : Nat × Nat} : e ∈ allPairs n ↔ e.1 < e.2 ∧ e.2 < n := by
  unfold allPairs
  simp only [List.mem_flatMap, List.mem_map, List.mem_range]
  constructor
  · rintro ⟨i, hi, j, hj, rfl⟩; exact ⟨hj, hi⟩
  · rintro ⟨h1, h2⟩; exact ⟨e.2, h2, e.1, h1, rfl⟩

theorem half_sum (n : Nat) (f : Nat → Nat → ℝ) (hf : ∀ i j, f i j = f j i) :
    2 * ∑ i ∈ range n, ∑ j ∈ range i, f j i = ∑ i ∈ range n, ∑ j ∈ range n, f i j - ∑ i ∈ range n, f i i := by
  induction n with
  | zero => simp
  | succ n ih =>
    rw [Finset.sum_range_succ, mul_add, ih]
    simp only [Finset.sum_range_succ, Finset.sum_add_distrib]
    have : ∑ j ∈ range n, f n j = ∑ j ∈ range n, f j n := Finset.sum_congr rfl fun j _ => hf n j
    rw [this]; ring

theorem sum_blocks {B : Nat} (n : Nat) (h : Nat → ℝ) :
    ∑ i ∈ range (n * B), h (i / B) = B * ∑ r ∈ range n, h r := by
  induction n with
  | zero => simp
  | succ n ih =>
    rw [Nat.succ_mul, Finset.sum_range_add, ih, Finset.sum_range_succ, mul_add]
    congr 1
    rw [Finset.sum_congr rfl (g := fun _ => h n)]
    · simp
    · intro k hk
      rw [Finset.mem_range] at hk
      congr 1
      rw [Nat.div_eq_of_lt_le] <;> [skip; rw [Nat.succ_mul]] <;> omega

/-- twice the sum over the pairs of a symmetric function of the blocks -/
theorem two_sum_pairs {n B : Nat} (g : Nat → Nat → ℝ) (hg : ∀ r s, g r s = g s r) :
    2 * ((allPairs (n * B)).map fun e => g (e.1 / B) (e.2 / B)).sum =
      B ^ 2 * ∑ r ∈ range n, ∑ s ∈ range n, g r s - B * ∑ r ∈ range n, g r r := by
  rw [sum_allPairs (n * B) fun i j => g (i / B) (j / B), half_sum _ _ (fun i j => hg _ _)]
  congr 1
  · have e1 : ∀ i, ∑ j ∈ range (n * B), g (i / B) (j / B) = B * ∑ s ∈ range n, g (i / B) s :=
      fun i => sum_blocks n (g (i / B))
    simp only [e1]
    rw [← Finset.mul_sum, sum_blocks n fun r => ∑ s ∈ range n, g r s]
    ring
  · exact sum_blocks n fun r => g r r

/-- memberships that are constant on the blocks -/
def blockLabels (n B : Nat) (m : Nat → Nat) : List Nat := (List.range (n * B)).map fun i => m (i / B)

theorem blocksOf_labels (n B : Nat) : blocksOf n B = blockLabels n B id := rfl

theorem merged_labels (n B : Nat) : bistableMerged (blocksOf n B) = blockLabels n B (fun r => min 1 r) := by
  unfold bistableMerged blocksOf blockLabels
  rw [List.map_map]; rfl

theorem blockLabels_get {n B : Nat} {m : Nat → Nat} {i : Nat} (hi : i < n * B) :
    (blockLabels n B m)[i]? = some (m (i / B)) := by
  unfold blockLabels
  rw [List.getElem?_map, List.getElem?_range hi]; rfl

theorem blockLabels_length (n B : Nat) (m : Nat → Nat) : (blockLabels n B m).length = n * B := by simp [blockLabels]

variable {n B : Nat} {M : List (List ℝ)} {m : Nat → Nat}

theorem expected_zip : (expectedNetwork n M B).edges.zip ((allPairs (n * B)).map fun e => entry M (e.1 / B) (e.2 / B)) =
    (allPairs (n * B)).map fun e => (e, entry M (e.1 / B) (e.2 / B)) := by
  have : ∀ l : List (Nat × Nat), l.zip (l.map fun e => entry M (e.1 / B) (e.2 / B)) =
      l.map fun e => (e, entry M (e.1 / B) (e.2 / B)) := by
    intro l
    induction l with
    | nil => rfl
    | cons a l ih => simp only [List.map_cons, List.zip_cons_cons, ih]
  exact this _

theorem weightedEdgesOf_expected : weightedEdgesOf (expectedNetwork n M B) =
    (allPairs (n * B)).map fun e => (e, entry M (e.1 / B) (e.2 / B)) := expected_zip

theorem expected_wf : (expectedNetwork n M B).WF := by
  refine ⟨?_, ?_⟩
  · intro e he
    have := mem_allPairs.mp he
    exact ⟨lt_trans this.1 this.2, this.2⟩
  · intro ws hw
    cases hw
    simp [expectedNetwork]

theorem expected_ends : EndsIn (weightedEdgesOf (expectedNetwork n M B)) (n * B) := by
  rw [weightedEdgesOf_expected]
  intro e he
  obtain ⟨x, hx, rfl⟩ := List.mem_map.mp he
  have := mem_allPairs.mp hx
  exact ⟨lt_trans this.1 this.2, this.2⟩

theorem expected_total (hM : ∀ r s, entry M r s = entry M s r) :
    2 * wTotal (weightedEdgesOf (expectedNetwork n M B)) =
      B ^ 2 * ∑ r ∈ range n, ∑ s ∈ range n, entry M r s - B * ∑ r ∈ range n, entry M r r := by
  rw [weightedEdgesOf_expected, ← two_sum_pairs (entry M) hM]
  unfold wTotal
  rw [List.map_map]; rfl

theorem expected_inside (hM : ∀ r s, entry M r s = entry M s r) :
    2 * wInside (weightedEdgesOf (expectedNetwork n M B)) (blockLabels n B m) =
      B ^ 2 * ∑ r ∈ range n, ∑ s ∈ range n, (if m r = m s then entry M r s else 0) -
        B * ∑ r ∈ range n, entry M r r := by
  have := two_sum_pairs (n := n) (B := B) (fun r s => if m r = m s then entry M r s else 0)
    (fun r s => by simp only [hM r s, eq_comm])
  simp only [if_true] at this
  rw [weightedEdgesOf_expected, ← this]
  unfold wInside
  rw [List.map_map]
  congr 2
  apply List.map_congr_left
  intro e he
  have := mem_allPairs.mp he
  simp only [Function.comp_def]
  rw [blockLabels_get (lt_trans this.1 this.2), blockLabels_get this.2]
  simp only [Option.some.injEq]

theorem expected_strength (hM : ∀ r s, entry M r s = entry M s r) (q : Nat) :
    wStrength (weightedEdgesOf (expectedNetwork n M B)) (blockLabels n B m) q =
      B ^ 2 * ∑ r ∈ range n, ∑ s ∈ range n, (if m r = q then entry M r s else 0) -
        B * ∑ r ∈ range n, (if m r = q then entry M r r else 0) := by
  have := two_sum_pairs (n := n) (B := B) (fun r s => (if m r = q then entry M r s else 0) + (if m s = q then entry M r s else 0))
    (fun r s => by simp only [hM r s, add_comm])
  have h2 : 2 * wStrength (weightedEdgesOf (expectedNetwork n M B)) (blockLabels n B m) q =
      2 * (B ^ 2 * ∑ r ∈ range n, ∑ s ∈ range n, (if m r = q then entry M r s else 0) -
        B * ∑ r ∈ range n, (if m r = q then entry M r r else 0)) := by
    trans B ^ 2 * ∑ r ∈ range n, ∑ s ∈ range n,
        ((if m r = q then entry M r s else 0) + (if m s = q then entry M r s else 0)) -
        B * ∑ r ∈ range n, ((if m r = q then entry M r r else 0) + (if m r = q then entry M r r else 0))
    · rw [← this, weightedEdgesOf_expected]
      unfold wStrength
      rw [List.map_map]
      congr 2
      apply List.map_congr_left
      intro e he
      have := mem_allPairs.mp he
      simp only [Function.comp_def]
      rw [blockLabels_get (lt_trans this.1 this.2), blockLabels_get this.2]
      simp only [Option.some.injEq]
    · have hsw : ∑ r ∈ range n, ∑ s ∈ range n, (if m s = q then entry M r s else 0) =
          ∑ r ∈ range n, ∑ s ∈ range n, (if m r = q then entry M r s else 0) := by
        rw [Finset.sum_comm]
        refine Finset.sum_congr rfl fun r _ => Finset.sum_congr rfl fun s _ => ?_
        rw [hM]
      simp only [Finset.sum_add_distrib, hsw]
      ring
  linarith

/-- modularity through two numbers -/
theorem wModularity_eq (n : Nat) (es : List ((Nat × Nat) × ℝ)) (c : List Nat) (γ : ℝ) :
    wModularity n es c γ = pairsInside n es c - γ * nullInside n es c := by
  unfold wModularity pairsInside nullInside
  rw [Finset.mul_sum, ← Finset.sum_sub_distrib]
  refine Finset.sum_congr rfl fun i _ => ?_
  rw [Finset.mul_sum, ← Finset.sum_sub_distrib]
  refine Finset.sum_congr rfl fun j _ => ?_
  split_ifs <;> ring

/-- the SBM parameters from three numbers -/
theorem expected_estimate {c : List Nat} (hc : c.length = n * B) (hK : 1 < partLen c) {W A S : ℝ}
    (h1 : 2 * wTotal (weightedEdgesOf (expectedNetwork n M B)) = W)
    (h2 : 2 * wInside (weightedEdgesOf (expectedNetwork n M B)) c = A)
    (h3 : strengthSq (weightedEdgesOf (expectedNetwork n M B)) c = S) (hW : W ≠ 0) (hS : S / W ≠ 0) (hWS : W - S / W ≠ 0) :
    estimateSinglelayerSBM (expectedNetwork n M B) c none = .ok (A / (S / W), (W - A) / (W - S / W)) := by
  have hw : (expectedNetwork n M B).weight = some _ := rfl
  rw [estimateSinglelayerSBM_eq expected_wf hc hw]
  have hz : (expectedNetwork n M B).edges.zip
      ((allPairs (n * B)).map fun e => entry M (e.1 / B) (e.2 / B)) =
      weightedEdgesOf (expectedNetwork n M B) := rfl
  have hs : ((allPairs (n * B)).map fun e => entry M (e.1 / B) (e.2 / B)).sum =
      wTotal (weightedEdgesOf (expectedNetwork n M B)) := by
    rw [weightedEdgesOf_expected]
    unfold wTotal
    rw [List.map_map]; rfl
  rw [hz, hs, h1, h2, h3, if_neg hW, if_neg hS, if_pos hK, if_neg hWS]

/-! ### the bistable preference matrix -/

theorem bistable_entry (d : ℝ) :
    entry (bistablePref d) 0 0 = 10 / 99 ∧ entry (bistablePref d) 0 1 = 1 / 160 ∧ entry (bistablePref d) 0 2 = 1 / 160 ∧
    entry (bistablePref d) 1 0 = 1 / 160 ∧ entry (bistablePref d) 1 1 = 5 / 66 ∧ entry (bistablePref d) 1 2 = d ∧
    entry (bistablePref d) 2 0 = 1 / 160 ∧ entry (bistablePref d) 2 1 = d ∧ entry (bistablePref d) 2 2 = 5 / 66 := by
  simp only [entry, bistablePref, bistablePIn1, bistablePIn2, bistablePOut1, List.getD_cons_zero, List.getD_cons_succ]
  norm_num

theorem bistable_symm (d : ℝ) (r s : Nat) : entry (bistablePref d) r s = entry (bistablePref d) s r := by
  obtain ⟨e00, e01, e02, e10, e11, e12, e20, e21, e22⟩ := bistable_entry d
  have big : ∀ r s, 3 ≤ r → entry (bistablePref d) r s = 0 := by
    intro r s hr
    obtain ⟨k, rfl⟩ := Nat.exists_eq_add_of_le' hr
    simp [entry, bistablePref]
  have big' : ∀ r s, 3 ≤ s → entry (bistablePref d) r s = 0 := by
    intro r s hs
    by_cases hr : 3 ≤ r
    · exact big r s hr
    obtain ⟨k, rfl⟩ := Nat.exists_eq_add_of_le' hs
    have : r = 0 ∨ r = 1 ∨ r = 2 := by omega
    rcases this with rfl | rfl | rfl <;> simp [entry, bistablePref]
  by_cases hr : 3 ≤ r
  · rw [big r s hr, big' s r hr]
  by_cases hs : 3 ≤ s
  · rw [big' r s hs, big s r hs]
  have h1 : r = 0 ∨ r = 1 ∨ r = 2 := by omega
  have h2 : s = 0 ∨ s = 1 ∨ s = 2 := by omega
  rcases h1 with rfl | rfl | rfl <;> rcases h2 with rfl | rfl | rfl <;> simp only [e01, e02, e10, e12, e20, e21]

theorem mem_blockLabels {n B : Nat} (hB : 0 < B) {m : Nat → Nat} {k : Nat} :
    k ∈ blockLabels n B m ↔ ∃ r, r < n ∧ m r = k := by
  unfold blockLabels
  simp only [List.mem_map, List.mem_range]
  constructor
  · rintro ⟨i, hi, rfl⟩
    exact ⟨i / B, (Nat.div_lt_iff_lt_mul hB).mpr hi, rfl⟩
  · rintro ⟨r, hr, rfl⟩
    exact ⟨r * B, Nat.mul_lt_mul_of_pos_right hr hB, by rw [Nat.mul_div_cancel _ hB]⟩

theorem partLen_blocks {n B : Nat} (hB : 0 < B) : partLen (blockLabels n B id) = n := by
  apply partLen_contiguous
  intro k
  rw [mem_blockLabels hB]
  constructor
  · rintro ⟨r, hr, rfl⟩; exact hr
  · intro hk; exact ⟨k, hk, rfl⟩

theorem partLen_merged {B : Nat} (hB : 0 < B) : partLen (blockLabels 3 B (fun r => min 1 r)) = 2 := by
  apply partLen_contiguous
  intro k
  rw [mem_blockLabels hB]
  constructor
  · rintro ⟨r, hr, rfl⟩; omega
  · intro hk; exact ⟨k, by omega, by omega⟩

/-- `2m`, and per partition the inside weight and the squared strengths -/
theorem bistable_numbers (d : ℝ) {B : Nat} (hB : 0 < B) :
    2 * wTotal (weightedEdgesOf (expectedNetwork 3 (bistablePref d) B)) =
      B / 3960 * (B * (1099 + 7920 * d) - 1000) ∧
    2 * wInside (weightedEdgesOf (expectedNetwork 3 (bistablePref d) B)) (blocksOf 3 B) = (B ^ 2 - B) * (25 / 99) ∧
    2 * wInside (weightedEdgesOf (expectedNetwork 3 (bistablePref d) B)) (bistableMerged (blocksOf 3 B)) =
      (B ^ 2 - B) * (25 / 99) + 2 * B ^ 2 * d ∧
    strengthSq (weightedEdgesOf (expectedNetwork 3 (bistablePref d) B)) (blocksOf 3 B) =
      ((B ^ 2 - B) * (10 / 99) + B ^ 2 / 80) ^ 2 + 2 * (B / 5280 * (B * (433 + 5280 * d) - 400)) ^ 2 ∧
    strengthSq (weightedEdgesOf (expectedNetwork 3 (bistablePref d) B)) (bistableMerged (blocksOf 3 B)) =
      ((B ^ 2 - B) * (10 / 99) + B ^ 2 / 80) ^ 2 + (2 * (B / 5280 * (B * (433 + 5280 * d) - 400))) ^ 2 := by
  obtain ⟨e00, e01, e02, e10, e11, e12, e20, e21, e22⟩ := bistable_entry d
  rw [expected_total (bistable_symm d), blocksOf_labels, ← blocksOf_labels, merged_labels, blocksOf_labels,
    expected_inside (bistable_symm d), expected_inside (bistable_symm d)]
  unfold strengthSq
  rw [partLen_blocks hB, partLen_merged hB]
  simp only [expected_strength (bistable_symm d), Finset.sum_range_succ, Finset.sum_range_zero, zero_add, id,
    e00, e01, e02, e10, e11, e12, e20, e21, e22]
  norm_num
  refine ⟨by ring, by ring, by ring, by ring, by ring⟩

end Verif.Proofs
