import Mathlib.Tactic.IntervalCases
import Mathlib.Tactic.FieldSimp
import Mathlib.Tactic.Positivity
import Verif.Model.BlockModels
import Verif.Proofs.Bistable

namespace Verif.Proofs
open Verif Verif.Spec Finset

variable {n B : Nat} {M : List (List ℝ)} {m : Nat → Nat} {k : ℝ}

/-- every vertex has expected degree `k` -/
def RegularBlocks (n B : Nat) (M : List (List ℝ)) (k : ℝ) : Prop :=
  (∀ r s, entry M r s = entry M s r) ∧ ∀ r < n, B * ∑ s ∈ range n, entry M r s - entry M r r = k

theorem regular_total (h : RegularBlocks n B M k) : 2 * wTotal (weightedEdgesOf (expectedNetwork n M B)) = n * B * k := by
  rw [expected_total h.1]
  have : ∀ r ∈ range n, (B : ℝ) ^ 2 * ∑ s ∈ range n, entry M r s - B * entry M r r = B * k := by
    intro r hr
    rw [← h.2 r (mem_range.mp hr)]; ring
  rw [mul_sum, mul_sum, ← sum_sub_distrib, sum_congr rfl this, sum_const, card_range, nsmul_eq_mul]
  ring

theorem regular_strength (h : RegularBlocks n B M k) (q : Nat) :
    wStrength (weightedEdgesOf (expectedNetwork n M B)) (blockLabels n B m) q =
      B * k * ∑ r ∈ range n, if m r = q then 1 else 0 := by
  rw [expected_strength h.1, mul_sum, mul_sum, mul_sum, ← sum_sub_distrib]
  refine sum_congr rfl fun r hr => ?_
  by_cases hq : m r = q
  · simp only [if_pos hq]
    rw [← h.2 r (mem_range.mp hr)]; ring
  · simp only [if_neg hq, sum_const_zero]; ring

theorem regular_strengthSq (hB : 0 < B) (h : RegularBlocks n B M k) :
    strengthSq (weightedEdgesOf (expectedNetwork n M B)) (blockLabels n B m) =
      (B * k) ^ 2 * ∑ r ∈ range n, ∑ s ∈ range n, if m r = m s then 1 else 0 := by
  unfold strengthSq
  simp only [regular_strength h, mul_pow, ← mul_sum]
  congr 1
  have hlt : ∀ r ∈ range n, m r < partLen (blockLabels n B m) := by
    intro r hr
    have : m r ∈ blockLabels n B m := (mem_blockLabels hB).mpr ⟨r, mem_range.mp hr, rfl⟩
    unfold partLen
    cases hM : (blockLabels n B m).max? with
    | none => rw [List.max?_eq_none_iff] at hM; rw [hM] at this; cases this
    | some x =>
      have := (List.max?_eq_some_iff.mp hM).2 _ this
      simp only
      omega
  simp only [sq, sum_mul_sum]
  rw [sum_comm]
  refine sum_congr rfl fun r hr => ?_
  rw [sum_comm]
  refine sum_congr rfl fun s _ => ?_
  rw [sum_eq_single_of_mem (m r) (mem_range.mpr (hlt r hr))]
  · simp only [if_true, one_mul]
    by_cases h' : m r = m s
    · rw [if_pos h', if_pos h'.symm]
    · rw [if_neg h', if_neg (Ne.symm h')]
  · intro q _ hq
    rw [if_neg hq.symm, zero_mul]

/-- the estimates of a union of blocks, from the inside weight and the number of pairs of blocks together -/
theorem regular_estimate (hB : 0 < B) (hn : 0 < n) (hk : k ≠ 0) (h : RegularBlocks n B M k)
    (hK : 1 < partLen (blockLabels n B m)) {A S : ℝ}
    (h2 : 2 * wInside (weightedEdgesOf (expectedNetwork n M B)) (blockLabels n B m) = A)
    (hS : (∑ r ∈ range n, ∑ s ∈ range n, if m r = m s then (1 : ℝ) else 0) = S) (hS0 : S ≠ 0) (hS1 : S ≠ n ^ 2) :
    estimateSinglelayerSBM (expectedNetwork n M B) (blockLabels n B m) none =
      .ok (A * n / (B * k * S), (n * B * k - A) * n / (B * k * (n ^ 2 - S))) := by
  have hn' : (n : ℝ) ≠ 0 := by exact_mod_cast hn.ne'
  have hB' : (B : ℝ) ≠ 0 := by exact_mod_cast hB.ne'
  have hd : (n : ℝ) ^ 2 - S ≠ 0 := fun h => hS1 (by linarith)
  have hs := regular_strengthSq (m := m) hB h
  rw [hS] at hs
  have e1 : (B * k) ^ 2 * S / (n * B * k) = B * k * S / n := by field_simp
  have e2 : n * B * k - B * k * S / n = B * k * (n ^ 2 - S) / n := by field_simp
  rw [expected_estimate (blockLabels_length n B m) hK (regular_total h) h2 hs (by positivity)
    (by rw [e1]; positivity) (by rw [e1, e2]; positivity)]
  rw [e1, e2]
  congr 2
  · field_simp
  · field_simp

/-! ### vertex by vertex -/

theorem expected_adj (hM : ∀ r s, entry M r s = entry M s r) {i j : Nat} (hi : i < n * B) (hj : j < n * B) :
    wAdj (weightedEdgesOf (expectedNetwork n M B)) i j = if i = j then 0 else entry M (i / B) (j / B) := by
  have key : ∀ {i j : Nat}, i < j → j < n * B →
      wAdj (weightedEdgesOf (expectedNetwork n M B)) i j = entry M (i / B) (j / B) := by
    intro i j hij hj
    unfold wAdj
    rw [weightedEdgesOf_expected, List.map_map]
    have := sum_allPairs (n * B) fun a b =>
      (if (a, b) = (i, j) then entry M (a / B) (b / B) else 0) + (if (a, b) = (j, i) then entry M (a / B) (b / B) else 0)
    refine this.trans ?_
    rw [sum_eq_single_of_mem j (mem_range.mpr hj), sum_eq_single_of_mem i (mem_range.mpr hij)]
    · rw [if_pos rfl, if_neg (by simp; omega), add_zero]
    · intro b hb hbi
      have : b < j := mem_range.mp hb
      rw [if_neg (by simp; omega), if_neg (by simp; omega), add_zero]
    · intro b hb hbj
      refine sum_eq_zero fun a ha => ?_
      have : a < b := mem_range.mp ha
      rw [if_neg (by simp; omega), if_neg (by simp; omega), add_zero]
  have symm : ∀ i j, wAdj (weightedEdgesOf (expectedNetwork n M B)) i j = wAdj (weightedEdgesOf (expectedNetwork n M B)) j i := by
    intro i j
    unfold wAdj
    congr 1
    refine List.map_congr_left fun e _ => ?_
    rw [add_comm]
  rcases lt_trichotomy i j with h | h | h
  · rw [if_neg h.ne, key h hj]
  · subst h
    rw [if_pos rfl]
    unfold wAdj
    rw [weightedEdgesOf_expected, List.map_map]
    apply List.sum_eq_zero
    intro x hx
    obtain ⟨e, he, rfl⟩ := List.mem_map.mp hx
    have := mem_allPairs.mp he
    have h' : e ≠ (i, i) := by rintro rfl; simp at this
    simp [h']
  · rw [if_neg h.ne', symm, key h hi, hM]

theorem regular_degree (h : RegularBlocks n B M k) {i : Nat} (hi : i < n * B) :
    wDegree (n * B) (weightedEdgesOf (expectedNetwork n M B)) i = k := by
  have hB : 0 < B := by by_contra h0; simp [show B = 0 by omega] at hi
  unfold wDegree
  have hr : i / B < n := Nat.div_lt_of_lt_mul (by rw [Nat.mul_comm]; exact hi)
  rw [sum_congr rfl fun j hj => expected_adj h.1 hi (mem_range.mp hj), ← h.2 _ hr]
  have : ∀ j, (if i = j then 0 else entry M (i / B) (j / B)) =
      entry M (i / B) (j / B) - if i = j then entry M (i / B) (i / B) else 0 := by
    intro j
    by_cases hij : i = j
    · subst hij; simp
    · simp [hij]
  simp only [this, sum_sub_distrib, sum_ite_eq, mem_range, if_pos hi]
  rw [sum_blocks n fun s => entry M (i / B) s]

/-- modularity of any partition of the vertices: a sum over pairs of vertices -/
theorem regular_modularity (hn : 0 < n) (hk : k ≠ 0) (h : RegularBlocks n B M k) (c : List Nat) (γ : ℝ) :
    wModularity (n * B) (weightedEdgesOf (expectedNetwork n M B)) c γ =
      ∑ i ∈ range (n * B), ∑ j ∈ range (n * B), if c[i]? = c[j]? then
        (if i = j then 0 else entry M (i / B) (j / B)) - γ * (k / (n * B)) else 0 := by
  rcases Nat.eq_zero_or_pos B with rfl | hB
  · simp [wModularity]
  have ht : wTwoM (n * B) (weightedEdgesOf (expectedNetwork n M B)) = n * B * k := by
    have : wTwoM (n * B) (weightedEdgesOf (expectedNetwork n M B)) =
        ∑ i ∈ range (n * B), wDegree (n * B) (weightedEdgesOf (expectedNetwork n M B)) i := rfl
    rw [this, sum_congr rfl fun i hi => regular_degree h (mem_range.mp hi), sum_const, card_range, nsmul_eq_mul]
    push_cast; ring
  have hn' : (n : ℝ) ≠ 0 := by exact_mod_cast hn.ne'
  have hB' : (B : ℝ) ≠ 0 := by exact_mod_cast hB.ne'
  unfold wModularity
  refine sum_congr rfl fun i hi => sum_congr rfl fun j hj => ?_
  rw [expected_adj h.1 (mem_range.mp hi) (mem_range.mp hj), regular_degree h (mem_range.mp hi),
    regular_degree h (mem_range.mp hj), ht]
  have : k * k / (n * B * k) = k / (n * B) := by field_simp
  rw [this]

/-- a union `m` of blocks that contains exactly the pairs of blocks worth containing is best among all partitions -/
theorem regular_best (hn : 0 < n) (hk : k ≠ 0) (h : RegularBlocks n B M k) {γ : ℝ}
    (h1 : ∀ r < n, ∀ s < n, m r = m s → γ * (k / (n * B)) ≤ entry M r s)
    (h2 : ∀ r < n, ∀ s < n, m r ≠ m s → entry M r s ≤ γ * (k / (n * B))) (c : List Nat) :
    wModularity (n * B) (weightedEdgesOf (expectedNetwork n M B)) c γ ≤
      wModularity (n * B) (weightedEdgesOf (expectedNetwork n M B)) (blockLabels n B m) γ := by
  rw [regular_modularity hn hk h, regular_modularity hn hk h]
  refine sum_le_sum fun i hi => sum_le_sum fun j hj => ?_
  have hi := mem_range.mp hi
  have hj := mem_range.mp hj
  have ri : i / B < n := Nat.div_lt_of_lt_mul (by rw [Nat.mul_comm]; exact hi)
  have rj : j / B < n := Nat.div_lt_of_lt_mul (by rw [Nat.mul_comm]; exact hj)
  rw [blockLabels_get hi, blockLabels_get hj]
  by_cases hij : i = j
  · subst hij; simp
  rw [if_neg hij]
  by_cases hm : m (i / B) = m (j / B)
  · rw [if_pos (congrArg some hm)]
    have := h1 _ ri _ rj hm
    split_ifs <;> linarith
  · rw [if_neg (fun h => hm (Option.some.inj h))]
    have := h2 _ ri _ rj hm
    split_ifs <;> linarith

/-- with strict inequalities it is the only best partition -/
theorem regular_best_strict (hn : 0 < n) (hk : k ≠ 0) (h : RegularBlocks n B M k) {γ : ℝ}
    (h1 : ∀ r < n, ∀ s < n, m r = m s → γ * (k / (n * B)) < entry M r s)
    (h2 : ∀ r < n, ∀ s < n, m r ≠ m s → entry M r s < γ * (k / (n * B))) {c : List Nat} (hc : c.length = n * B)
    (hne : ¬ SamePartition c (blockLabels n B m)) :
    wModularity (n * B) (weightedEdgesOf (expectedNetwork n M B)) c γ <
      wModularity (n * B) (weightedEdgesOf (expectedNetwork n M B)) (blockLabels n B m) γ := by
  have hterm : ∀ i < n * B, ∀ j < n * B, (if c[i]? = c[j]? then
        (if i = j then 0 else entry M (i / B) (j / B)) - γ * (k / (n * B)) else 0) ≤
      (if (blockLabels n B m)[i]? = (blockLabels n B m)[j]? then
        (if i = j then 0 else entry M (i / B) (j / B)) - γ * (k / (n * B)) else 0) ∧
      (¬ (c[i]? = c[j]? ↔ (blockLabels n B m)[i]? = (blockLabels n B m)[j]?) → (if c[i]? = c[j]? then
        (if i = j then 0 else entry M (i / B) (j / B)) - γ * (k / (n * B)) else 0) <
      (if (blockLabels n B m)[i]? = (blockLabels n B m)[j]? then
        (if i = j then 0 else entry M (i / B) (j / B)) - γ * (k / (n * B)) else 0)) := by
    intro i hi j hj
    have ri : i / B < n := Nat.div_lt_of_lt_mul (by rw [Nat.mul_comm]; exact hi)
    have rj : j / B < n := Nat.div_lt_of_lt_mul (by rw [Nat.mul_comm]; exact hj)
    rw [blockLabels_get hi, blockLabels_get hj]
    by_cases hij : i = j
    · subst hij; simp
    rw [if_neg hij]
    by_cases hm : m (i / B) = m (j / B)
    · rw [if_pos (congrArg some hm)]
      have := h1 _ ri _ rj hm
      by_cases hcc : c[i]? = c[j]?
      · rw [if_pos hcc]
        exact ⟨le_refl _, fun h => absurd (iff_of_true hcc (congrArg some hm)) h⟩
      · rw [if_neg hcc]
        exact ⟨by linarith, fun _ => by linarith⟩
    · have hm' : ¬ (some (m (i / B)) = some (m (j / B))) := fun h => hm (Option.some.inj h)
      rw [if_neg hm']
      have := h2 _ ri _ rj hm
      by_cases hcc : c[i]? = c[j]?
      · rw [if_pos hcc]
        exact ⟨by linarith, fun _ => by linarith⟩
      · rw [if_neg hcc]
        exact ⟨le_refl _, fun h => absurd (iff_of_false hcc hm') h⟩
  rw [regular_modularity hn hk h, regular_modularity hn hk h]
  have hex : ∃ i < n * B, ∃ j < n * B, ¬ (c[i]? = c[j]? ↔ (blockLabels n B m)[i]? = (blockLabels n B m)[j]?) := by
    by_contra hcon
    push Not at hcon
    apply hne
    refine ⟨by rw [hc, blockLabels_length], fun i j hi hj => ?_⟩
    exact hcon i (by omega) j (by omega)
  obtain ⟨i, hi, j, hj, hd⟩ := hex
  refine sum_lt_sum (fun i hi => sum_le_sum fun j hj => (hterm i (mem_range.mp hi) j (mem_range.mp hj)).1)
    ⟨i, mem_range.mpr hi, sum_lt_sum (fun j hj => (hterm i hi j (mem_range.mp hj)).1)
      ⟨j, mem_range.mpr hj, (hterm i hi j hj).2 hd⟩⟩

/-! ### matrices given by a function -/

theorem entry_ofFn {q : Nat} (f : Nat → Nat → ℝ) {r s : Nat} (hr : r < q) (hs : s < q) :
    entry ((List.range q).map fun i => (List.range q).map fun j => f i j) r s = f r s := by
  unfold entry
  simp only [List.getD_eq_getElem?_getD, List.getElem?_map, List.getElem?_range hr, List.getElem?_range hs,
    Option.map_some, Option.getD_some]

theorem entry_out {q : Nat} (f : Nat → Nat → ℝ) {r s : Nat} (h : ¬ (r < q ∧ s < q)) :
    entry ((List.range q).map fun i => (List.range q).map fun j => f i j) r s = 0 := by
  unfold entry
  simp only [List.getD_eq_getElem?_getD, List.getElem?_map]
  by_cases hr : r < q
  · have hs : q ≤ s := by by_contra h'; exact h ⟨hr, by omega⟩
    have : (List.range q)[s]? = none := List.getElem?_eq_none (by simpa using hs)
    simp [List.getElem?_range hr, this]
  · have : (List.range q)[r]? = none := List.getElem?_eq_none (by simpa using hr)
    simp [this]

theorem entry_symm {q : Nat} (f : Nat → Nat → ℝ) (hf : ∀ i j, f i j = f j i) (r s : Nat) :
    entry ((List.range q).map fun i => (List.range q).map fun j => f i j) r s =
      entry ((List.range q).map fun i => (List.range q).map fun j => f i j) s r := by
  by_cases h : r < q ∧ s < q
  · rw [entry_ofFn f h.1 h.2, entry_ofFn f h.2 h.1, hf]
  · rw [entry_out f h, entry_out f (fun h' => h ⟨h'.2, h'.1⟩)]

/-! ### the hierarchical model -/

theorem hierarchical_entry {N r s : Nat} (hr : r < 9) (hs : s < 9) : entry (hierarchicalPref N) r s =
    if s = r then hierarchicalP3 N else if s / 3 = r / 3 then hierarchicalP2 N else hierarchicalP1 N :=
  entry_ofFn (fun j i => if i = j then hierarchicalP3 N else if i / 3 = j / 3 then hierarchicalP2 N else hierarchicalP1 N)
    hr hs

/-- expected degree -/
noncomputable def hierarchicalK (B : Nat) : ℝ := 19 / 2 - 6 / B

theorem hierarchical_regular (hB : 0 < B) : RegularBlocks 9 B (hierarchicalPref (9 * B)) (hierarchicalK B) := by
  refine ⟨entry_symm _ ?_, ?_⟩
  · intro i j
    simp only [eq_comm]
  · intro r hr
    have e : ∑ s ∈ range 9, entry (hierarchicalPref (9 * B)) r s = ∑ s ∈ range 9,
        if s = r then hierarchicalP3 (9 * B) else if s / 3 = r / 3 then hierarchicalP2 (9 * B) else hierarchicalP1 (9 * B) :=
      sum_congr rfl fun s hs => hierarchical_entry hr (mem_range.mp hs)
    rw [e, hierarchical_entry hr hr, if_pos rfl]
    have hB' : (B : ℝ) ≠ 0 := by exact_mod_cast hB.ne'
    have hv : B * (hierarchicalP3 (9 * B) + 2 * hierarchicalP2 (9 * B) + 6 * hierarchicalP1 (9 * B)) -
        hierarchicalP3 (9 * B) = hierarchicalK B := by
      unfold hierarchicalP1 hierarchicalP2 hierarchicalP3 hierarchicalK
      push_cast
      field_simp
      ring
    rw [← hv]
    congr 2
    interval_cases r <;> simp [sum_range_succ] <;> ring

theorem gt9_labels (B : Nat) : groundTruth9 (9 * B) = blockLabels 9 B id := by
  unfold groundTruth9 blockLabels
  rw [Nat.mul_div_cancel_left B (by norm_num)]; rfl

theorem gt3_labels (B : Nat) : groundTruth3 (9 * B) = blockLabels 9 B (fun r => r / 3) := by
  unfold groundTruth3 blockLabels
  rw [Nat.mul_div_cancel_left B (by norm_num)]
  apply List.map_congr_left
  intro i _
  show i / (3 * B) = i / B / 3
  rw [Nat.div_div_eq_div_mul, Nat.mul_comm 3]

/-! ### Newman's model -/

theorem newman_entry {q r s : Nat} (hr : r < q) (hs : s < q) : entry (newmanPref q) r s =
    if r = s then newmanPIn q else newmanPOut q :=
  entry_ofFn (fun i j => if i = j then newmanPIn q else newmanPOut q) hr hs

theorem newman_p {q : Nat} (hq : 2 ≤ q) : newmanPIn q = 16 / 249 ∧ newmanPOut q = 8 / (250 * (q - 1)) := by
  have h1 : (2 : ℝ) ≤ q := by exact_mod_cast hq
  have h2 : (q : ℝ) - 1 ≠ 0 := by linarith
  unfold newmanPIn newmanPOut
  constructor
  · rw [div_eq_div_iff (by positivity) (by norm_num)]; ring
  · rw [div_eq_div_iff (by positivity) (by positivity)]; ring

theorem newman_regular {q : Nat} (hq : 2 ≤ q) {B : Nat} (hB : B = 250) : RegularBlocks q B (newmanPref q) 24 := by
  have h1 : (2 : ℝ) ≤ q := by exact_mod_cast hq
  have h2 : (q : ℝ) - 1 ≠ 0 := by linarith
  have hb : (B : ℝ) = 250 := by rw [hB]; norm_num
  refine ⟨entry_symm _ ?_, ?_⟩
  · intro i j
    simp only [eq_comm]
  · intro r hr
    have e : ∑ s ∈ range q, entry (newmanPref q) r s = newmanPIn q + (q - 1) * newmanPOut q := by
      rw [sum_congr rfl fun s hs => newman_entry hr (mem_range.mp hs)]
      have : ∀ s, (if r = s then newmanPIn q else newmanPOut q) =
          newmanPOut q + if r = s then newmanPIn q - newmanPOut q else 0 := by
        intro s; split_ifs <;> ring
      simp only [this, sum_add_distrib, sum_const, card_range, nsmul_eq_mul, sum_ite_eq, mem_range, if_pos hr]
      ring
    rw [e, newman_entry hr hr, if_pos rfl, (newman_p hq).1, (newman_p hq).2, hb]
    field_simp
    ring

end Verif.Proofs
