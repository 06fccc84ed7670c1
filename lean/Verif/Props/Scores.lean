import Verif.Proofs.Scores

/-!
# Properties C75, C76: the similarity scores `nmi` and `ami`
-/

set_option linter.unusedSectionVars false

namespace Verif.Props
open Verif Verif.Spec Verif.Scores
variable {α β γ : Type} [DecidableEq α] [DecidableEq β] [DecidableEq γ]

/-- All positions carry the same label (or there are none). -/
def OneLabel (p : List α) : Prop := ∀ x ∈ p, ∀ y ∈ p, x = y

theorem nmi_nil : nmi ([] : List α) ([] : List β) = .ok (.fin 1) := by
  unfold nmi skNormalizedMutualInfo; simp

theorem nmi_ofFn {n : Nat} [NeZero n] (f : Fin n → α) (g : Fin n → β) :
    nmi (List.ofFn f) (List.ofFn g) =
      if (∀ i j, f i = f j) ∧ (∀ i j, g i = g j) then .ok (.fin 1)
      else .ok (.fin (MI f g / ((H f + H g) / 2))) := by
  have hd : (List.ofFn f).dedup.length ≠ 0 := by
    intro h
    have h1 := List.length_eq_zero_iff.mp h
    have : f 0 ∈ (List.ofFn f).dedup := by simp
    rw [h1] at this
    cases this
  unfold nmi skNormalizedMutualInfo
  rw [if_neg (by simp)]
  simp only [dedup_one_ofFn, hd, false_and, or_false, skMutualInfo_ofFn, skEntropy_ofFn]
  split
  · rfl
  · split
    · next h => rw [h, zero_div]
    · next hc h =>
      have h0 : 0 < MI f g := lt_of_le_of_ne (MI_nonneg f g) (Ne.symm h)
      have hn : (H f + H g) / 2 ≠ 0 := by
        have := MI_le_mean f g
        linarith
      have : skAverage (H f) (H g) "arithmetic" = .ok ((H f + H g) / 2) := by
        unfold skAverage
        rw [if_neg (by decide), if_neg (by decide), if_pos rfl]
      rw [this]
      show Except.ok (npDiv _ _) = _
      unfold npDiv
      rw [if_pos hn]

/-- **C75.** What `nmi` returns: `ValueError` for lists of different lengths; 1 if both put everything in one community;
otherwise the mutual information divided by the mean of the two entropies, which is then positive. -/
theorem c75_value (p : List α) (q : List β) :
    (p.length ≠ q.length → ∃ msg, nmi p q = .error (.valueError msg)) ∧
    (p.length = q.length → OneLabel p → OneLabel q → nmi p q = .ok (.fin 1)) ∧
    (p.length = q.length → ¬ (OneLabel p ∧ OneLabel q) →
      0 < entropy p + entropy q ∧ nmi p q = .ok (.fin (mutualInformation p q / ((entropy p + entropy q) / 2)))) := by
  refine ⟨fun h => ⟨_, if_pos h⟩, ?_, ?_⟩
  · intro h hp hq
    obtain ⟨n, hn⟩ : ∃ n, p.length = n := ⟨_, rfl⟩
    rcases n.eq_zero_or_pos with rfl | hpos
    · obtain rfl := List.length_eq_zero_iff.mp hn
      obtain rfl := List.length_eq_zero_iff.mp (h ▸ hn : q.length = 0)
      exact nmi_nil
    · have : NeZero n := ⟨hpos.ne'⟩
      obtain ⟨f, rfl⟩ := exists_ofFn p hn
      obtain ⟨g, rfl⟩ := exists_ofFn q (h ▸ hn)
      rw [nmi_ofFn, if_pos ⟨(oneLabel_ofFn f).mp hp, (oneLabel_ofFn g).mp hq⟩]
  · intro h hno
    obtain ⟨n, hn⟩ : ∃ n, p.length = n := ⟨_, rfl⟩
    rcases n.eq_zero_or_pos with rfl | hpos
    · obtain rfl := List.length_eq_zero_iff.mp hn
      obtain rfl := List.length_eq_zero_iff.mp (h ▸ hn : q.length = 0)
      exact absurd ⟨(by intro x hx; cases hx), (by intro x hx; cases hx)⟩ hno
    · have : NeZero n := ⟨hpos.ne'⟩
      obtain ⟨f, rfl⟩ := exists_ofFn p hn
      obtain ⟨g, rfl⟩ := exists_ofFn q (h ▸ hn)
      have hno' : ¬ ((∀ i j, f i = f j) ∧ ∀ i j, g i = g j) := fun h' =>
        hno ⟨(oneLabel_ofFn f).mpr h'.1, (oneLabel_ofFn g).mpr h'.2⟩
      rw [nmi_ofFn, if_neg hno', mi_ofFn, entropy_ofFn, entropy_ofFn]
      refine ⟨?_, rfl⟩
      rcases not_and_or.mp hno' with h1 | h1
      · have := lt_of_le_of_ne (H_nonneg f) (Ne.symm (mt H_eq_zero.mp h1))
        have := H_nonneg g
        linarith
      · have := lt_of_le_of_ne (H_nonneg g) (Ne.symm (mt H_eq_zero.mp h1))
        have := H_nonneg f
        linarith

/-- **C75.** `nmi` is a finite number between 0 and 1. -/
theorem c75_range {p : List α} {q : List β} (h : p.length = q.length) : ∃ r, nmi p q = .ok (.fin r) ∧ 0 ≤ r ∧ r ≤ 1 := by
  obtain ⟨-, h1, h2⟩ := c75_value p q
  by_cases ho : OneLabel p ∧ OneLabel q
  · exact ⟨1, h1 h ho.1 ho.2, by norm_num, le_refl _⟩
  obtain ⟨hpos, he⟩ := h2 h ho
  refine ⟨_, he, ?_⟩
  have hne : p ≠ [] := by
    rintro rfl
    obtain rfl := List.length_eq_zero_iff.mp h.symm
    exact ho ⟨(by intro x hx; cases hx), (by intro x hx; cases hx)⟩
  have : NeZero p.length := ⟨by rwa [Ne, List.length_eq_zero_iff]⟩
  obtain ⟨f, hf⟩ := exists_ofFn p rfl
  obtain ⟨g, hg⟩ := exists_ofFn q h.symm
  generalize p.length = n at *
  subst hf hg
  rw [mi_ofFn, entropy_ofFn, entropy_ofFn] at *
  exact ⟨div_nonneg (MI_nonneg f g) (by linarith), (div_le_one (by linarith)).mpr (MI_le_mean f g)⟩

/-- **C75.** `nmi` is symmetric. -/
theorem c75_symmetric (p : List α) (q : List β) : nmi p q = nmi q p := by
  by_cases h : p.length = q.length
  · obtain ⟨n, hn⟩ : ∃ n, p.length = n := ⟨_, rfl⟩
    rcases n.eq_zero_or_pos with rfl | hpos
    · obtain rfl := List.length_eq_zero_iff.mp hn
      obtain rfl := List.length_eq_zero_iff.mp (h ▸ hn : q.length = 0)
      rw [nmi_nil, nmi_nil]
    · have : NeZero n := ⟨hpos.ne'⟩
      obtain ⟨f, rfl⟩ := exists_ofFn p hn
      obtain ⟨g, rfl⟩ := exists_ofFn q (h ▸ hn)
      rw [nmi_ofFn, nmi_ofFn, MI_swap f g, add_comm (H f)]
      simp only [and_comm]
  · unfold nmi skNormalizedMutualInfo
    rw [if_pos h, if_pos (Ne.symm h)]

/-- **C75.** `nmi` depends only on the partitions, not on the labels. -/
theorem c75_labels {p : List α} {p' : List β} (h : SamePartition p p') (q : List γ) : nmi p q = nmi p' q := by
  by_cases hl : p.length = q.length
  · obtain ⟨n, hn⟩ : ∃ n, p.length = n := ⟨_, rfl⟩
    rcases n.eq_zero_or_pos with rfl | hpos
    · obtain rfl := List.length_eq_zero_iff.mp hn
      obtain rfl := List.length_eq_zero_iff.mp (hl ▸ hn : q.length = 0)
      obtain rfl := List.length_eq_zero_iff.mp (h.1 ▸ hn : p'.length = 0)
      rw [nmi_nil, nmi_nil]
    · have : NeZero n := ⟨hpos.ne'⟩
      obtain ⟨f, rfl⟩ := exists_ofFn p hn
      obtain ⟨f', rfl⟩ := exists_ofFn p' (h.1 ▸ hn)
      obtain ⟨g, rfl⟩ := exists_ofFn q (hl ▸ hn)
      have hs := (samePartition_ofFn f f').mp h
      rw [nmi_ofFn, nmi_ofFn, MI_same hs, H_same hs]
      have : (∀ i j, f i = f j) ↔ ∀ i j, f' i = f' j := forall_congr' fun i => forall_congr' fun j => hs i j
      simp only [this]
  · unfold nmi skNormalizedMutualInfo
    rw [if_pos hl, if_pos (fun h' => hl (h.1.trans h'))]

/-- **C75.** `nmi` is 1 exactly for equal partitions. -/
theorem c75_one {p : List α} {q : List β} : nmi p q = .ok (.fin 1) ↔ SamePartition p q := by
  by_cases h : p.length = q.length
  · obtain ⟨n, hn⟩ : ∃ n, p.length = n := ⟨_, rfl⟩
    rcases n.eq_zero_or_pos with rfl | hpos
    · obtain rfl := List.length_eq_zero_iff.mp hn
      obtain rfl := List.length_eq_zero_iff.mp (h ▸ hn : q.length = 0)
      exact ⟨fun _ => ⟨rfl, fun i j hi => absurd hi (Nat.not_lt_zero i)⟩, fun _ => nmi_nil⟩
    · have : NeZero n := ⟨hpos.ne'⟩
      obtain ⟨f, rfl⟩ := exists_ofFn p hn
      obtain ⟨g, rfl⟩ := exists_ofFn q (h ▸ hn)
      rw [nmi_ofFn, samePartition_ofFn, ← MI_perfect]
      split
      · next hc =>
        have := H_eq_zero.mpr hc.1
        have := H_eq_zero.mpr hc.2
        have := MI_nonneg f g
        have := MI_le_mean f g
        simp only [true_iff]
        linarith
      · next hc =>
        have hne : (H f + H g) / 2 ≠ 0 := by
          intro h0
          have := H_nonneg f
          have := H_nonneg g
          exact hc ⟨H_eq_zero.mp (by linarith), H_eq_zero.mp (by linarith)⟩
        rw [Except.ok.injEq, Fl.fin.injEq, div_eq_one_iff_eq hne]
  · refine ⟨fun h' => ?_, fun h' => absurd h'.1 h⟩
    obtain ⟨msg, hm⟩ := (c75_value p q).1 h
    rw [hm] at h'
    cases h'

theorem independent_ofFn {n : Nat} [NeZero n] (f : Fin n → α) (g : Fin n → β) :
    Independent (List.ofFn f) (List.ofFn g) ↔ MI f g = 0 := by
  rw [MI_eq_zero, Fintype.card_fin]
  unfold Independent
  rw [zip_ofFn, List.length_ofFn]
  simp only [count_inst]
  have hc : ∀ i, @List.count _ instBEqOfDecidableEq (f i, g i) (List.ofFn (pair f g)) = N (pair f g) i :=
    fun i => count_ofFn (pair f g) i
  constructor
  · intro h
    have h' : ∀ j k, ((@List.count _ instBEqOfDecidableEq (f j, g k) (List.ofFn (pair f g)) : ℕ) : ℝ) * n =
        N f j * N g k := by
      intro j k
      have := h (f j) (by simp) (g k) (by simp)
      rwa [count_ofFn, count_ofFn] at this
    constructor
    · intro j k
      have h1 : (0 : ℝ) < (N f j : ℝ) * N g k :=
        mul_pos (by exact_mod_cast N_pos f j) (by exact_mod_cast N_pos g k)
      rw [← h' j k] at h1
      have h2 : 0 < @List.count _ instBEqOfDecidableEq (f j, g k) (List.ofFn (pair f g)) := by
        by_contra h0
        rw [Nat.eq_zero_of_not_pos h0] at h1
        simp at h1
      rw [← count_inst] at h2
      obtain ⟨i, hi⟩ := List.mem_ofFn.mp (List.count_pos_iff.mp h2)
      simp only [pair, Prod.mk.injEq] at hi
      exact ⟨i, hi⟩
    · intro i
      rw [← hc, h' i i]
  · rintro ⟨h1, h2⟩ x hx y hy
    obtain ⟨j, rfl⟩ := List.mem_ofFn.mp hx
    obtain ⟨k, rfl⟩ := List.mem_ofFn.mp hy
    obtain ⟨i, hi, hi'⟩ := h1 j k
    rw [← hi, ← hi', hc, count_ofFn, count_ofFn, h2]

/-- **C75.** `nmi` is 0 exactly for independent labellings that are not both trivial. -/
theorem c75_zero {p : List α} {q : List β} (h : p.length = q.length) :
    nmi p q = .ok (.fin 0) ↔ Independent p q ∧ ¬ (OneLabel p ∧ OneLabel q) := by
  obtain ⟨n, hn⟩ : ∃ n, p.length = n := ⟨_, rfl⟩
  rcases n.eq_zero_or_pos with rfl | hpos
  · obtain rfl := List.length_eq_zero_iff.mp hn
    obtain rfl := List.length_eq_zero_iff.mp (h ▸ hn : q.length = 0)
    rw [nmi_nil]
    constructor
    · intro h0; simp at h0
    · rintro ⟨-, h0⟩
      exact absurd ⟨(by intro x hx; cases hx), (by intro x hx; cases hx)⟩ h0
  · have : NeZero n := ⟨hpos.ne'⟩
    obtain ⟨f, rfl⟩ := exists_ofFn p hn
    obtain ⟨g, rfl⟩ := exists_ofFn q (h ▸ hn)
    unfold OneLabel
    rw [nmi_ofFn, independent_ofFn, oneLabel_ofFn, oneLabel_ofFn]
    split
    · next hc => exact ⟨fun h0 => absurd h0 (by simp), fun h0 => absurd hc h0.2⟩
    · next hc =>
      have hne : (H f + H g) / 2 ≠ 0 := by
        intro h0
        have := H_nonneg f
        have := H_nonneg g
        exact hc ⟨H_eq_zero.mp (by linarith), H_eq_zero.mp (by linarith)⟩
      rw [Except.ok.injEq, Fl.fin.injEq, div_eq_zero_iff, or_iff_left hne]
      simp only [hc, not_false_eq_true, and_true]

/-- three different situations -/
example : nmi [5, 5, 9, 9] ["a", "a", "b", "b"] = .ok (.fin 1) := c75_one.mpr
  ⟨rfl, fun i j hi hj => by
    have h : ∀ i < 4, ∀ j < 4, (([5, 5, 9, 9] : List Nat)[i]? = ([5, 5, 9, 9] : List Nat)[j]? ↔
      (["a", "a", "b", "b"] : List String)[i]? = (["a", "a", "b", "b"] : List String)[j]?) := by decide
    exact h i hi j hj⟩

example : nmi ([0, 0, 1, 1] : List Nat) ([0, 1, 0, 1] : List Nat) = .ok (.fin 0) := by
  refine (c75_zero (p := ([0, 0, 1, 1] : List Nat)) (q := ([0, 1, 0, 1] : List Nat)) rfl).mpr ⟨?_, ?_⟩
  · intro x hx y hy
    have h : ∀ x ∈ [0, 0, 1, 1], ∀ y ∈ [0, 1, 0, 1], ([0, 0, 1, 1].zip [0, 1, 0, 1]).count (x, y) = 1 ∧
      [0, 0, 1, 1].count x = 2 ∧ [0, 1, 0, 1].count y = 2 := by decide
    obtain ⟨h1, h2, h3⟩ := h x hx y hy
    rw [h1, h2, h3]
    norm_num
  · rintro ⟨h, -⟩
    exact absurd (h 0 (by simp) 1 (by simp)) (by decide)

/-! ## C76 -/

/-- scikit-learn's documented `adjusted_mutual_info_score` (arithmetic average): 1 for two trivial labellings; otherwise
`(MI - E) / (mean entropy - E)` where `E` is the expected mutual information under random permutation, whenever that
quotient is defined; `ValueError` for different lengths. -/
structure SoundAdjusted (adjusted : List α → List α → Py (Fl ℝ)) : Prop where
  lengths : ∀ p q, p.length ≠ q.length → ∃ msg, adjusted p q = .error (.valueError msg)
  trivial : ∀ p q : List α, p.length = q.length → OneLabel p → OneLabel q → adjusted p q = .ok (.fin 1)
  value : ∀ (p q : List α) (n : Nat) (h : q.length = n), p.length = n → ¬ (OneLabel p ∧ OneLabel q) →
    (entropy p + entropy q) / 2 ≠ expectedMutualInformation p q h →
    adjusted p q = .ok (.fin ((mutualInformation p q - expectedMutualInformation p q h) /
      ((entropy p + entropy q) / 2 - expectedMutualInformation p q h)))

/-- The quotient defining the adjusted score is `0 / 0`: the two lists describe the same partition, into singletons. -/
def BothSingletons (p q : List α) : Prop := p.Nodup ∧ q.Nodup ∧ p.length = q.length

theorem nodup_ofFn {n : Nat} (f : Fin n → α) : (List.ofFn f).Nodup ↔ Function.Injective f := List.nodup_ofFn

theorem defined_ofFn {n : Nat} [NeZero n] {f g : Fin n → α} (hno : ¬ ((∀ i j, f i = f j) ∧ ∀ i j, g i = g j))
    (hs : ¬ BothSingletons (List.ofFn f) (List.ofFn g)) : (H f + H g) / 2 ≠ E f g := by
  intro h
  obtain ⟨h1, h2 | h2⟩ := E_eq.mp h.symm
  · exact hno ⟨h2, fun i j => (h1 i j).mp (h2 i j)⟩
  · refine hs ⟨(nodup_ofFn f).mpr h2, (nodup_ofFn g).mpr ?_, by simp⟩
    intro i j hij
    exact h2 ((h1 i j).mpr hij)

theorem ami_ofFn {adjusted : List α → List α → Py (Fl ℝ)} (ha : SoundAdjusted adjusted) {n : Nat} [NeZero n]
    {f g : Fin n → α} (hs : ¬ BothSingletons (List.ofFn f) (List.ofFn g)) :
    ami adjusted (List.ofFn f) (List.ofFn g) =
      if (∀ i j, f i = f j) ∧ (∀ i j, g i = g j) then .ok (.fin 1)
      else .ok (.fin ((MI f g - E f g) / ((H f + H g) / 2 - E f g))) := by
  unfold ami
  split
  · next hc =>
    exact ha.trivial _ _ (by simp) ((oneLabel_ofFn f).mpr hc.1) ((oneLabel_ofFn g).mpr hc.2)
  · next hc =>
    have hd := defined_ofFn hc hs
    have := ha.value (List.ofFn f) (List.ofFn g) n (by simp) (by simp)
      (fun h' => hc ⟨(oneLabel_ofFn f).mp h'.1, (oneLabel_ofFn g).mp h'.2⟩)
      (by rw [expected_ofFn, entropy_ofFn, entropy_ofFn]; exact hd)
    rw [this, expected_ofFn, entropy_ofFn, entropy_ofFn, mi_ofFn]

theorem denominator_pos {n : Nat} [NeZero n] {f g : Fin n → α} (hno : ¬ ((∀ i j, f i = f j) ∧ ∀ i j, g i = g j))
    (hs : ¬ BothSingletons (List.ofFn f) (List.ofFn g)) : 0 < (H f + H g) / 2 - E f g := by
  have h1 := E_le f g
  have h2 := defined_ofFn hno hs
  rcases h1.lt_or_eq with h | h
  · linarith
  · exact absurd h.symm h2

section Ami
variable {adjusted : List α → List α → Py (Fl ℝ)} (ha : SoundAdjusted adjusted) {p q : List α}
include ha

/-- **C76.** `ami` is defined for all lists of equal length other than two partitions into singletons (a single vertex
excepted), it is at most 1, and it is 1 exactly for equal partitions. -/
theorem c76_value (h : p.length = q.length) (hs : ¬ BothSingletons p q ∨ p.length ≤ 1) :
    ∃ r, ami adjusted p q = .ok (.fin r) ∧ r ≤ 1 ∧ (r = 1 ↔ SamePartition p q) := by
  by_cases ho : OneLabel p ∧ OneLabel q
  · refine ⟨1, ha.trivial p q h ho.1 ho.2, le_refl _, ⟨fun _ => ⟨h, fun i j hi hj => ?_⟩, fun _ => rfl⟩⟩
    rw [List.getElem?_eq_getElem hi, List.getElem?_eq_getElem hj, List.getElem?_eq_getElem (h ▸ hi),
      List.getElem?_eq_getElem (h ▸ hj), Option.some.injEq, Option.some.injEq]
    exact ⟨fun _ => ho.2 _ (List.getElem_mem _) _ (List.getElem_mem _),
      fun _ => ho.1 _ (List.getElem_mem _) _ (List.getElem_mem _)⟩
  have hlen : 1 < p.length := by
    by_contra hl
    apply ho
    constructor
    · intro x hx y hy
      match p, hl, hx, hy with
      | [a], _, hx, hy => rw [List.mem_singleton.mp hx, List.mem_singleton.mp hy]
      | a :: b :: l, hl, _, _ => simp at hl
    · rw [h] at hl
      intro x hx y hy
      match q, hl, hx, hy with
      | [a], _, hx, hy => rw [List.mem_singleton.mp hx, List.mem_singleton.mp hy]
      | a :: b :: l, hl, _, _ => simp at hl
  have hs' : ¬ BothSingletons p q := hs.resolve_right (by omega)
  have : NeZero p.length := ⟨by omega⟩
  obtain ⟨f, hf⟩ := exists_ofFn p rfl
  obtain ⟨g, hg⟩ := exists_ofFn q h.symm
  clear h hs hlen
  generalize p.length = n at *
  subst hf hg
  have hno : ¬ ((∀ i j, f i = f j) ∧ ∀ i j, g i = g j) := fun h' =>
    ho ⟨(oneLabel_ofFn f).mpr h'.1, (oneLabel_ofFn g).mpr h'.2⟩
  have hd := denominator_pos hno hs'
  refine ⟨_, by rw [ami_ofFn ha hs', if_neg hno], ?_, ?_⟩
  · rw [div_le_one hd]
    linarith [MI_le_mean f g]
  · rw [div_eq_one_iff_eq hd.ne', samePartition_ofFn, ← MI_perfect]
    constructor <;> intro h <;> linarith

/-- **C76.** `ami` is symmetric (where it is defined). -/
theorem c76_symmetric (hs : ¬ BothSingletons p q) (h : p.length = q.length) :
    ami adjusted p q = ami adjusted q p := by
  obtain ⟨n, hn⟩ : ∃ n, p.length = n := ⟨_, rfl⟩
  rcases n.eq_zero_or_pos with rfl | hpos
  · obtain rfl := List.length_eq_zero_iff.mp hn
    obtain rfl := List.length_eq_zero_iff.mp (h ▸ hn : q.length = 0)
    rfl
  · have : NeZero n := ⟨hpos.ne'⟩
    obtain ⟨f, rfl⟩ := exists_ofFn p hn
    obtain ⟨g, rfl⟩ := exists_ofFn q (h ▸ hn)
    rw [ami_ofFn ha hs, ami_ofFn ha (fun h' => hs ⟨h'.2.1, h'.1, h'.2.2.symm⟩), MI_swap f g, E_swap f g, add_comm (H f)]
    simp only [and_comm]

/-- **C76.** `ami` depends only on the partitions (where it is defined). -/
theorem c76_labels {p' : List α} (hs : ¬ BothSingletons p q) (h : p.length = q.length) (hpp : SamePartition p p') :
    ami adjusted p q = ami adjusted p' q := by
  obtain ⟨n, hn⟩ : ∃ n, p.length = n := ⟨_, rfl⟩
  rcases n.eq_zero_or_pos with rfl | hpos
  · obtain rfl := List.length_eq_zero_iff.mp hn
    obtain rfl := List.length_eq_zero_iff.mp (hpp.1 ▸ hn : p'.length = 0)
    rfl
  · have : NeZero n := ⟨hpos.ne'⟩
    obtain ⟨f, rfl⟩ := exists_ofFn p hn
    obtain ⟨f', rfl⟩ := exists_ofFn p' (hpp.1 ▸ hn)
    obtain ⟨g, rfl⟩ := exists_ofFn q (h ▸ hn)
    have hsame := (samePartition_ofFn f f').mp hpp
    have hs' : ¬ BothSingletons (List.ofFn f') (List.ofFn g) := by
      rintro ⟨h1, h2, -⟩
      refine hs ⟨(nodup_ofFn f).mpr ?_, h2, by simp⟩
      intro i j hij
      exact (nodup_ofFn f').mp h1 ((hsame i j).mp hij)
    rw [ami_ofFn ha hs, ami_ofFn ha hs', MI_same hsame, E_same hsame, H_same hsame]
    have : (∀ i j, f i = f j) ↔ ∀ i j, f' i = f' j := forall_congr' fun i => forall_congr' fun j => hsame i j
    simp only [this]

/-- **C76.** "Adjusted for chance": over all permutations of the second labelling, the scores average to 0. -/
theorem c76_chance {n : Nat} (hp : p.length = n) (hq : q.length = n) (hs : ¬ BothSingletons p q)
    (ho : ¬ (OneLabel p ∧ OneLabel q)) {r : Equiv.Perm (Fin n) → ℝ}
    (hr : ∀ σ, ami adjusted p (permute q hq σ) = .ok (.fin (r σ))) : ∑ σ, r σ = 0 := by
  rcases n.eq_zero_or_pos with rfl | hpos
  · obtain rfl := List.length_eq_zero_iff.mp hp
    obtain rfl := List.length_eq_zero_iff.mp hq
    exact absurd ⟨(by intro x hx; cases hx), (by intro x hx; cases hx)⟩ ho
  · have : NeZero n := ⟨hpos.ne'⟩
    obtain ⟨f, rfl⟩ := exists_ofFn p hp
    obtain ⟨g, rfl⟩ := exists_ofFn q hq
    have hno : ¬ ((∀ i j, f i = f j) ∧ ∀ i j, g i = g j) := fun h' =>
      ho ⟨(oneLabel_ofFn f).mpr h'.1, (oneLabel_ofFn g).mpr h'.2⟩
    have hperm : ∀ σ : Equiv.Perm (Fin n), permute (List.ofFn g) hq σ = List.ofFn (g ∘ σ) := by
      intro σ
      unfold permute
      congr 1
      funext i
      simp
    have hval : ∀ σ, r σ = (MI f (g ∘ σ) - E f g) / ((H f + H g) / 2 - E f g) := by
      intro σ
      have h1 := hr σ
      have hs' : ¬ BothSingletons (List.ofFn f) (List.ofFn (g ∘ σ)) := by
        rintro ⟨a, b, -⟩
        refine hs ⟨a, (nodup_ofFn g).mpr ?_, by simp⟩
        exact (Function.Injective.of_comp_iff' g σ.bijective).mp ((nodup_ofFn _).mp b)
      have hno' : ¬ ((∀ i j, f i = f j) ∧ ∀ i j, (g ∘ σ) i = (g ∘ σ) j) := by
        rintro ⟨a, b⟩
        refine hno ⟨a, fun i j => ?_⟩
        have := b (σ.symm i) (σ.symm j)
        simpa using this
      rw [hperm, ami_ofFn ha hs', if_neg hno', E_perm, H_perm] at h1
      simpa using h1.symm
    simp_rw [hval]
    rw [← Finset.sum_div, Finset.sum_sub_distrib, Finset.sum_const, Finset.card_univ, Fintype.card_perm, Fintype.card_fin,
      nsmul_eq_mul]
    have : (n.factorial : ℝ) * E f g = ∑ σ : Equiv.Perm (Fin n), MI f (g ∘ σ) := by
      unfold E
      have : (n.factorial : ℝ) ≠ 0 := by exact_mod_cast n.factorial_ne_zero
      field_simp
    rw [this, sub_self, zero_div]

end Ami

/-- such a function exists -/
theorem exists_soundAdjusted : ∃ adjusted : List α → List α → Py (Fl ℝ), SoundAdjusted adjusted := by
  classical
  refine ⟨fun p q => if p.length ≠ q.length then .error (.valueError "inconsistent")
    else if OneLabel p ∧ OneLabel q then .ok (.fin 1)
    else .ok (.fin ((mutualInformation p q - expectedMutualInformation p q rfl) /
      ((entropy p + entropy q) / 2 - expectedMutualInformation p q rfl))), ?_, ?_, ?_⟩
  · exact fun p q h => ⟨_, if_pos h⟩
  · intro p q h h1 h2
    rw [if_neg (not_not.mpr h), if_pos ⟨h1, h2⟩]
  · rintro p q n rfl h h1 _
    rw [if_neg (not_not.mpr h), if_neg h1]

example : ∃ adjusted : List Nat → List Nat → Py (Fl ℝ), SoundAdjusted adjusted ∧
    ∃ r, ami adjusted [0, 0, 1, 1] [0, 1, 1, 1] = .ok (.fin r) ∧ r < 1 := by
  obtain ⟨a, ha⟩ := exists_soundAdjusted (α := Nat)
  refine ⟨a, ha, ?_⟩
  obtain ⟨r, h1, h2, h3⟩ := c76_value ha (p := [0, 0, 1, 1]) (q := [0, 1, 1, 1]) rfl
    (Or.inl fun h => absurd h.1 (by decide))
  refine ⟨r, h1, lt_of_le_of_ne h2 fun he => ?_⟩
  have := (h3.mp he).2 0 1 (by decide) (by decide)
  exact absurd this (by decide)

end Verif.Props
