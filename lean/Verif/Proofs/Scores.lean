import Mathlib.Algebra.Order.BigOperators.Group.Finset
import Mathlib.Algebra.BigOperators.Field
import Mathlib.Data.Fintype.BigOperators
import Mathlib.Data.List.OfFn
import Verif.Model.Scores
import Verif.Spec.Scores
import Verif.Spec.Partition

/-!
# Entropy and mutual information of finite labellings
-/

set_option linter.unusedSectionVars false

namespace Verif.Scores
open Real Finset Verif.Spec
variable {ι : Type} [Fintype ι] [DecidableEq ι] {α β γ : Type} [DecidableEq α] [DecidableEq β] [DecidableEq γ]

/-- size of the cluster of `i` -/
def N (f : ι → α) (i : ι) : Nat := (univ.filter fun j => f j = f i).card

/-- entropy, summed over positions -/
noncomputable def H (f : ι → α) : ℝ := (∑ i, (log (Fintype.card ι) - log (N f i))) / Fintype.card ι

/-- pairing -/
def pair (f : ι → α) (g : ι → β) : ι → α × β := fun i => (f i, g i)

theorem N_pos (f : ι → α) (i : ι) : 0 < N f i := card_pos.mpr ⟨i, by simp⟩

theorem N_le (f : ι → α) (i : ι) : N f i ≤ Fintype.card ι := card_le_univ _

theorem N_pair_le_left (f : ι → α) (g : ι → β) (i : ι) : N (pair f g) i ≤ N f i := by
  apply card_le_card
  intro j
  simp only [pair, Prod.mk.injEq, mem_filter, mem_univ, true_and]
  exact fun h => h.1

theorem N_pair_eq_left {f : ι → α} {g : ι → β} {i : ι} : N (pair f g) i = N f i ↔ ∀ j, f j = f i → g j = g i := by
  have hsub : (univ.filter fun j => pair f g j = pair f g i) ⊆ univ.filter fun j => f j = f i := by
    intro j
    simp only [pair, Prod.mk.injEq, mem_filter, mem_univ, true_and]
    exact fun h => h.1
  constructor
  · intro h j hj
    have := eq_of_subset_of_card_le hsub h.ge
    have hm : j ∈ univ.filter fun j => f j = f i := by simp [hj]
    rw [← this] at hm
    simp only [pair, Prod.mk.injEq, mem_filter, mem_univ, true_and] at hm
    exact hm.2
  · intro h
    unfold N
    congr 1
    refine subset_antisymm hsub fun j => ?_
    simp only [pair, Prod.mk.injEq, mem_filter, mem_univ, true_and]
    exact fun hj => ⟨hj, h j hj⟩

theorem N_swap (f : ι → α) (g : ι → β) (i : ι) : N (pair f g) i = N (pair g f) i := by
  unfold N
  congr 1
  ext j
  simp [pair, and_comm]

theorem H_swap (f : ι → α) (g : ι → β) : H (pair f g) = H (pair g f) := by
  unfold H; simp_rw [N_swap f g]

/-- labellings of the same partition -/
def Same (f : ι → α) (g : ι → β) : Prop := ∀ i j, f i = f j ↔ g i = g j

theorem N_same {f : ι → α} {g : ι → β} (h : Same f g) (i : ι) : N f i = N g i := by
  unfold N; congr 1; ext j; simp [h j i]

theorem H_same {f : ι → α} {g : ι → β} (h : Same f g) : H f = H g := by
  unfold H; simp_rw [N_same h]

theorem Same.pair {f : ι → α} {f' : ι → β} (h : Same f f') (g : ι → γ) : Same (pair f g) (Scores.pair f' g) := by
  intro i j; simp [Scores.pair, h i j]

theorem H_nonneg (f : ι → α) : 0 ≤ H f := by
  unfold H
  refine div_nonneg (sum_nonneg fun i _ => sub_nonneg.mpr ?_) (Nat.cast_nonneg _)
  exact log_le_log (by exact_mod_cast N_pos f i) (by exact_mod_cast N_le f i)

variable [Nonempty ι]

theorem card_pos' : (0 : ℝ) < Fintype.card ι := by exact_mod_cast Fintype.card_pos

theorem H_eq_zero {f : ι → α} : H f = 0 ↔ ∀ i j, f i = f j := by
  have hn := card_pos' (ι := ι)
  unfold H
  rw [div_eq_zero_iff, or_iff_left hn.ne', sum_eq_zero_iff_of_nonneg]
  · constructor
    · intro h i j
      have h1 := h j (mem_univ _)
      have h2 : (N f j : ℝ) = Fintype.card ι := by
        apply log_injOn_pos (by exact_mod_cast N_pos f j : (0 : ℝ) < _) hn
        linarith
      have h3 : N f j = Fintype.card ι := by exact_mod_cast h2
      have h4 := (card_eq_iff_eq_univ _).mp h3
      have := mem_univ i
      rw [← h4] at this
      simpa using this
    · intro h i _
      have : N f i = Fintype.card ι := by
        unfold N
        rw [filter_true_of_mem fun j _ => h j i, card_univ]
      rw [this, sub_self]
  · exact fun i _ => sub_nonneg.mpr (log_le_log (by exact_mod_cast N_pos f i) (by exact_mod_cast N_le f i))

/-- conditional entropy -/
theorem H_pair_sub (f : ι → α) (g : ι → β) :
    H (pair f g) - H f = (∑ i, (log (N f i) - log (N (pair f g) i))) / Fintype.card ι := by
  unfold H
  rw [← sub_div, ← sum_sub_distrib]
  congr 1
  exact sum_congr rfl fun i _ => by ring

theorem H_le_pair (f : ι → α) (g : ι → β) : H f ≤ H (pair f g) := by
  have : 0 ≤ H (pair f g) - H f := by
    rw [H_pair_sub]
    refine div_nonneg (sum_nonneg fun i _ => sub_nonneg.mpr ?_) (Nat.cast_nonneg _)
    exact log_le_log (by exact_mod_cast N_pos _ i) (by exact_mod_cast N_pair_le_left f g i)
  linarith

theorem H_pair_eq {f : ι → α} {g : ι → β} : H (pair f g) = H f ↔ ∀ i j, f i = f j → g i = g j := by
  have hn := card_pos' (ι := ι)
  rw [← sub_eq_zero, H_pair_sub, div_eq_zero_iff, or_iff_left hn.ne', sum_eq_zero_iff_of_nonneg]
  · constructor
    · intro h i j hij
      have h1 := h j (mem_univ _)
      have h2 : (N f j : ℝ) = N (pair f g) j := by
        apply log_injOn_pos (by exact_mod_cast N_pos f j : (0 : ℝ) < _) (by exact_mod_cast N_pos _ j : (0 : ℝ) < _)
        linarith
      exact N_pair_eq_left.mp (by exact_mod_cast h2.symm) i hij
    · intro h i _
      rw [N_pair_eq_left.mpr fun j => h j i, sub_self]
  · exact fun i _ => sub_nonneg.mpr
      (log_le_log (by exact_mod_cast N_pos _ i) (by exact_mod_cast N_pair_le_left f g i))

/-- mutual information -/
noncomputable def MI (f : ι → α) (g : ι → β) : ℝ := H f + H g - H (pair f g)

theorem MI_swap (f : ι → α) (g : ι → β) : MI f g = MI g f := by unfold MI; rw [H_swap]; ring

theorem MI_le_left (f : ι → α) (g : ι → β) : MI f g ≤ H f := by
  unfold MI
  have := H_le_pair g f
  rw [H_swap] at this
  linarith

theorem MI_le_right (f : ι → α) (g : ι → β) : MI f g ≤ H g := by rw [MI_swap]; exact MI_le_left g f

theorem MI_eq (f : ι → α) (g : ι → β) : MI f g =
    (∑ i, (log (Fintype.card ι) + log (N (pair f g) i) - log (N f i) - log (N g i))) / Fintype.card ι := by
  unfold MI H
  rw [← add_div, ← sum_add_distrib, ← sub_div, ← sum_sub_distrib]
  congr 1
  exact sum_congr rfl fun i _ => by ring

/-- the pairs of positions whose labels occur together -/
theorem sum_products (f : ι → α) (g : ι → β) :
    ∑ i, ((N f i : ℝ) * N g i / N (pair f g) i) =
      ((univ : Finset (ι × ι)).filter fun jk => ∃ i, f i = f jk.1 ∧ g i = g jk.2).card := by
  have h1 : ∀ i, (N f i : ℝ) * N g i / N (pair f g) i =
      ∑ jk : ι × ι, if f jk.1 = f i ∧ g jk.2 = g i then (1 : ℝ) / N (pair f g) i else 0 := by
    intro i
    rw [← sum_filter, sum_const, nsmul_eq_mul]
    have : ((univ : Finset (ι × ι)).filter fun jk => f jk.1 = f i ∧ g jk.2 = g i) =
        (univ.filter fun j => f j = f i) ×ˢ (univ.filter fun j => g j = g i) := by
      ext ⟨j, k⟩; simp
    rw [this, card_product]
    unfold N
    push_cast
    ring
  simp_rw [h1]
  rw [sum_comm, card_filter]
  push_cast
  refine sum_congr rfl fun jk _ => ?_
  by_cases h : ∃ i, f i = f jk.1 ∧ g i = g jk.2
  · rw [if_pos h]
    obtain ⟨i₀, h1, h2⟩ := h
    have h3 : ∀ i, (f jk.1 = f i ∧ g jk.2 = g i) ↔ pair f g i = pair f g i₀ := by
      intro i
      simp only [pair, Prod.mk.injEq, ← h1, ← h2]
      constructor <;> rintro ⟨a, b⟩ <;> exact ⟨a.symm, b.symm⟩
    simp_rw [h3]
    rw [← sum_filter]
    have h4 : ∀ i ∈ univ.filter fun i => pair f g i = pair f g i₀, (1 : ℝ) / N (pair f g) i = 1 / N (pair f g) i₀ := by
      intro i hi
      have := (mem_filter.mp hi).2
      unfold N
      rw [this]
    rw [sum_congr rfl h4, sum_const, nsmul_eq_mul]
    have h5 : (0 : ℝ) < N (pair f g) i₀ := by exact_mod_cast N_pos _ i₀
    show (N (pair f g) i₀ : ℝ) * (1 / N (pair f g) i₀) = 1
    field_simp
  · rw [if_neg h]
    refine sum_eq_zero fun i _ => if_neg fun hi => h ⟨i, hi.1.symm, hi.2.symm⟩

theorem term_le {f : ι → α} {g : ι → β} (i : ι) :
    1 - (N f i : ℝ) * N g i / (N (pair f g) i) / Fintype.card ι ≤
      log (Fintype.card ι) + log (N (pair f g) i) - log (N f i) - log (N g i) := by
  have hn := card_pos' (ι := ι)
  have a : (0 : ℝ) < N f i := by exact_mod_cast N_pos _ i
  have b : (0 : ℝ) < N g i := by exact_mod_cast N_pos _ i
  have c : (0 : ℝ) < N (pair f g) i := by exact_mod_cast N_pos _ i
  have h := log_le_sub_one_of_pos (show (0 : ℝ) < (N f i : ℝ) * N g i / (N (pair f g) i) / Fintype.card ι by positivity)
  rw [log_div (by positivity) hn.ne', log_div (by positivity) c.ne', log_mul a.ne' b.ne'] at h
  linarith

theorem term_eq {f : ι → α} {g : ι → β} (i : ι) :
    1 - (N f i : ℝ) * N g i / (N (pair f g) i) / Fintype.card ι =
      log (Fintype.card ι) + log (N (pair f g) i) - log (N f i) - log (N g i) ↔
    (N (pair f g) i : ℝ) * Fintype.card ι = N f i * N g i := by
  have hn := card_pos' (ι := ι)
  have a : (0 : ℝ) < N f i := by exact_mod_cast N_pos _ i
  have b : (0 : ℝ) < N g i := by exact_mod_cast N_pos _ i
  have c : (0 : ℝ) < N (pair f g) i := by exact_mod_cast N_pos _ i
  have hx : (0 : ℝ) < (N f i : ℝ) * N g i / (N (pair f g) i) / Fintype.card ι := by positivity
  have hl : log ((N f i : ℝ) * N g i / (N (pair f g) i) / Fintype.card ι) =
      log (N f i) + log (N g i) - log (N (pair f g) i) - log (Fintype.card ι) := by
    rw [log_div (by positivity) hn.ne', log_div (by positivity) c.ne', log_mul a.ne' b.ne']
  have key : (N f i : ℝ) * N g i / (N (pair f g) i) / Fintype.card ι = 1 ↔
      (N (pair f g) i : ℝ) * Fintype.card ι = N f i * N g i := by
    rw [div_div, div_eq_one_iff_eq (by positivity)]
    exact eq_comm
  rw [← key]
  constructor
  · intro h
    by_contra hne
    have := log_lt_sub_one_of_pos hx hne
    linarith
  · intro h
    rw [h] at hl ⊢
    rw [log_one] at hl
    linarith

theorem pairs_le (f : ι → α) (g : ι → β) :
    (((univ : Finset (ι × ι)).filter fun jk => ∃ i, f i = f jk.1 ∧ g i = g jk.2).card : ℝ) ≤
      (Fintype.card ι : ℝ) * Fintype.card ι := by
  have := card_le_univ ((univ : Finset (ι × ι)).filter fun jk => ∃ i, f i = f jk.1 ∧ g i = g jk.2)
  rw [Fintype.card_prod] at this
  exact_mod_cast this

theorem sum_lower (f : ι → α) (g : ι → β) :
    ∑ i, (1 - (N f i : ℝ) * N g i / (N (pair f g) i) / Fintype.card ι) =
      Fintype.card ι - (((univ : Finset (ι × ι)).filter fun jk => ∃ i, f i = f jk.1 ∧ g i = g jk.2).card : ℝ) /
        Fintype.card ι := by
  rw [sum_sub_distrib, ← sum_div, sum_products]
  simp

theorem MI_nonneg (f : ι → α) (g : ι → β) : 0 ≤ MI f g := by
  have hn := card_pos' (ι := ι)
  rw [MI_eq]
  refine div_nonneg ?_ hn.le
  refine le_trans ?_ (sum_le_sum fun i _ => term_le i)
  rw [sum_lower, sub_nonneg, div_le_iff₀ hn]
  exact pairs_le f g

theorem MI_eq_zero {f : ι → α} {g : ι → β} : MI f g = 0 ↔
    (∀ j k, ∃ i, f i = f j ∧ g i = g k) ∧ ∀ i, (N (pair f g) i : ℝ) * Fintype.card ι = N f i * N g i := by
  have hn := card_pos' (ι := ι)
  rw [MI_eq, div_eq_zero_iff, or_iff_left hn.ne']
  have hle : ∑ i, (1 - (N f i : ℝ) * N g i / (N (pair f g) i) / Fintype.card ι) ≤
      ∑ i, (log (Fintype.card ι) + log (N (pair f g) i) - log (N f i) - log (N g i)) :=
    sum_le_sum fun i _ => term_le i
  have hlow := sum_lower f g
  have hp := pairs_le f g
  constructor
  · intro h
    rw [h, hlow, sub_nonpos, le_div_iff₀ hn] at hle
    have hcard := le_antisymm hp hle
    constructor
    · have h1 : ((univ : Finset (ι × ι)).filter fun jk => ∃ i, f i = f jk.1 ∧ g i = g jk.2).card =
          Fintype.card (ι × ι) := by
        rw [Fintype.card_prod]; exact_mod_cast hcard
      have h2 := (card_eq_iff_eq_univ _).mp h1
      intro j k
      have := mem_univ (j, k)
      rw [← h2] at this
      exact (mem_filter.mp this).2
    · have h0 : ∑ i, (1 - (N f i : ℝ) * N g i / (N (pair f g) i) / Fintype.card ι) =
          ∑ i, (log (Fintype.card ι) + log (N (pair f g) i) - log (N f i) - log (N g i)) := by
        rw [h, hlow, hcard]; field_simp; ring
      have := (sum_eq_sum_iff_of_le fun i _ => term_le (f := f) (g := g) i).mp h0
      exact fun i => (term_eq i).mp (this i (mem_univ _))
  · rintro ⟨h1, h2⟩
    rw [← sum_congr rfl fun i _ => (term_eq i).mpr (h2 i), hlow]
    have : ((univ : Finset (ι × ι)).filter fun jk => ∃ i, f i = f jk.1 ∧ g i = g jk.2) = univ :=
      filter_true_of_mem fun jk _ => h1 _ _
    rw [this, card_univ, Fintype.card_prod]
    push_cast
    field_simp
    ring

theorem MI_same {f : ι → α} {f' : ι → β} (h : Same f f') (g : ι → γ) : MI f g = MI f' g := by
  unfold MI
  rw [H_same h, H_same (h.pair g)]

theorem MI_perfect {f : ι → α} {g : ι → β} : MI f g = (H f + H g) / 2 ↔ Same f g := by
  have h1 := H_le_pair f g
  have h2 := H_le_pair g f
  rw [← H_swap] at h2
  constructor
  · intro h
    unfold MI at h
    have e1 : H (pair f g) = H f := by linarith
    have e2 : H (pair g f) = H g := by rw [← H_swap]; linarith
    exact fun i j => ⟨H_pair_eq.mp e1 i j, H_pair_eq.mp e2 i j⟩
  · intro h
    have e1 := H_pair_eq.mpr fun i j => (h i j).mp
    have e2 := H_pair_eq.mpr fun i j => (h i j).mpr
    rw [← H_swap] at e2
    unfold MI
    linarith

/-- permuting positions -/
theorem N_perm (f : ι → α) (σ : Equiv.Perm ι) (i : ι) : N (f ∘ σ) i = N f (σ i) := by
  unfold N
  rw [← card_map σ.toEmbedding]
  congr 1
  ext j
  simp only [Function.comp, mem_map, mem_filter, mem_univ, true_and, Equiv.coe_toEmbedding]
  constructor
  · rintro ⟨k, hk, rfl⟩; exact hk
  · intro h; exact ⟨σ.symm j, by simpa using h, by simp⟩

theorem H_perm (f : ι → α) (σ : Equiv.Perm ι) : H (f ∘ σ) = H f := by
  unfold H
  simp_rw [N_perm]
  congr 1
  exact Equiv.sum_comp σ fun i => log (Fintype.card ι : ℝ) - log (N f i)

theorem MI_perm (f : ι → α) (g : ι → β) (σ : Equiv.Perm ι) : MI (f ∘ σ) (g ∘ σ) = MI f g := by
  unfold MI
  rw [H_perm, H_perm]
  have : pair (f ∘ σ) (g ∘ σ) = pair f g ∘ σ := rfl
  rw [this, H_perm]

/-! ### Lists -/

theorem exists_ofFn {n : Nat} (p : List α) (h : p.length = n) : ∃ f : Fin n → α, p = List.ofFn f := by
  subst h
  exact ⟨p.get, (List.ofFn_get p).symm⟩

theorem zip_ofFn {n : Nat} (f : Fin n → α) (g : Fin n → β) : (List.ofFn f).zip (List.ofFn g) = List.ofFn (pair f g) := by
  apply List.ext_getElem
  · simp
  · intro i h1 h2
    simp [pair]

theorem count_ofFn {n : Nat} (f : Fin n → α) (i : Fin n) : (List.ofFn f).count (f i) = N f i := by
  rw [List.ofFn_eq_map, List.count, List.countP_map, List.countP_eq_length_filter]
  unfold N
  have : (List.finRange n).filter ((fun x => x == f i) ∘ f) = (List.finRange n).filter fun j => decide (f j = f i) := by
    congr 1
  rw [this, ← List.toFinset_card_of_nodup ((List.nodup_finRange n).filter _)]
  congr 1
  ext j
  simp

theorem count_cast_sum {n : Nat} (f : Fin n → α) (F : α → ℝ) :
    ∑ x ∈ (List.ofFn f).toFinset, ((List.ofFn f).count x : ℝ) * F x = ∑ i, F (f i) := by
  have := Finset.sum_list_map_count (List.ofFn f) F
  simp only [nsmul_eq_mul] at this
  rw [← this, List.map_ofFn, List.sum_ofFn]
  rfl

theorem entropy_ofFn {n : Nat} (f : Fin n → α) : entropy (List.ofFn f) = H f := by
  unfold entropy H
  have h1 : ∀ x ∈ (List.ofFn f).toFinset, negMulLog (((List.ofFn f).count x : ℝ) / (List.ofFn f).length) =
      ((List.ofFn f).count x : ℝ) * ((log n - log ((List.ofFn f).count x)) / n) := by
    intro x hx
    have hc : 0 < (List.ofFn f).count x := List.count_pos_iff.mpr (List.mem_toFinset.mp hx)
    have hn : 0 < n := by
      have := List.length_pos_of_mem (List.mem_toFinset.mp hx)
      rwa [List.length_ofFn] at this
    rw [List.length_ofFn, negMulLog, log_div (by positivity) (by positivity)]
    field_simp
    ring
  rw [sum_congr rfl h1, count_cast_sum f (fun x => (log n - log ((List.ofFn f).count x)) / n), Fintype.card_fin, sum_div]
  exact sum_congr rfl fun i _ => by rw [count_ofFn]

theorem mi_ofFn {n : Nat} (f : Fin n → α) (g : Fin n → β) : mutualInformation (List.ofFn f) (List.ofFn g) = MI f g := by
  unfold mutualInformation MI
  rw [zip_ofFn, entropy_ofFn, entropy_ofFn, entropy_ofFn]

theorem samePartition_ofFn {n : Nat} (f : Fin n → α) (g : Fin n → β) :
    SamePartition (List.ofFn f) (List.ofFn g) ↔ Same f g := by
  unfold SamePartition Same
  simp only [List.length_ofFn, true_and]
  constructor
  · intro h i j
    have := h i j i.2 j.2
    simpa using this
  · intro h i j hi hj
    have := h ⟨i, hi⟩ ⟨j, hj⟩
    simpa [hi, hj] using this

theorem dedup_one_ofFn {n : Nat} [NeZero n] (f : Fin n → α) : (List.ofFn f).dedup.length = 1 ↔ ∀ i j, f i = f j := by
  rw [← List.card_toFinset, card_eq_one]
  constructor
  · rintro ⟨a, ha⟩ i j
    have h1 : ∀ k, f k = a := fun k => by
      have : f k ∈ (List.ofFn f).toFinset := by simp
      rw [ha] at this
      simpa using this
    rw [h1, h1]
  · intro h
    refine ⟨f 0, ?_⟩
    ext x
    simp only [List.mem_toFinset, List.mem_ofFn, mem_singleton]
    constructor
    · rintro ⟨i, rfl⟩; exact h _ _
    · rintro rfl; exact ⟨0, rfl⟩

theorem oneLabel_ofFn {n : Nat} (f : Fin n → α) :
    (∀ x ∈ List.ofFn f, ∀ y ∈ List.ofFn f, x = y) ↔ ∀ i j, f i = f j := by
  simp only [List.mem_ofFn]
  constructor
  · exact fun h i j => h _ ⟨i, rfl⟩ _ ⟨j, rfl⟩
  · rintro h _ ⟨i, rfl⟩ _ ⟨j, rfl⟩; exact h i j

theorem sum_dedup (p : List α) (F : α → ℝ) : (p.dedup.map F).sum = ∑ x ∈ p.toFinset, F x := by
  rw [← List.sum_toFinset F p.nodup_dedup]
  congr 1
  ext x; simp

theorem skEntropy_ofFn {n : Nat} [NeZero n] (f : Fin n → α) : skEntropy (List.ofFn f) = H f := by
  have hne : List.ofFn f ≠ [] := by
    rw [Ne, List.ofFn_eq_nil_iff]; exact NeZero.ne n
  unfold skEntropy
  rw [if_neg hne]
  split
  · next h => exact (H_eq_zero.mpr ((dedup_one_ofFn f).mp h)).symm
  · rw [← entropy_ofFn, entropy, sum_dedup, ← Finset.sum_neg_distrib]
    refine sum_congr rfl fun x hx => ?_
    have hc : 0 < (List.ofFn f).count x := List.count_pos_iff.mpr (List.mem_toFinset.mp hx)
    have hn : 0 < (List.ofFn f).length := List.length_pos_iff.mpr hne
    rw [negMulLog, log_div (by positivity) (by positivity)]
    ring

/-- the two decision procedures for equality of pairs count the same -/
theorem count_inst (l : List (α × β)) (z : α × β) :
    @List.count (α × β) instBEqProd z l = @List.count (α × β) instBEqOfDecidableEq z l := by
  unfold List.count
  congr 1
  funext w
  by_cases h : w = z <;> simp [h]

theorem skMutualInfo_ofFn {n : Nat} [NeZero n] (f : Fin n → α) (g : Fin n → β) :
    skMutualInfo (List.ofFn f) (List.ofFn g) = MI f g := by
  have hn : (0 : ℝ) < n := by exact_mod_cast Nat.pos_of_ne_zero (NeZero.ne n)
  unfold skMutualInfo
  split
  · next h =>
    rcases h with h | h
    · have h0 := H_eq_zero.mpr ((dedup_one_ofFn f).mp h)
      exact le_antisymm (MI_nonneg f g) (h0 ▸ MI_le_left f g)
    · have h0 := H_eq_zero.mpr ((dedup_one_ofFn g).mp h)
      exact le_antisymm (MI_nonneg f g) (h0 ▸ MI_le_right f g)
  · rw [zip_ofFn, sum_dedup]
    have h1 : ∀ xy ∈ (List.ofFn (pair f g)).toFinset,
        ((List.ofFn (pair f g)).count xy : ℝ) / (List.ofFn f).length *
            (log ((List.ofFn (pair f g)).count xy) - log (List.ofFn f).length) +
          ((List.ofFn (pair f g)).count xy : ℝ) / (List.ofFn f).length *
            (-log (((List.ofFn f).count xy.1 : ℝ) * (List.ofFn g).count xy.2) + log (List.ofFn f).length +
              log (List.ofFn g).length) =
        ((List.ofFn (pair f g)).count xy : ℝ) * ((log ((List.ofFn (pair f g)).count xy) -
          log (((List.ofFn f).count xy.1 : ℝ) * (List.ofFn g).count xy.2) + log n) / n) := by
      intro xy _
      rw [List.length_ofFn, List.length_ofFn]
      ring
    have h0 := count_cast_sum (pair f g) (fun xy => (log ((List.ofFn (pair f g)).count xy) -
          log (((List.ofFn f).count xy.1 : ℝ) * (List.ofFn g).count xy.2) + log n) / n)
    rw [sum_congr rfl h1]
    have h2 : ∑ i, (log ((List.ofFn (pair f g)).count (pair f g i)) -
          log (((List.ofFn f).count (pair f g i).1 : ℝ) * (List.ofFn g).count (pair f g i).2) + log n) / n = MI f g := by
      rw [MI_eq, sum_div, Fintype.card_fin]
      refine sum_congr rfl fun i _ => ?_
      have a : (N f i : ℝ) ≠ 0 := by exact_mod_cast (N_pos f i).ne'
      have b : (N g i : ℝ) ≠ 0 := by exact_mod_cast (N_pos g i).ne'
      have e1 := count_ofFn (pair f g) i
      have e2 := count_ofFn f i
      have e3 := count_ofFn g i
      simp only [pair, count_inst] at e1 ⊢
      rw [e1, e2, e3, log_mul a b]
      ring
    simp only [count_inst] at h0 h2 ⊢
    rw [h0, h2, max_eq_right (MI_nonneg f g)]

/-! ### Expected mutual information -/

/-- expected mutual information under random permutation of the second labelling -/
noncomputable def E {n : Nat} (f : Fin n → α) (g : Fin n → β) : ℝ :=
  (∑ σ : Equiv.Perm (Fin n), MI f (g ∘ σ)) / (n.factorial : ℝ)

theorem expected_ofFn {n : Nat} (f : Fin n → α) (g : Fin n → β) :
    expectedMutualInformation (List.ofFn f) (List.ofFn g) (List.length_ofFn (f := g)) = E f g := by
  unfold expectedMutualInformation E
  congr 1
  refine sum_congr rfl fun σ _ => ?_
  rw [← mi_ofFn]
  congr 1
  unfold permute
  congr 1
  funext i
  simp

theorem E_swap {n : Nat} [NeZero n] (f : Fin n → α) (g : Fin n → β) : E f g = E g f := by
  unfold E
  congr 1
  rw [← Equiv.sum_comp (Equiv.inv (Equiv.Perm (Fin n)))]
  refine sum_congr rfl fun σ _ => ?_
  rw [MI_swap, ← MI_perm _ _ σ]
  congr 1
  funext i
  simp

theorem E_perm {n : Nat} [NeZero n] (f : Fin n → α) (g : Fin n → β) (τ : Equiv.Perm (Fin n)) : E f (g ∘ τ) = E f g := by
  unfold E
  congr 1
  exact Equiv.sum_comp (Equiv.mulLeft τ) fun σ => MI f (g ∘ σ)

theorem Same.perm {f : ι → α} {f' : ι → β} (h : Same f f') (σ : Equiv.Perm ι) : Same (f ∘ σ) (f' ∘ σ) :=
  fun i j => h (σ i) (σ j)

theorem E_same {n : Nat} [NeZero n] {f : Fin n → α} {f' : Fin n → β} (h : Same f f') (g : Fin n → γ) : E f g = E f' g := by
  unfold E
  congr 1
  exact sum_congr rfl fun σ _ => MI_same h _

theorem MI_le_mean (f : ι → α) (g : ι → β) : MI f g ≤ (H f + H g) / 2 := by
  have := MI_le_left f g
  have := MI_le_right f g
  linarith

theorem E_le {n : Nat} [NeZero n] (f : Fin n → α) (g : Fin n → β) : E f g ≤ (H f + H g) / 2 := by
  unfold E
  rw [div_le_iff₀ (by exact_mod_cast n.factorial_pos)]
  calc ∑ σ : Equiv.Perm (Fin n), MI f (g ∘ σ) ≤ ∑ _σ : Equiv.Perm (Fin n), (H f + H g) / 2 :=
        sum_le_sum fun σ _ => by rw [← H_perm g σ]; exact MI_le_mean _ _
    _ = (H f + H g) / 2 * n.factorial := by
        rw [sum_const, card_univ, Fintype.card_perm, Fintype.card_fin, nsmul_eq_mul, mul_comm]

theorem E_eq {n : Nat} [NeZero n] {f : Fin n → α} {g : Fin n → β} : E f g = (H f + H g) / 2 ↔
    Same f g ∧ ((∀ i j, f i = f j) ∨ Function.Injective f) := by
  have hfac : (0 : ℝ) < n.factorial := by exact_mod_cast n.factorial_pos
  have hconst : ∑ _σ : Equiv.Perm (Fin n), (H f + H g) / 2 = (H f + H g) / 2 * n.factorial := by
    rw [sum_const, card_univ, Fintype.card_perm, Fintype.card_fin, nsmul_eq_mul, mul_comm]
  have key : E f g = (H f + H g) / 2 ↔ ∀ σ : Equiv.Perm (Fin n), Same f (g ∘ σ) := by
    unfold E
    rw [div_eq_iff hfac.ne', ← hconst, sum_eq_sum_iff_of_le fun σ _ => by rw [← H_perm g σ]; exact MI_le_mean _ _]
    simp only [mem_univ, forall_true_left]
    refine forall_congr' fun σ => ?_
    rw [← MI_perfect, H_perm]
  rw [key]
  constructor
  · intro h
    have h1 : Same f g := h 1
    refine ⟨h1, ?_⟩
    by_contra hcon
    push Not at hcon
    obtain ⟨⟨a, b, hab⟩, hinj⟩ := hcon
    unfold Function.Injective at hinj
    push Not at hinj
    obtain ⟨i, j, hij, hne⟩ := hinj
    obtain ⟨k, hk⟩ : ∃ k, f k ≠ f i := by
      by_contra hall
      push Not at hall
      exact hab ((hall a).trans (hall b).symm)
    have hki : k ≠ i := fun e => hk (by rw [e])
    have h2 := (h (Equiv.swap j k) i j).mp hij
    simp only [Function.comp, Equiv.swap_apply_left] at h2
    rw [Equiv.swap_apply_of_ne_of_ne hne hki.symm] at h2
    exact hk ((h1 i k).mpr h2).symm
  · rintro ⟨h1, h2 | h2⟩ σ
    · intro i j
      exact ⟨fun _ => (h1 _ _).mp (h2 _ _), fun _ => h2 _ _⟩
    · intro i j
      constructor
      · intro h; rw [h2 h]
      · intro h
        have := h2 ((h1 _ _).mpr h)
        rw [σ.injective this]

end Verif.Scores
