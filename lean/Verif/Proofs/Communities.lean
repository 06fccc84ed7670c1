import Verif.Proofs.Partition
import Mathlib.Data.Int.Interval
import Mathlib.Data.Finset.Dedup
import Mathlib.Data.Finset.Card

namespace Verif
open Spec

/-! ### dictionaries of lists -/

section Dict
variable {κ ν : Type _} [DecidableEq κ]

theorem dictAppend_keys (d : List (κ × List ν)) (k : κ) (v : ν) :
    (dictAppend d k v).map Prod.fst = if k ∈ d.map Prod.fst then d.map Prod.fst else d.map Prod.fst ++ [k] := by
  induction d with
  | nil => simp [dictAppend]
  | cons e d ih =>
    obtain ⟨k', vs⟩ := e
    by_cases h : k' = k
    · subst h; simp [dictAppend]
    · have h' : k ≠ k' := fun e => h e.symm
      simp only [dictAppend, h, if_false, List.map_cons, ih, List.mem_cons, h', false_or]
      split <;> simp

theorem dictAppend_nodup {d : List (κ × List ν)} (hd : (d.map Prod.fst).Nodup) (k : κ) (v : ν) :
    ((dictAppend d k v).map Prod.fst).Nodup := by
  rw [dictAppend_keys]
  split
  · exact hd
  · rename_i h
    rw [List.nodup_append]
    refine ⟨hd, by simp, ?_⟩
    intro a ha b hb
    simp at hb; subst hb
    intro e; subst e; exact h ha

theorem mem_dictAppend {d : List (κ × List ν)} (hd : (d.map Prod.fst).Nodup) (k : κ) (v : ν) (e : κ × List ν) :
    e ∈ dictAppend d k v ↔
      (e.1 ≠ k ∧ e ∈ d) ∨ (e.1 = k ∧ ((∃ vs, (k, vs) ∈ d ∧ e.2 = vs ++ [v]) ∨ (k ∉ d.map Prod.fst ∧ e.2 = [v]))) := by
  induction d with
  | nil =>
    obtain ⟨a, b⟩ := e
    simp [dictAppend]
  | cons e' d ih =>
    obtain ⟨k', vs'⟩ := e'
    obtain ⟨a, b⟩ := e
    rw [List.map_cons, List.nodup_cons] at hd
    by_cases h : k' = k
    · subst h
      simp only [dictAppend, if_true, List.mem_cons, Prod.mk.injEq, List.map_cons, true_or, not_true, false_and, or_false]
      have hn : ∀ x, (k', x) ∉ d := fun x hx => hd.1 (List.mem_map.mpr ⟨_, hx, rfl⟩)
      constructor
      · rintro (⟨rfl, rfl⟩ | h1)
        · exact Or.inr ⟨rfl, vs', Or.inl ⟨trivial, rfl⟩, rfl⟩
        · have : a ≠ k' := fun e => by subst e; exact hn _ h1
          exact Or.inl ⟨this, Or.inr h1⟩
      · rintro (⟨h1, ⟨h2, _⟩ | h2⟩ | ⟨rfl, x, (⟨_, rfl⟩ | h2), rfl⟩)
        · exact absurd h2 h1
        · exact Or.inr h2
        · exact Or.inl ⟨rfl, rfl⟩
        · exact absurd h2 (hn _)
    · have h' : ¬ k = k' := fun e => h e.symm
      simp only [dictAppend, h, if_false, List.mem_cons, Prod.mk.injEq, List.map_cons, h', false_and, false_or]
      rw [ih hd.2]
      simp only
      constructor
      · rintro (⟨rfl, rfl⟩ | ⟨h1, h2⟩ | h1)
        · exact Or.inl ⟨h, Or.inl ⟨rfl, rfl⟩⟩
        · exact Or.inl ⟨h1, Or.inr h2⟩
        · exact Or.inr h1
      · rintro (⟨h1, ⟨rfl, rfl⟩ | h2⟩ | h1)
        · exact Or.inl ⟨rfl, rfl⟩
        · exact Or.inr (Or.inl ⟨h1, h2⟩)
        · exact Or.inr (Or.inr h1)

/-- Grouping the pairs of `l` by first component: what folding `dictAppend` computes. -/
theorem mem_foldl_dictAppend (l : List (κ × ν)) (e : κ × List ν) :
    e ∈ l.foldl (fun d cv => dictAppend d cv.1 cv.2) [] ↔
      e.1 ∈ l.map Prod.fst ∧ e.2 = (l.filter fun cv => decide (cv.1 = e.1)).map Prod.snd := by
  suffices H : ((l.foldl (fun d cv => dictAppend d cv.1 cv.2) ([] : List (κ × List ν))).map Prod.fst).Nodup ∧
      ∀ e, e ∈ l.foldl (fun d cv => dictAppend d cv.1 cv.2) [] ↔
        e.1 ∈ l.map Prod.fst ∧ e.2 = (l.filter fun cv => decide (cv.1 = e.1)).map Prod.snd from H.2 e
  induction l using List.reverseRecOn with
  | nil => simp
  | append_singleton l p ih =>
    obtain ⟨ih1, ih2⟩ := ih
    obtain ⟨k, v⟩ := p
    rw [List.foldl_append]
    simp only [List.foldl_cons, List.foldl_nil]
    refine ⟨dictAppend_nodup ih1 _ _, ?_⟩
    rintro ⟨a, b⟩
    rw [mem_dictAppend ih1]
    simp only [ih2, List.map_append, List.filter_append, List.mem_append, List.map_cons, List.map_nil,
      List.mem_cons, List.not_mem_nil, or_false]
    have hk : k ∈ (l.foldl (fun d cv => dictAppend d cv.1 cv.2) ([] : List (κ × List ν))).map Prod.fst ↔
        k ∈ l.map Prod.fst := by
      rw [List.mem_map]
      constructor
      · rintro ⟨x, hx, rfl⟩; exact ((ih2 x).mp hx).1
      · intro h; exact ⟨(k, (l.filter fun cv => decide (cv.1 = k)).map Prod.snd), (ih2 _).mpr ⟨h, rfl⟩, rfl⟩
    rw [hk]
    by_cases hak : a = k
    · subst hak
      simp only [ne_eq, not_true, false_and, false_or, true_and, or_true, List.filter_cons, List.filter_nil,
        decide_true, if_true, List.map_cons, List.map_nil]
      constructor
      · rintro (⟨vs, ⟨_, hvs⟩, h2⟩ | ⟨h1, h2⟩)
        · rw [h2, hvs]
        · have : (l.filter fun cv => decide (cv.1 = a)) = [] := by
            rw [List.filter_eq_nil_iff]
            intro x hx hc
            exact h1 (List.mem_map.mpr ⟨x, hx, by simpa using hc⟩)
          rw [this]; simpa using h2
      · intro h
        by_cases hm : a ∈ l.map Prod.fst
        · exact Or.inl ⟨_, ⟨hm, rfl⟩, h⟩
        · have : (l.filter fun cv => decide (cv.1 = a)) = [] := by
            rw [List.filter_eq_nil_iff]
            intro x hx hc
            exact hm (List.mem_map.mpr ⟨x, hx, by simpa using hc⟩)
          rw [this] at h
          exact Or.inr ⟨hm, by simpa using h⟩
    · have hka : ¬ k = a := fun e => hak e.symm
      simp [hak, hka]

theorem foldl_dictAppend_nodup (l : List (κ × ν)) :
    ((l.foldl (fun d cv => dictAppend d cv.1 cv.2) ([] : List (κ × List ν))).map Prod.fst).Nodup := by
  induction l using List.reverseRecOn with
  | nil => simp
  | append_singleton l p ih =>
    rw [List.foldl_append]
    exact dictAppend_nodup ih _ _

end Dict

/-- Vertices with label `c`, increasing. -/
def verticesOf {α : Type _} [DecidableEq α] (m : List α) (c : α) : List Nat :=
  (List.range m.length).filter fun v => decide (m[v]? = some c)

theorem zipIdx_filter_eq {α : Type _} [DecidableEq α] (m : List α) (c : α) (n : Nat) :
    ((m.zipIdx n).filter fun cv => decide (cv.1 = c)).map Prod.snd =
      ((List.range m.length).filter fun v => decide (m[v]? = some c)).map (· + n) := by
  induction m generalizing n with
  | nil => simp
  | cons a m ih =>
    rw [List.zipIdx_cons, List.length_cons, List.range_succ_eq_map, List.filter_cons, List.filter_cons]
    have h2 : (List.filter (fun v => decide ((a :: m)[v]? = some c)) (List.map Nat.succ (List.range m.length))).map
        (· + n) = ((List.range m.length).filter fun v => decide (m[v]? = some c)).map (· + (n + 1)) := by
      rw [List.filter_map, List.map_map]
      have : ((fun v => decide ((a :: m)[v]? = some c)) ∘ Nat.succ) = fun v => decide (m[v]? = some c) := by
        funext v; simp
      rw [this]
      apply List.map_congr_left
      intro v _; simp; omega
    by_cases h : a = c
    · subst h
      simp only [decide_true, if_true, List.map_cons, List.getElem?_cons_zero]
      rw [ih (n + 1), h2]; simp
    · simp only [h, decide_false, List.getElem?_cons_zero, Option.some.injEq]
      simp only [Bool.false_eq_true, if_false]
      rw [ih (n + 1), h2]

theorem zipIdx_map_fst_eq {α : Type _} (m : List α) (n : Nat) : (m.zipIdx n).map Prod.fst = m := by
  induction m generalizing n with
  | nil => rfl
  | cons a m ih => rw [List.zipIdx_cons, List.map_cons, ih]

theorem mem_membershipToCommunities {α : Type _} [DecidableEq α] (m : List α) (c : α) (vs : List Nat) :
    (c, vs) ∈ membershipToCommunities m ↔ c ∈ m ∧ vs = verticesOf m c := by
  unfold membershipToCommunities
  rw [mem_foldl_dictAppend, zipIdx_map_fst_eq, zipIdx_filter_eq]
  simp [verticesOf]

theorem membershipToCommunities_nodup {α : Type _} [DecidableEq α] (m : List α) :
    ((membershipToCommunities m).map Prod.fst).Nodup := foldl_dictAppend_nodup _

/-- Layered keys. -/
theorem membershipToLayeredCommunities_eq {α β : Type _} [DecidableEq α] [DecidableEq β]
    (m : List α) (layers : List β) (h : m.length ≤ layers.length) :
    membershipToLayeredCommunities m layers = .ok (membershipToCommunities (m.zip layers)) := by
  unfold membershipToLayeredCommunities membershipToCommunities
  have gen : ∀ (m : List α) (n : Nat) (d : List ((α × β) × List Nat)), n + m.length ≤ layers.length →
      (m.zipIdx n).foldlM (fun d (cv : α × Nat) => (do
        let l ← pyGet layers cv.2
        return dictAppend d (cv.1, l) cv.2 : Py _)) d =
      .ok (((m.zip (layers.drop n)).zipIdx n).foldl (fun d cv => dictAppend d cv.1 cv.2) d) := by
    intro m
    induction m with
    | nil => intro n d _; simp; rfl
    | cons a m ih =>
      intro n d hn
      rw [List.length_cons] at hn
      have hlt : n < layers.length := by omega
      rw [List.zipIdx_cons, List.foldlM_cons, List.drop_eq_getElem_cons hlt, List.zip_cons_cons, List.zipIdx_cons,
        List.foldl_cons]
      simp only [pyGet_lt hlt]
      exact ih (n + 1) _ (by omega)
  have := gen m 0 [] (by omega)
  simpa using this

theorem membershipToLayeredCommunities_error {α β : Type _} [DecidableEq α] [DecidableEq β]
    (m : List α) (layers : List β) (h : layers.length < m.length) :
    membershipToLayeredCommunities m layers = .error .indexError := by
  unfold membershipToLayeredCommunities
  have gen : ∀ (m : List α) (n : Nat) (d : List ((α × β) × List Nat)), layers.length < n + m.length → n ≤ layers.length →
      (m.zipIdx n).foldlM (fun d (cv : α × Nat) => (do
        let l ← pyGet layers cv.2
        return dictAppend d (cv.1, l) cv.2 : Py _)) d = .error .indexError := by
    intro m
    induction m with
    | nil => intro n d h1 h2; simp at h1; omega
    | cons a m ih =>
      intro n d h1 h2
      rw [List.length_cons] at h1
      rw [List.zipIdx_cons, List.foldlM_cons]
      by_cases hlt : n < layers.length
      · simp only [pyGet_lt hlt]
        exact ih (n + 1) _ (by omega) (by omega)
      · simp only [pyGet_error (l := layers) (i := n) (by omega)]
        rfl
  exact gen m 0 [] (by omega) (by omega)

/-! ### num_communities -/

theorem dedup_length_eq_card {α : Type _} [DecidableEq α] (l : List α) : l.dedup.length = l.toFinset.card := by
  rw [List.card_toFinset]

theorem numCommunities_ok_iff {m : List Int} (hpos : ∀ x ∈ m, 0 ≤ x) (hne : m ≠ []) (K : Nat) :
    numCommunities m = .ok K ↔ ∀ x : Int, x ∈ m ↔ 0 ≤ x ∧ x < K := by
  unfold numCommunities
  obtain ⟨M, hM⟩ : ∃ M, m.max? = some M := by
    cases h : m.max? with
    | none => rw [List.max?_eq_none_iff] at h; exact absurd h hne
    | some M => exact ⟨M, rfl⟩
  rw [hM]
  obtain ⟨hMm, hMle⟩ := (List.max?_eq_some_iff).mp hM
  have hM0 := hpos M hMm
  have hsub : m.toFinset ⊆ Finset.Ico 0 (M + 1) := by
    intro x hx
    rw [List.mem_toFinset] at hx
    rw [Finset.mem_Ico]
    exact ⟨hpos x hx, by have := hMle x hx; omega⟩
  have hcard : (Finset.Ico 0 (M + 1)).card = (M + 1).toNat := by simp
  simp only
  rw [dedup_length_eq_card]
  constructor
  · intro h
    split at h
    · rename_i hc
      cases h
      have heq : m.toFinset = Finset.Ico 0 (M + 1) := by
        apply Finset.eq_of_subset_of_card_le hsub
        rw [hcard]; omega
      intro x
      rw [← List.mem_toFinset, hc, heq, Finset.mem_Ico]
    · cases h
  · intro h
    have heq : m.toFinset = Finset.Ico 0 (K : Int) := by
      ext x; rw [List.mem_toFinset, h, Finset.mem_Ico]
    have hK : M + 1 = K := by
      have h1 := (h M).mp hMm
      have h2 : (K : Int) - 1 ∈ m := (h _).mpr ⟨by omega, by omega⟩
      have := hMle _ h2
      omega
    rw [heq]
    simp [hK]

theorem canon_mem_iff {α : Type _} [LinearOrder α] (t : List α) (k : Nat) :
    k ∈ canon t ↔ k < t.dedup.length := by
  have hl : (orderedLabels t).length = t.dedup.length := by
    have : (orderedLabels t).Perm t.dedup :=
      (List.perm_ext_iff_of_nodup (orderedLabels_nodup t) (List.nodup_dedup t)).mpr
        (fun x => by rw [mem_orderedLabels, List.mem_dedup])
    exact this.length_eq
  rw [← hl]
  unfold canon
  rw [List.mem_map]
  constructor
  · rintro ⟨x, hx, rfl⟩
    exact List.idxOf_lt_length_iff.mpr (mem_orderedLabels.mpr hx)
  · intro hk
    exact ⟨(orderedLabels t)[k], mem_orderedLabels.mp (List.getElem_mem hk),
      (orderedLabels_nodup t).idxOf_getElem k hk⟩

theorem numCommunities_canon {α : Type _} [LinearOrder α] {t : List α} (ht : t ≠ []) :
    numCommunities ((canon t).map Int.ofNat) = .ok t.dedup.length := by
  rw [numCommunities_ok_iff]
  · intro x
    rw [List.mem_map]
    constructor
    · rintro ⟨k, hk, rfl⟩
      rw [canon_mem_iff] at hk
      simp; omega
    · rintro ⟨h1, h2⟩
      exact ⟨x.toNat, (canon_mem_iff t _).mpr (by omega), by simp [h1]⟩
  · intro x hx
    obtain ⟨k, _, rfl⟩ := List.mem_map.mp hx
    simp
  · simp [canon, ht]

/-! ### lru_cache -/

section LRU
variable {κ ν : Type _} [DecidableEq κ]

/-- Cache invariant relative to a function `f`. -/
def LRU.Inv (f : κ → Py ν) (c : LRU κ ν) : Prop :=
  c.entries.length ≤ c.cap ∧ (c.entries.map Prod.fst).Nodup ∧ ∀ e ∈ c.entries, f e.1 = .ok e.2

theorem mem_of_lookup {l : List (κ × ν)} {k : κ} {v : ν} (h : l.lookup k = some v) : (k, v) ∈ l := by
  induction l with
  | nil => simp at h
  | cons e l ih =>
    obtain ⟨k', v'⟩ := e
    rw [List.lookup_cons] at h
    by_cases hk : k = k'
    · subst hk; simp at h; subst h; simp
    · have : (k == k') = false := by simpa using hk
      rw [this] at h
      exact List.mem_cons_of_mem _ (ih h)

theorem lookup_none_iff {l : List (κ × ν)} {k : κ} : l.lookup k = none ↔ k ∉ l.map Prod.fst := by
  induction l with
  | nil => simp
  | cons e l ih =>
    obtain ⟨k', v'⟩ := e
    rw [List.lookup_cons]
    by_cases hk : k = k'
    · subst hk; simp
    · have : (k == k') = false := by simpa using hk
      rw [this]; simp only [ih, List.map_cons, List.mem_cons, hk, false_or]

theorem LRU.filter_length_lt {l : List (κ × ν)} {k : κ} (h : k ∈ l.map Prod.fst) :
    (l.filter (fun e => decide (e.1 ≠ k))).length + 1 ≤ l.length := by
  induction l with
  | nil => simp at h
  | cons e l ih =>
    by_cases hk : e.1 = k
    · simp only [List.filter_cons, hk]
      have := List.length_filter_le (fun e : κ × ν => decide (e.1 ≠ k)) l
      simpa using this
    · have h' : k ∈ l.map Prod.fst := by
        rw [List.map_cons, List.mem_cons] at h
        exact h.resolve_left (fun e' => hk e'.symm)
      have := ih h'
      rw [List.filter_cons_of_pos (by simpa using hk)]
      simp only [List.length_cons]; omega

theorem LRU.call_inv {f : κ → Py ν} {c : LRU κ ν} (h : c.Inv f) (k : κ) :
    (c.call k (f k)).1.Inv f ∧ (c.call k (f k)).2 = f k ∧ (c.call k (f k)).1.cap = c.cap := by
  obtain ⟨h1, h2, h3⟩ := h
  unfold LRU.call
  cases hl : c.entries.lookup k with
  | some v =>
    have hm := mem_of_lookup hl
    have hk : k ∈ c.entries.map Prod.fst := List.mem_map.mpr ⟨_, hm, rfl⟩
    refine ⟨⟨?_, ?_, ?_⟩, (h3 _ hm).symm, rfl⟩
    · have := LRU.filter_length_lt hk
      simp only [List.length_cons]; omega
    · simp only [List.map_cons, List.nodup_cons]
      refine ⟨?_, ?_⟩
      · intro hc
        obtain ⟨e, he, hek⟩ := List.mem_map.mp hc
        have := (List.mem_filter.mp he).2
        simp [hek] at this
      · exact h2.sublist (List.Sublist.map _ List.filter_sublist)
    · intro e he
      rcases List.mem_cons.mp he with rfl | he
      · exact h3 _ hm
      · exact h3 _ (List.mem_filter.mp he).1
  | none =>
    cases hf : f k with
    | error e => exact ⟨⟨h1, h2, h3⟩, rfl, rfl⟩
    | ok v =>
      refine ⟨⟨?_, ?_, ?_⟩, rfl, rfl⟩
      · simp
      · have hnd : (((k, v) :: c.entries).map Prod.fst).Nodup := by
          rw [List.map_cons, List.nodup_cons]
          exact ⟨lookup_none_iff.mp hl, h2⟩
        exact hnd.sublist (List.Sublist.map _ (List.take_sublist _ _))
      · intro e he
        have := List.mem_of_mem_take he
        rcases List.mem_cons.mp this with rfl | he
        · exact hf
        · exact h3 _ he

theorem LRU.run_inv {f : κ → Py ν} (ks : List κ) {c : LRU κ ν} (h : c.Inv f) :
    (c.run (ks.map fun k => (k, f k))).1.Inv f ∧ (c.run (ks.map fun k => (k, f k))).2 = ks.map f ∧
      (c.run (ks.map fun k => (k, f k))).1.cap = c.cap := by
  induction ks generalizing c with
  | nil => exact ⟨h, rfl, rfl⟩
  | cons k ks ih =>
    obtain ⟨a1, a2, a3⟩ := LRU.call_inv h k
    obtain ⟨b1, b2, b3⟩ := ih a1
    refine ⟨b1, ?_, b3.trans a3⟩
    simp only [List.map_cons, LRU.run]
    rw [a2, b2]

end LRU

end Verif
