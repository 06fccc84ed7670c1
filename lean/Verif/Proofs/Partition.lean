import Verif.Model.Partition
import Verif.Spec.Partition
import Mathlib.Tactic.Linarith

namespace Verif
open Spec

/-- `mapM` in `Py` succeeds with the plain map when each element succeeds. -/
theorem mapM_ok {α β : Type _} {f : α → Py β} {g : α → β} {l : List α}
    (h : ∀ x ∈ l, f x = .ok (g x)) : l.mapM f = .ok (l.map g) := by
  induction l with
  | nil => rfl
  | cons a l ih =>
    rw [List.mapM_cons, h a (by simp), ih (fun x hx => h x (by simp [hx]))]
    rfl

theorem foldlM_ok {α σ : Type _} {f : σ → α → Py σ} {g : σ → α → σ} {l : List α}
    (h : ∀ x ∈ l, ∀ s, f s x = .ok (g s x)) (s : σ) : l.foldlM f s = .ok (l.foldl g s) := by
  induction l generalizing s with
  | nil => rfl
  | cons a l ih =>
    rw [List.foldlM_cons, h a (by simp)]
    exact ih (fun x hx => h x (by simp [hx])) _

theorem pyGet_ok {α : Type _} {l : List α} {i : Nat} {x : α} : pyGet l i = .ok x ↔ l[i]? = some x := by
  unfold pyGet
  cases h : l[i]? <;> simp

theorem pyGet_lt {α : Type _} {l : List α} {i : Nat} (h : i < l.length) : pyGet l i = .ok l[i] := by
  rw [pyGet_ok]; simp [h]

theorem pyGet_error {α : Type _} {l : List α} {i : Nat} (h : l.length ≤ i) : pyGet l i = .error .indexError := by
  unfold pyGet; rw [List.getElem?_eq_none h]

theorem pySortedBy_perm {α κ : Type _} [LinearOrder κ] (key : α → κ) (l : List α) : (pySortedBy key l).Perm l :=
  List.perm_insertionSort _ l

theorem mem_pySortedBy {α κ : Type _} [LinearOrder κ] {key : α → κ} {l : List α} {x : α} :
    x ∈ pySortedBy key l ↔ x ∈ l := (pySortedBy_perm key l).mem_iff

theorem pySortedBy_pairwise {α κ : Type _} [LinearOrder κ] (key : α → κ) (l : List α) :
    (pySortedBy key l).Pairwise fun a b => key a ≤ key b := by
  haveI : Std.Total (fun a b : α => key a ≤ key b) := ⟨fun a b => le_total _ _⟩
  haveI : IsTrans α (fun a b : α => key a ≤ key b) := ⟨fun a b c => le_trans⟩
  exact List.pairwise_insertionSort _ l

/-! ### sorted_tuple -/

section SortedTuple
variable {α : Type _} [LinearOrder α]

/-- The labels of `t` in the order the code assigns new labels. -/
def orderedLabels (t : List α) : List α :=
  (pySortedBy Prod.snd (npUnique t)).map Prod.fst

theorem mem_npUnique {t : List α} {p : α × Nat} : p ∈ npUnique t ↔ p.1 ∈ t ∧ p.2 = t.idxOf p.1 := by
  unfold npUnique
  rw [List.mem_map]
  constructor
  · rintro ⟨x, hx, rfl⟩
    rw [mem_pySortedBy, List.mem_dedup] at hx
    exact ⟨hx, rfl⟩
  · rintro ⟨h1, h2⟩
    exact ⟨p.1, by rwa [mem_pySortedBy, List.mem_dedup], by rw [← h2]⟩

theorem npUnique_nodup_fst (t : List α) : ((npUnique t).map Prod.fst).Nodup := by
  unfold npUnique
  rw [List.map_map]
  have : (Prod.fst ∘ fun x : α => (x, t.idxOf x)) = id := by funext x; rfl
  rw [this, List.map_id]
  exact (pySortedBy_perm _ _).nodup_iff.mpr (List.nodup_dedup t)

theorem orderedLabels_nodup (t : List α) : (orderedLabels t).Nodup := by
  unfold orderedLabels
  have := (pySortedBy_perm Prod.snd (npUnique t)).map Prod.fst
  exact this.nodup_iff.mpr (npUnique_nodup_fst t)

theorem mem_orderedLabels {t : List α} {x : α} : x ∈ orderedLabels t ↔ x ∈ t := by
  unfold orderedLabels
  rw [List.mem_map]
  constructor
  · rintro ⟨p, hp, rfl⟩
    rw [mem_pySortedBy, mem_npUnique] at hp
    exact hp.1
  · intro h
    exact ⟨(x, t.idxOf x), by rw [mem_pySortedBy, mem_npUnique]; exact ⟨h, rfl⟩, rfl⟩

theorem orderedLabels_pairwise (t : List α) :
    (orderedLabels t).Pairwise (fun x y => t.idxOf x ≤ t.idxOf y) := by
  unfold orderedLabels
  rw [List.pairwise_map]
  have h := pySortedBy_pairwise Prod.snd (npUnique t)
  refine h.imp_of_mem ?_
  intro a b ha hb hab
  rw [mem_pySortedBy, mem_npUnique] at ha hb
  rw [← ha.2, ← hb.2]
  simpa using hab

theorem lookup_zipIdx_aux (l : List (α × Nat)) (n : Nat) (x : α) (hx : x ∈ l.map Prod.fst) :
    ((l.zipIdx n).map fun xi => (xi.1.1, xi.2)).lookup x = some (n + (l.map Prod.fst).idxOf x) := by
  induction l generalizing n with
  | nil => simp at hx
  | cons a l ih =>
    rw [List.zipIdx_cons, List.map_cons, List.map_cons, List.lookup_cons]
    by_cases h : a.1 = x
    · subst h; simp
    · have hx' : x ∈ l.map Prod.fst := by
        rw [List.map_cons, List.mem_cons] at hx
        rcases hx with hx | hx
        · exact absurd hx.symm h
        · exact hx
      have hne : (x == a.1) = false := by simpa using fun e : x = a.1 => h e.symm
      simp only [hne]
      rw [ih (n + 1) hx', List.idxOf_cons_ne _ h]
      congr 1; omega

theorem lookup_sortMap {t : List α} {x : α} (hx : x ∈ t) :
    (sortMap t).lookup x = some ((orderedLabels t).idxOf x) := by
  unfold sortMap
  have := lookup_zipIdx_aux (pySortedBy Prod.snd (npUnique t)) 0 x
    (by have := mem_orderedLabels.mpr hx; exact this)
  rw [this]; simp [orderedLabels]

/-- The value `sorted_tuple` returns. -/
def canon (t : List α) : List Nat := t.map fun x => (orderedLabels t).idxOf x

theorem sortedTuple_eq (t : List α) : sortedTuple t = .ok (canon t) := by
  unfold sortedTuple canon
  apply mapM_ok
  intro x hx
  rw [lookup_sortMap hx]

theorem canon_length (t : List α) : (canon t).length = t.length := by simp [canon]

theorem canon_getElem? (t : List α) (i : Nat) :
    (canon t)[i]? = (t[i]?).map fun x => (orderedLabels t).idxOf x := by simp [canon]

theorem canon_same (t : List α) : SamePartition (canon t) t := by
  refine ⟨canon_length t, fun i j hi hj => ?_⟩
  rw [canon_length] at hi hj
  rw [canon_getElem?, canon_getElem?, List.getElem?_eq_getElem hi, List.getElem?_eq_getElem hj]
  simp only [Option.map_some, Option.some.injEq]
  constructor
  · intro h
    have h1 : t[i] ∈ orderedLabels t := mem_orderedLabels.mpr (List.getElem_mem hi)
    exact (List.idxOf_inj h1).mp h
  · intro h; rw [h]

theorem idxOf_lt_of_idxOf_lt {t : List α} {x y : α} (hx : x ∈ t) (hy : y ∈ t)
    (h : (orderedLabels t).idxOf x < (orderedLabels t).idxOf y) : t.idxOf x < t.idxOf y := by
  have hx' := List.idxOf_lt_length_iff.mpr (mem_orderedLabels.mpr hx)
  have hy' := List.idxOf_lt_length_iff.mpr (mem_orderedLabels.mpr hy)
  have hp := List.pairwise_iff_getElem.mp (orderedLabels_pairwise t) _ _ hx' hy' h
  rw [List.getElem_idxOf, List.getElem_idxOf] at hp
  rcases Nat.lt_or_eq_of_le hp with h1 | h1
  · exact h1
  · have : x = y := (List.idxOf_inj hx).mp h1
    subst this; omega

theorem canon_firstAppearance (t : List α) : FirstAppearanceOrder (canon t) := by
  intro i x hi k hk
  rw [canon_getElem?] at hi
  obtain ⟨a, ha, rfl⟩ := Option.map_eq_some_iff.mp hi
  have hia : i < t.length := by
    by_contra hc
    rw [List.getElem?_eq_none (by omega)] at ha; cases ha
  have hmem : a ∈ t := List.mem_of_getElem? ha
  have hlen := List.idxOf_lt_length_iff.mpr (mem_orderedLabels.mpr hmem)
  have hkl : k < (orderedLabels t).length := by omega
  set y := (orderedLabels t)[k] with hy
  have hyl : y ∈ orderedLabels t := List.getElem_mem hkl
  have hyt : y ∈ t := mem_orderedLabels.mp hyl
  have hidx : (orderedLabels t).idxOf y = k := (orderedLabels_nodup t).idxOf_getElem k hkl
  have hlt := idxOf_lt_of_idxOf_lt hyt hmem (by rw [hidx]; exact hk)
  have hle : t.idxOf a ≤ i := by
    by_contra hc
    have hc' : i < t.idxOf a := by omega
    have := List.not_of_lt_findIdx (p := (· == a)) (xs := t) (i := i) (by simpa [List.idxOf] using hc')
    rw [List.getElem?_eq_getElem hia] at ha
    simp at ha
    simp [ha] at this
  refine ⟨t.idxOf y, by omega, ?_⟩
  rw [canon_getElem?, List.getElem?_eq_getElem (List.idxOf_lt_length_iff.mpr hyt), List.getElem_idxOf]
  simp [hidx]

end SortedTuple

theorem firstAppearance_unique {s t : List Nat} (hs : FirstAppearanceOrder s) (ht : FirstAppearanceOrder t)
    (h : SamePartition s t) : s = t := by
  obtain ⟨hl, hst⟩ := h
  have key : ∀ n, ∀ i < n, i < s.length → s[i]? = t[i]? := by
    intro n
    induction n with
    | zero => intro i hi; omega
    | succ n ih =>
      intro i hi hil
      rcases Nat.lt_succ_iff_lt_or_eq.mp hi with h1 | rfl
      · exact ih i h1 hil
      · have hsi : s[i]? = some s[i] := List.getElem?_eq_getElem hil
        have hti : t[i]? = some (t[i]'(by omega)) := List.getElem?_eq_getElem (by omega)
        rcases Nat.lt_trichotomy s[i] (t[i]'(by omega)) with hlt | heq | hgt
        · obtain ⟨j, hj, hjt⟩ := ht i _ hti _ hlt
          have h2 := ih j hj (by omega)
          rw [hjt] at h2
          have h3 := (hst i j hil (by omega)).mp (by rw [hsi, h2])
          rw [hti, hjt] at h3
          simp at h3; omega
        · rw [hsi, hti, heq]
        · obtain ⟨j, hj, hjs⟩ := hs i _ hsi _ hgt
          have h2 := ih j hj (by omega)
          rw [hjs] at h2
          have h3 := (hst i j hil (by omega)).mpr (by rw [hti, ← h2])
          rw [hsi, hjs] at h3
          simp at h3; omega
  apply List.ext_getElem? 
  intro i
  by_cases hi : i < s.length
  · exact key (i + 1) i (by omega) hi
  · rw [List.getElem?_eq_none (by omega), List.getElem?_eq_none (by omega)]

theorem Spec.SamePartition.symm {α β : Type _} {s : List α} {t : List β} (h : SamePartition s t) : SamePartition t s :=
  ⟨h.1.symm, fun i j hi hj => (h.2 i j (h.1 ▸ hi) (h.1 ▸ hj)).symm⟩

theorem Spec.SamePartition.trans {α β γ : Type _} {s : List α} {t : List β} {u : List γ}
    (h : SamePartition s t) (h' : SamePartition t u) : SamePartition s u :=
  ⟨h.1.trans h'.1, fun i j hi hj => (h.2 i j hi hj).trans (h'.2 i j (h.1 ▸ hi) (h.1 ▸ hj))⟩

theorem Spec.SamePartition.refl {α : Type _} (s : List α) : SamePartition s s := ⟨rfl, fun _ _ _ _ => Iff.rfl⟩

theorem canon_eq_iff {α β : Type _} [LinearOrder α] [LinearOrder β] (s : List α) (t : List β) :
    canon s = canon t ↔ SamePartition s t := by
  constructor
  · intro h
    exact ((canon_same s).symm).trans (h ▸ canon_same t)
  · intro h
    exact firstAppearance_unique (canon_firstAppearance s) (canon_firstAppearance t)
      (((canon_same s).trans h).trans (canon_same t).symm)

theorem canon_of_firstAppearance {t : List Nat} (h : FirstAppearanceOrder t) : canon t = t :=
  firstAppearance_unique (canon_firstAppearance t) h (canon_same t)

theorem canon_idem {α : Type _} [LinearOrder α] (t : List α) : canon (canon t) = canon t :=
  canon_of_firstAppearance (canon_firstAppearance t)

end Verif
