import Verif.Proofs.Coefficients4

/-!
# Coefficients of equivalent memberships (for C09)

Memberships describing the same partition give dictionaries of communities with the same vertex lists in the same order,
whatever the graphs and the layer vector are; so the coefficients, and the exceptions, agree.
-/

set_option linter.unusedSectionVars false

namespace Verif
open Spec

private theorem okb {A B : Type} (a : A) (f : A → Py B) : ((Except.ok a : Py A) >>= f) = f a := rfl

section
variable {κ κ' ν : Type} [DecidableEq κ] [DecidableEq κ']

/-- entries of two dictionaries with related keys and the same values -/
def SameEntries (R : κ → κ' → Prop) (d : List (κ × List ν)) (d' : List (κ' × List ν)) : Prop :=
  List.Forall₂ (fun e e' => R e.1 e'.1 ∧ e.2 = e'.2) d d'

theorem dictAppend_rel {R : κ → κ' → Prop} (hR : ∀ a b a' b', R a b → R a' b' → (a = a' ↔ b = b'))
    {d : List (κ × List ν)} {d' : List (κ' × List ν)} (h : SameEntries R d d') {k : κ} {k' : κ'} (hk : R k k') (v : ν) :
    SameEntries R (dictAppend d k v) (dictAppend d' k' v) := by
  unfold SameEntries at h
  induction h with
  | nil => exact List.Forall₂.cons ⟨hk, rfl⟩ .nil
  | @cons e e' d d' he hd ih =>
    obtain ⟨x, vs⟩ := e
    obtain ⟨x', vs'⟩ := e'
    obtain ⟨hx, hv⟩ := he
    dsimp only at hx hv
    subst hv
    by_cases hxk : x = k
    · have hxk' : x' = k' := (hR _ _ _ _ hx hk).1 hxk
      simp only [dictAppend, hxk, hxk', if_true]
      exact List.Forall₂.cons ⟨hk, rfl⟩ hd
    · have hxk' : ¬ x' = k' := fun hh => hxk ((hR _ _ _ _ hx hk).2 hh)
      simp only [dictAppend, hxk, hxk', if_false]
      exact List.Forall₂.cons ⟨hx, rfl⟩ ih

theorem foldl_dictAppend_rel {R : κ → κ' → Prop} (hR : ∀ a b a' b', R a b → R a' b' → (a = a' ↔ b = b'))
    {l : List (κ × ν)} {l' : List (κ' × ν)} (h : List.Forall₂ (fun a b => R a.1 b.1 ∧ a.2 = b.2) l l')
    {d : List (κ × List ν)} {d' : List (κ' × List ν)} (hd : SameEntries R d d') :
    SameEntries R (l.foldl (fun d cv => dictAppend d cv.1 cv.2) d) (l'.foldl (fun d cv => dictAppend d cv.1 cv.2) d') := by
  induction h generalizing d d' with
  | nil => exact hd
  | @cons a b l l' hab _ ih =>
    simp only [List.foldl_cons]
    rw [← hab.2]
    exact ih (dictAppend_rel hR hd hab.1 a.2)

/-- same exception, or related results -/
def SameOutcome {A B : Type} (Q : A → B → Prop) : Py A → Py B → Prop
  | .ok a, .ok b => Q a b
  | .error e, .error e' => e = e'
  | _, _ => False

theorem foldlM_layered_rel {R : κ → κ' → Prop} (hR : ∀ a b a' b', R a b → R a' b' → (a = a' ↔ b = b'))
    (layers : List Nat) {l : List (κ × Nat)} {l' : List (κ' × Nat)}
    (h : List.Forall₂ (fun a b => R a.1 b.1 ∧ a.2 = b.2) l l') {d : List ((κ × Nat) × List Nat)}
    {d' : List ((κ' × Nat) × List Nat)} (hd : SameEntries (fun x y => R x.1 y.1 ∧ x.2 = y.2) d d') :
    SameOutcome (SameEntries fun x y => R x.1 y.1 ∧ x.2 = y.2)
      (l.foldlM (fun d cv => do let t ← pyGet layers cv.2; return dictAppend d (cv.1, t) cv.2) d : Py _)
      (l'.foldlM (fun d cv => do let t ← pyGet layers cv.2; return dictAppend d (cv.1, t) cv.2) d' : Py _) := by
  induction h generalizing d d' with
  | nil => exact hd
  | @cons a b l l' hab _ ih =>
    simp only [List.foldlM_cons]
    rw [← hab.2]
    cases ht : pyGet layers a.2 with
    | error e => exact rfl
    | ok t =>
      simp only [okb]
      refine ih (dictAppend_rel (k := (a.1, t)) (k' := (b.1, t)) ?_ hd ⟨hab.1, rfl⟩ a.2)
      rintro ⟨x, s⟩ ⟨y, u⟩ ⟨x', s'⟩ ⟨y', u'⟩ ⟨h1, h2⟩ ⟨h3, h4⟩
      dsimp only at h1 h2 h3 h4
      subst h2 h4
      have := hR _ _ _ _ h1 h3
      simp only [Prod.mk.injEq, this]

theorem mapM_forall₂ {A B C : Type} {P : A → B → Prop} {l : List A} {l' : List B} (h : List.Forall₂ P l l') {f : A → Py C}
    {g : B → Py C} (hfg : ∀ a b, P a b → f a = g b) : l.mapM f = l'.mapM g := by
  induction h with
  | nil => rfl
  | cons hab _ ih => rw [List.mapM_cons, List.mapM_cons, hfg _ _ hab, ih]

end

section
variable {F : Type} [Field F] [LinearOrder F] {α β : Type} [DecidableEq α] [DecidableEq β]

/-- labels at the same vertex -/
def Corresponding (c : List α) (d : List β) (x : α) (y : β) : Prop := ∃ i : Nat, c[i]? = some x ∧ d[i]? = some y

theorem corresponding_iff {c : List α} {d : List β} (h : SamePartition c d) (a : α) (b : β) (a' : α) (b' : β)
    (h1 : Corresponding c d a b) (h2 : Corresponding c d a' b') : a = a' ↔ b = b' := by
  obtain ⟨i, hi, hi'⟩ := h1
  obtain ⟨j, hj, hj'⟩ := h2
  have := h.2 i j (List.getElem?_eq_some_iff.1 hi).1 (List.getElem?_eq_some_iff.1 hj).1
  rw [hi, hj, hi', hj'] at this
  simpa using this

theorem zipIdx_corresponding {c : List α} {d : List β} (h : c.length = d.length) :
    List.Forall₂ (fun a b => Corresponding c d a.1 b.1 ∧ a.2 = b.2) c.zipIdx d.zipIdx := by
  rw [List.forall₂_iff_get]
  refine ⟨by simpa using h, fun i h1 h2 => ?_⟩
  simp only [List.get_eq_getElem, List.getElem_zipIdx, Nat.zero_add, and_true]
  have h1' : i < c.length := by simpa using h1
  have h2' : i < d.length := by simpa using h2
  exact ⟨i, List.getElem?_eq_getElem h1', List.getElem?_eq_getElem h2'⟩

theorem internalEdgeCount_same {c : List α} {d : List β} (h : SamePartition c d) (edges : List (Nat × Nat)) :
    internalEdgeCount edges c = internalEdgeCount edges d := by
  unfold internalEdgeCount
  congr 1
  refine mapM_forall₂ (P := fun a b => a = b) (List.forall₂_same.2 fun _ _ => rfl) ?_
  rintro ⟨u, v⟩ _ rfl
  have key : ∀ i : Nat, (i < c.length ∧ ∃ x y, pyGet c i = .ok x ∧ pyGet d i = .ok y ∧ c[i]? = some x ∧ d[i]? = some y) ∨
      (pyGet c i = .error .indexError ∧ pyGet d i = .error .indexError) := by
    intro i
    by_cases hi : i < c.length
    · have hi' : i < d.length := h.1 ▸ hi
      exact .inl ⟨hi, _, _, by simp [pyGet, List.getElem?_eq_getElem hi], by simp [pyGet, List.getElem?_eq_getElem hi'],
        List.getElem?_eq_getElem hi, List.getElem?_eq_getElem hi'⟩
    · have hi' : ¬ i < d.length := h.1 ▸ hi
      refine .inr ⟨?_, ?_⟩
      · simp [pyGet, List.getElem?_eq_none (Nat.le_of_not_lt hi)]
      · simp [pyGet, List.getElem?_eq_none (Nat.le_of_not_lt hi')]
  rcases key u with ⟨hu, x, y, hx, hy, hx', hy'⟩ | ⟨hx, hy⟩
  · rcases key v with ⟨hv, z, w, hz, hw, hz', hw'⟩ | ⟨hz, hw⟩
    · have := h.2 u v hu hv
      rw [hx', hy', hz', hw'] at this
      simp only [hx, hy, hz, hw, okb]
      have e : x = z ↔ y = w := by simpa using this
      simp only [e]
    · simp only [hx, hy, hz, hw, okb]; rfl
  · simp only [hx, hy]; rfl

theorem adjacencyCoefficient_same {c : List α} {d : List β} (h : SamePartition c d) (dir : Bool) (edges : List (Nat × Nat)) :
    adjacencyCoefficient dir edges c = adjacencyCoefficient dir edges d := by
  unfold adjacencyCoefficient
  rw [internalEdgeCount_same h]

theorem nullModelNumerator_same {c : List α} {d : List β} (h : SamePartition c d) (G : Graph F) :
    nullModelNumerator G c = nullModelNumerator G d := by
  unfold nullModelNumerator
  have := foldl_dictAppend_rel (corresponding_iff h) (zipIdx_corresponding h.1) (d := []) (d' := []) .nil
  congr 1
  refine mapM_forall₂ this ?_
  rintro ⟨x, vs⟩ ⟨y, vs'⟩ ⟨_, hv⟩
  dsimp only at hv
  subst hv
  rfl

theorem nullModelCoefficient3D_same {c : List α} {d : List β} (h : SamePartition c d) (G : Graph F) (layers : List Nat)
    (ec : List F) : nullModelCoefficient3D G layers ec c = nullModelCoefficient3D G layers ec d := by
  unfold nullModelCoefficient3D
  have := foldlM_layered_rel (corresponding_iff h) layers (zipIdx_corresponding h.1) (d := []) (d' := []) .nil
  change SameOutcome _ (membershipToLayeredCommunities c layers) (membershipToLayeredCommunities d layers) at this
  revert this
  cases membershipToLayeredCommunities c layers with
  | error e =>
    cases membershipToLayeredCommunities d layers with
    | error e' => intro this; cases this; rfl
    | ok b => intro this; exact this.elim
  | ok a =>
    cases membershipToLayeredCommunities d layers with
    | error e' => intro this; exact this.elim
    | ok b =>
      intro this
      simp only [okb]
      congr 1
      refine mapM_forall₂ this ?_
      rintro ⟨⟨x, t⟩, vs⟩ ⟨⟨y, u⟩, vs'⟩ ⟨⟨_, htu⟩, hv⟩
      dsimp only at hv htu
      subst hv htu
      rfl

theorem coefficients2D_same (G : Graph F) {cs : List (List α)} {ds : List (List β)}
    (h : List.Forall₂ SamePartition cs ds) : partitionCoefficients2DSerial G cs = partitionCoefficients2DSerial G ds := by
  unfold partitionCoefficients2DSerial
  rw [mapM_forall₂ h (fun a b hab => adjacencyCoefficient_same hab G.directed G.edges),
    mapM_forall₂ h (fun a b hab => nullModelNumerator_same hab G)]

theorem coefficients3D_same (Gi Gx : Graph F) (layers : List Nat) {cs : List (List α)} {ds : List (List β)}
    (h : List.Forall₂ SamePartition cs ds) :
    partitionCoefficients3DSerial Gi Gx layers cs = partitionCoefficients3DSerial Gi Gx layers ds := by
  unfold partitionCoefficients3DSerial
  rw [mapM_forall₂ h (fun a b hab => adjacencyCoefficient_same hab Gi.directed Gi.edges),
    mapM_forall₂ h (fun a b hab => adjacencyCoefficient_same hab Gx.directed Gx.edges)]
  congr 1
  funext A
  congr 1
  funext ec
  rw [mapM_forall₂ h (fun a b hab => nullModelCoefficient3D_same hab Gi layers ec)]

end
end Verif
