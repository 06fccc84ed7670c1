import Verif.Model.Calls
import Verif.Props.LouvainPart
import Verif.Props.Studies

/-!
# C117: calls through the deprecated names
-/

namespace Verif.Props

open Verif Verif.Spec

theorem bindKeyword_ok {α : Type} {sig : List (Param α)} (hsig : (sig.map Param.name).Nodup) {slots out : List (Option α)}
    {kv : String × α} : bindKeyword sig slots kv = .ok out ↔
      ∃ (i : Nat) (p : Param α), sig[i]? = some p ∧ p.name = kv.1 ∧ slots[i]? = some none ∧ out = slots.set i (some kv.2) := by
  have hinj : ∀ (i j : Nat) (p q : Param α), sig[i]? = some p → sig[j]? = some q → p.name = q.name → i = j := by
    intro i j p q hi hj h
    have hi' := (List.getElem?_eq_some_iff.1 hi).1
    refine (List.getElem?_inj (l := sig.map Param.name) (by simpa using hi') hsig).1 ?_
    rw [List.getElem?_map, List.getElem?_map, hi, hj, Option.map_some, Option.map_some, h]
  unfold bindKeyword
  constructor
  · intro h
    split at h
    · cases h
    · rename_i i hf
      rw [List.findIdx?_eq_some_iff_getElem] at hf
      obtain ⟨hi, hp, -⟩ := hf
      split at h
      · rename_i hs
        cases h
        exact ⟨i, sig[i], List.getElem?_eq_getElem hi, by simpa using hp, hs, rfl⟩
      · cases h
  · rintro ⟨i, p, hi, hp, hs, rfl⟩
    have hf : sig.findIdx? (fun p => p.name == kv.1) = some i := by
      obtain ⟨hi', hip⟩ := List.getElem?_eq_some_iff.1 hi
      rw [List.findIdx?_eq_some_iff_getElem]
      refine ⟨hi', by simp [hip, hp], fun j hj hc => ?_⟩
      have := hinj j i _ p (List.getElem?_eq_getElem (by omega)) hi (by simpa [hp] using hc)
      omega
    rw [hf]
    simp only [hs]

theorem bindKeyword_error {α : Type} {sig : List (Param α)} {slots : List (Option α)} {kv : String × α} {e : PyErr}
    (h : bindKeyword sig slots kv = .error e) : e = .typeError := by
  unfold bindKeyword at h
  split at h
  · cases h; rfl
  · split at h <;> cases h
    rfl

theorem bindKeywords_error {α : Type} {sig : List (Param α)} (kws : List (String × α)) : ∀ {slots : List (Option α)} {e : PyErr},
    kws.foldlM (bindKeyword sig) slots = .error e → e = .typeError := by
  induction kws with
  | nil => intro slots e h; cases h
  | cons kv kws ih =>
    intro slots e h
    rw [List.foldlM_cons] at h
    cases hb : bindKeyword sig slots kv with
    | error e' => rw [hb] at h; cases h; exact bindKeyword_error hb
    | ok s => rw [hb] at h; exact ih h

theorem bindKeywords_ok {α : Type} {sig : List (Param α)} (hsig : (sig.map Param.name).Nodup) (kws : List (String × α)) :
    ∀ {slots out : List (Option α)}, slots.length = sig.length → (kws.foldlM (bindKeyword sig) slots = .ok out ↔
      (kws.map Prod.fst).Nodup ∧
      (∀ k ∈ kws.map Prod.fst, ∃ (i : Nat) (p : Param α), sig[i]? = some p ∧ p.name = k ∧ slots[i]? = some none) ∧
      out.length = slots.length ∧
      ∀ (i : Nat) (p : Param α), sig[i]? = some p →
        (p.name ∉ kws.map Prod.fst → out[i]? = slots[i]?) ∧ ∀ v, (p.name, v) ∈ kws → out[i]? = some (some v)) := by
  have hinj : ∀ (i j : Nat) (p q : Param α), sig[i]? = some p → sig[j]? = some q → p.name = q.name → i = j := by
    intro i j p q hi hj h
    have hi' := (List.getElem?_eq_some_iff.1 hi).1
    refine (List.getElem?_inj (l := sig.map Param.name) (by simpa using hi') hsig).1 ?_
    rw [List.getElem?_map, List.getElem?_map, hi, hj, Option.map_some, Option.map_some, h]
  induction kws with
  | nil =>
    intro slots out hl
    constructor
    · intro h; cases h; simp
    · rintro ⟨-, -, h1, h2⟩
      have : out = slots := by
        refine List.ext_getElem? fun i => ?_
        by_cases hi : i < sig.length
        · exact (h2 i _ (List.getElem?_eq_getElem hi)).1 (by simp)
        · rw [List.getElem?_eq_none (by omega), List.getElem?_eq_none (by omega)]
      rw [this]; rfl
  | cons kv kws ih =>
    intro slots out hl
    rw [List.foldlM_cons]
    constructor
    · intro h
      obtain ⟨s, hs, h⟩ := Py.bind_ok.1 h
      obtain ⟨i, p, hi, hp, hsl, rfl⟩ := (bindKeyword_ok hsig).1 hs
      obtain ⟨h1, h2, h3, h4⟩ := (ih (by simpa using hl)).1 h
      have hilt : i < slots.length := (List.getElem?_eq_some_iff.1 hsl).1
      have hnew : kv.1 ∉ kws.map Prod.fst := by
        intro hm
        obtain ⟨j, q, hj, hq, hjs⟩ := h2 _ hm
        have := hinj i j p q hi hj (hp.trans hq.symm)
        subst this
        rw [List.getElem?_set_self hilt] at hjs
        cases hjs
      refine ⟨by simpa using ⟨by simpa using hnew, h1⟩, ?_, by simpa using h3, ?_⟩
      · intro k hk
        rcases List.mem_cons.1 hk with rfl | hk
        · exact ⟨i, p, hi, hp, hsl⟩
        · obtain ⟨j, q, hj, hq, hjs⟩ := h2 k hk
          refine ⟨j, q, hj, hq, ?_⟩
          by_cases hij : i = j
          · subst hij; rw [List.getElem?_set_self hilt] at hjs; cases hjs
          · rwa [List.getElem?_set_ne hij] at hjs
      · intro j q hj
        refine ⟨fun hn => ?_, fun v hv => ?_⟩
        · simp only [List.map_cons, List.mem_cons, not_or] at hn
          rw [(h4 j q hj).1 hn.2, List.getElem?_set_ne]
          rintro rfl
          rw [hi] at hj; cases hj
          exact hn.1 hp
        · rcases List.mem_cons.1 hv with hv | hv
          · subst hv
            have := hinj i j p q hi hj hp
            subst this
            rw [(h4 i q hj).1 hnew, List.getElem?_set_self hilt]
          · exact (h4 j q hj).2 v hv
    · rintro ⟨h1, h2, h3, h4⟩
      simp only [List.map_cons, List.nodup_cons] at h1
      obtain ⟨i, p, hi, hp, hsl⟩ := h2 kv.1 (by simp)
      have hilt : i < slots.length := (List.getElem?_eq_some_iff.1 hsl).1
      rw [(bindKeyword_ok hsig).2 ⟨i, p, hi, hp, hsl, rfl⟩, Py.ok_bind, ih (by simpa using hl)]
      refine ⟨h1.2, ?_, by simpa using h3, ?_⟩
      · intro k hk
        obtain ⟨j, q, hj, hq, hjs⟩ := h2 k (List.mem_cons_of_mem _ hk)
        refine ⟨j, q, hj, hq, ?_⟩
        rw [List.getElem?_set_ne, hjs]
        rintro rfl
        rw [hi] at hj; cases hj
        rw [← hp, hq] at h1
        exact h1.1 hk
      · intro j q hj
        refine ⟨fun hn => ?_, fun v hv => (h4 j q hj).2 v (List.mem_cons_of_mem _ hv)⟩
        by_cases hq : q.name = kv.1
        · have := hinj i j p q hi hj (hp.trans hq.symm)
          subst this
          rw [List.getElem?_set_self hilt]
          exact (h4 i q hj).2 kv.2 (by rw [hq]; simp)
        · rw [(h4 j q hj).1 (by simp only [List.map_cons, List.mem_cons, not_or]; exact ⟨hq, hn⟩), List.getElem?_set_ne]
          rintro rfl
          rw [hi] at hj; cases hj
          exact hq hp

theorem mapM_py_getElem? {α β : Type} {f : α → Py β} (l : List α) : ∀ {out : List β}, l.mapM f = .ok out ↔
    out.length = l.length ∧ ∀ (i : Nat) (a : α), l[i]? = some a → ∃ b, f a = .ok b ∧ out[i]? = some b := by
  induction l with
  | nil =>
    intro out
    constructor
    · intro h; cases h; simp
    · rintro ⟨h, -⟩
      rw [List.length_nil, List.length_eq_zero_iff] at h
      subst h; rfl
  | cons a l ih =>
    intro out
    rw [List.mapM_cons]
    constructor
    · intro h
      obtain ⟨b, hb, h⟩ := Py.bind_ok.1 h
      obtain ⟨bs, hbs, h⟩ := Py.bind_ok.1 h
      cases h
      obtain ⟨h1, h2⟩ := ih.1 hbs
      refine ⟨by simp [h1], fun i x hx => ?_⟩
      cases i with
      | zero => cases hx; exact ⟨b, hb, rfl⟩
      | succ i => exact h2 i x hx
    · rintro ⟨h1, h2⟩
      cases out with
      | nil => simp at h1
      | cons b bs =>
        obtain ⟨b', hb', h3⟩ := h2 0 a rfl
        cases h3
        rw [hb', Py.ok_bind, ih.2 ⟨by simpa using h1, fun i x hx => h2 (i + 1) x hx⟩]
        rfl

theorem mapM_bindDefault_error {α : Type} (l : List (Param α × Option α)) : ∀ {e : PyErr}, l.mapM bindDefault = .error e →
    e = .typeError := by
  induction l with
  | nil => intro e h; cases h
  | cons a l ih =>
    intro e h
    rw [List.mapM_cons] at h
    cases hb : bindDefault a with
    | error e' =>
      rw [hb] at h; cases h
      unfold bindDefault at hb
      split at hb
      · cases hb
      · split at hb <;> cases hb
        rfl
    | ok b =>
      rw [hb, Py.ok_bind] at h
      cases hl : l.mapM bindDefault with
      | error e' => rw [hl] at h; cases h; exact ih hl
      | ok bs => rw [hl] at h; cases h

theorem bindArgs_error {α : Type} {sig : List (Param α)} {pos : List α} {kws : List (String × α)} {e : PyErr}
    (h : bindArgs sig pos kws = .error e) : e = .typeError := by
  unfold bindArgs at h
  cases hf : kws.foldlM (bindKeyword sig) ((List.range sig.length).map fun i => pos[i]?) with
  | error e' => rw [hf] at h; cases h; exact bindKeywords_error kws hf
  | ok s =>
    rw [hf, Py.ok_bind] at h
    split at h
    · cases h; rfl
    · exact mapM_bindDefault_error _ h

/-- **C117 (binding).** For a function whose parameters have different names, a call goes through exactly if its arguments can be
bound to the parameters, and the parameters then have exactly these values; every other call is a `TypeError`. -/
theorem c117_bind {α : Type} {sig : List (Param α)} (hsig : (sig.map Param.name).Nodup) (pos : List α) (kws : List (String × α)) :
    (∀ vals, bindArgs sig pos kws = .ok vals ↔ Binds sig pos kws vals) ∧
    ((∀ vals, ¬ Binds sig pos kws vals) → bindArgs sig pos kws = .error .typeError) := by
  have hmain : ∀ vals, bindArgs sig pos kws = .ok vals ↔ Binds sig pos kws vals := by
    intro vals
    have hslot : ∀ (i : Nat) (p : Param α), sig[i]? = some p →
        ((List.range sig.length).map fun i => pos[i]?)[i]? = some pos[i]? := by
      intro i p hi
      rw [List.getElem?_map, List.getElem?_range (List.getElem?_eq_some_iff.1 hi).1]; rfl
    unfold bindArgs
    constructor
    · intro h
      obtain ⟨slots, hs, h⟩ := Py.bind_ok.1 h
      obtain ⟨h1, h2, h3, h4⟩ := (bindKeywords_ok hsig kws (by simp)).1 hs
      split at h
      · cases h
      rename_i hlen
      obtain ⟨h5, h6⟩ := (mapM_py_getElem? _).1 h
      have hl : slots.length = sig.length := by simpa using h3
      refine ⟨by omega, h1, ?_, by simpa [hl] using h5, ?_⟩
      · intro k hk
        obtain ⟨i, p, hi, hp, hn⟩ := h2 k hk
        rw [hslot i p hi] at hn
        refine ⟨i, p, ?_, hi, hp⟩
        simpa using hn
      · intro i p hi
        have hi' := (List.getElem?_eq_some_iff.1 hi).1
        obtain ⟨b, hb, hv⟩ := h6 i (p, slots[i]'(by omega)) (by
          rw [List.getElem?_zip_eq_some]; exact ⟨hi, List.getElem?_eq_getElem _⟩)
        have hsl : slots[i]? = some (slots[i]'(by omega)) := List.getElem?_eq_getElem _
        obtain ⟨h7, h8⟩ := h4 i p hi
        by_cases hk : p.name ∈ kws.map Prod.fst
        · obtain ⟨j, q, hj, hq, hn⟩ := h2 _ hk
          have : i = j := by
            refine (List.getElem?_inj (l := sig.map Param.name) (by simpa using hi') hsig).1 ?_
            rw [List.getElem?_map, List.getElem?_map, hi, hj, Option.map_some, Option.map_some, hq]
          subst this
          rw [hslot i p hi] at hn
          obtain ⟨kv, hkv, hkv'⟩ := List.mem_map.1 hk
          refine .inr (.inl ⟨by simpa using hn, kv.2, by rw [← hkv']; exact hkv, ?_⟩)
          have := h8 kv.2 (by rw [← hkv']; exact hkv)
          rw [hsl] at this
          cases this' : slots[i]'(by omega) with
          | none => rw [this'] at this; cases this
          | some w =>
            rw [this'] at this hb
            cases this
            cases hb
            exact hv
        · have := h7 hk
          rw [hslot i p hi, hsl] at this
          have this : slots[i]'(by omega) = pos[i]? := by simpa using this
          rw [this] at hb
          by_cases hip : i < pos.length
          · refine .inl ⟨hip, ?_⟩
            rw [List.getElem?_eq_getElem hip] at hb ⊢
            cases hb; exact hv
          · rw [List.getElem?_eq_none (by omega)] at hb
            refine .inr (.inr ⟨by omega, hk, ?_⟩)
            cases hd : p.default with
            | none => simp [bindDefault, hd] at hb
            | some d =>
              simp only [bindDefault, hd] at hb
              cases hb
              exact ⟨_, rfl, hv⟩
    · intro h
      -- the slots
      let slots : List (Option α) := sig.zipIdx.map fun pi => if pi.2 < pos.length then pos[pi.2]? else
        (kws.find? fun kv => kv.1 == pi.1.name).map Prod.snd
      have hget : ∀ (i : Nat) (p : Param α), sig[i]? = some p → slots[i]? = some (if i < pos.length then pos[i]? else
          (kws.find? fun kv => kv.1 == p.name).map Prod.snd) := by
        intro i p hi
        simp only [slots, List.getElem?_map, List.getElem?_zipIdx, hi, Option.map_some, Nat.zero_add]
      have huniq : ∀ k v w, (k, v) ∈ kws → (k, w) ∈ kws → v = w := by
        intro k v w hv hw
        have := List.inj_on_of_nodup_map h.distinct hv hw rfl
        cases this; rfl
      have hfind : ∀ k v, (k, v) ∈ kws → kws.find? (fun kv => kv.1 == k) = some (k, v) := by
        intro k v hv
        cases hf : kws.find? (fun kv => kv.1 == k) with
        | none => rw [List.find?_eq_none] at hf; exact absurd (hf _ hv) (by simp)
        | some x =>
          have h1 := List.find?_some hf
          have h2 := List.mem_of_find?_eq_some hf
          obtain ⟨a, b⟩ := x
          simp only [beq_iff_eq] at h1
          subst h1
          rw [huniq _ _ _ hv h2]
      have hfindn : ∀ k, k ∉ kws.map Prod.fst → kws.find? (fun kv => kv.1 == k) = none := by
        intro k hk
        rw [List.find?_eq_none]
        intro x hx hxk
        simp only [beq_iff_eq] at hxk
        exact hk (List.mem_map.2 ⟨x, hx, hxk⟩)
      have hfold : kws.foldlM (bindKeyword sig) ((List.range sig.length).map fun i => pos[i]?) = .ok slots := by
        rw [bindKeywords_ok hsig kws (by simp)]
        refine ⟨h.distinct, ?_, by simp [slots], ?_⟩
        · intro k hk
          obtain ⟨i, p, h1, h2, h3⟩ := h.known k hk
          exact ⟨i, p, h2, h3, by rw [hslot i p h2, List.getElem?_eq_none h1]⟩
        · intro i p hi
          rw [hget i p hi, hslot i p hi]
          refine ⟨fun hk => ?_, fun v hv => ?_⟩
          · split
            · rfl
            · rw [hfindn _ hk, List.getElem?_eq_none (by omega)]; rfl
          · have hk : p.name ∈ kws.map Prod.fst := List.mem_map.2 ⟨_, hv, rfl⟩
            obtain ⟨j, q, h1, h2, h3⟩ := h.known _ hk
            have : i = j := by
              refine (List.getElem?_inj (l := sig.map Param.name) (by simpa using (List.getElem?_eq_some_iff.1 hi).1) hsig).1 ?_
              rw [List.getElem?_map, List.getElem?_map, hi, h2, Option.map_some, Option.map_some, h3]
            subst this
            rw [if_neg (by omega), hfind _ _ hv]; rfl
      rw [hfold, Py.ok_bind, if_neg (by have := h.notTooMany; omega), mapM_py_getElem?]
      refine ⟨by simp [slots, h.length], ?_⟩
      rintro i ⟨p, s⟩ hps
      rw [List.getElem?_zip_eq_some] at hps
      obtain ⟨hi, hs⟩ := hps
      rw [hget i p hi] at hs
      have hs : (if i < pos.length then pos[i]? else (kws.find? fun kv => kv.1 == p.name).map Prod.snd) = s := by simpa using hs
      rcases h.value i p hi with ⟨h1, h2⟩ | ⟨h1, v, hv, h2⟩ | ⟨h1, hk, d, hd, h2⟩
      · rw [if_pos h1, List.getElem?_eq_getElem h1] at hs
        subst hs
        exact ⟨_, rfl, by rw [h2, List.getElem?_eq_getElem h1]⟩
      · rw [if_neg (by omega), hfind _ _ hv] at hs
        subst hs
        exact ⟨v, rfl, h2⟩
      · rw [if_neg (by omega), hfindn _ hk] at hs
        subst hs
        exact ⟨d, by simp [bindDefault, hd], h2⟩
  refine ⟨hmain, fun h => ?_⟩
  cases hb : bindArgs sig pos kws with
  | ok vals => exact absurd ((hmain vals).1 hb) (h vals)
  | error e => rw [bindArgs_error hb]

/-- The single-layer functions: deprecated names and present names (`/repo/utilities/leiden_utilities.py`). -/
def singleLayerNames : List (String × String) :=
  [("louvain_part", "leiden_part"), ("louvain_part_with_membership", "leiden_part_with_membership"),
   ("repeated_louvain_from_gammas", "repeated_leiden_from_gammas"),
   ("repeated_parallel_louvain_from_gammas", "repeated_parallel_leiden_from_gammas"),
   ("singlelayer_louvain", "singlelayer_leiden")]

/-- The multilayer functions, which keep their names. -/
def multilayerNames : List String :=
  ["multilayer_louvain", "multilayer_louvain_part", "multilayer_louvain_part_with_membership", "repeated_louvain_from_gammas_omegas",
   "repeated_parallel_louvain_from_gammas_omegas"]

theorem leidenSignatures_nodup {s : String × List (Param Arg)} (hs : s ∈ leidenSignatures) : (s.2.map Param.name).Nodup := by
  simp only [leidenSignatures, List.mem_cons, List.not_mem_nil, or_false] at hs
  rcases hs with rfl | rfl | rfl | rfl | rfl | rfl | rfl | rfl | rfl | rfl | rfl | rfl | rfl | rfl | rfl <;>
    simp [required, optional]

theorem louvainSignatures_nodup {s : String × List (Param Arg)} (hs : s ∈ louvainSignatures) : (s.2.map Param.name).Nodup := by
  simp only [louvainSignatures, List.mem_cons, List.not_mem_nil, or_false] at hs
  rcases hs with rfl | rfl | rfl | rfl | rfl | rfl | rfl <;>
    simp [required, optional]

theorem singleLayer_getattr (inst : LouvainInstallation) : ∀ n ∈ singleLayerNames,
    louvainGetattr (louvainOwnNames inst) leidenNames n.1.toList = .ok (.leiden n.2.toList) := by
  cases inst <;> decide +kernel

theorem multilayer_getattr (inst : LouvainInstallation) : ∀ n ∈ multilayerNames,
    louvainGetattr (louvainOwnNames inst) leidenNames n.toList = .ok (.own n.toList) := by
  cases inst <;> decide +kernel

theorem signatureOf_ok {sigs : List (String × List (Param Arg))} (hsigs : (sigs.map Prod.fst).Nodup) {s : String × List (Param Arg)}
    (hs : s ∈ sigs) : signatureOf sigs s.1.toList = .ok s.2 := by
  unfold signatureOf
  cases hf : sigs.find? (fun t => t.1.toList == s.1.toList) with
  | none => rw [List.find?_eq_none] at hf; exact absurd (hf _ hs) (by simp)
  | some t =>
    have h1 := List.find?_some hf
    have h2 := List.mem_of_find?_eq_some hf
    have h3 : t.1 = s.1 := String.toList_inj.1 (by simpa using h1)
    rw [List.inj_on_of_nodup_map hsigs h2 hs h3]

theorem bindArgs_call {sig : List (Param Arg)} {pos : List Arg} {kws : List (String × Arg)} {attr : Attr} {r : Attr × List Arg} :
    (do let args ← bindArgs sig pos kws; return (attr, args) : Py (Attr × List Arg)) = .ok r ↔
      r.1 = attr ∧ bindArgs sig pos kws = .ok r.2 := by
  rw [Py.bind_ok]
  constructor
  · rintro ⟨a, ha, h⟩; cases h; exact ⟨rfl, ha⟩
  · rintro ⟨h1, h2⟩; exact ⟨r.2, h2, by rw [← h1]; rfl⟩

/-- **C117 (deprecated single-layer names).** In every installation a call through the old name of a single-layer function reaches the
Leiden function, goes through exactly if the Leiden function takes these arguments, and its parameters then have these values. -/
theorem c117_shimmed (inst : LouvainInstallation) {old new : String} (hn : (old, new) ∈ singleLayerNames) {sig : List (Param Arg)}
    (hs : (new, sig) ∈ leidenSignatures) (pos : List Arg) (kws : List (String × Arg)) :
    (∀ r, callDeprecated inst old pos kws = .ok r ↔ r.1 = .leiden new.toList ∧ Binds sig pos kws r.2) ∧
    ((∀ vals, ¬ Binds sig pos kws vals) → callDeprecated inst old pos kws = .error .typeError) := by
  have hcall : callDeprecated inst old pos kws =
      (do let args ← bindArgs sig pos kws; return (.leiden new.toList, args) : Py (Attr × List Arg)) := by
    unfold callDeprecated
    rw [singleLayer_getattr inst _ hn, Py.ok_bind]
    simp only
    rw [signatureOf_ok (by decide +kernel) hs]
    rfl
  obtain ⟨h1, h2⟩ := c117_bind (leidenSignatures_nodup hs) pos kws
  refine ⟨fun r => ?_, fun h => ?_⟩
  · rw [hcall, bindArgs_call, h1]
  · rw [hcall, h2 h]; rfl

/-- **C117 (deprecated multilayer names).** The multilayer names still reach the legacy function of that name, with the legacy
parameters. -/
theorem c117_multilayer (inst : LouvainInstallation) {name : String} (hn : name ∈ multilayerNames) {sig : List (Param Arg)}
    (hs : (name, sig) ∈ louvainSignatures) (pos : List Arg) (kws : List (String × Arg)) :
    (∀ r, callDeprecated inst name pos kws = .ok r ↔ r.1 = .own name.toList ∧ Binds sig pos kws r.2) ∧
    ((∀ vals, ¬ Binds sig pos kws vals) → callDeprecated inst name pos kws = .error .typeError) := by
  have hcall : callDeprecated inst name pos kws =
      (do let args ← bindArgs sig pos kws; return (.own name.toList, args) : Py (Attr × List Arg)) := by
    unfold callDeprecated
    rw [multilayer_getattr inst _ hn, Py.ok_bind]
    simp only
    rw [signatureOf_ok (by decide +kernel) hs]
    rfl
  obtain ⟨h1, h2⟩ := c117_bind (louvainSignatures_nodup hs) pos kws
  refine ⟨fun r => ?_, fun h => ?_⟩
  · rw [hcall, bindArgs_call, h1]
  · rw [hcall, h2 h]; rfl

/-- **C117 (the dropped parameter).** No call through an old single-layer name that passes `chunk_dispatch` goes through. -/
theorem c117_chunk_dispatch (inst : LouvainInstallation) {old new : String} (hn : (old, new) ∈ singleLayerNames) (pos : List Arg)
    {kws : List (String × Arg)} (hk : "chunk_dispatch" ∈ kws.map Prod.fst) :
    callDeprecated inst old pos kws = .error .typeError := by
  have hnot : ∀ sig : List (Param Arg), (new, sig) ∈ leidenSignatures → ∀ p ∈ sig, p.name ≠ "chunk_dispatch" := by
    intro sig hs p hp
    simp only [leidenSignatures, List.mem_cons, List.not_mem_nil, or_false, Prod.mk.injEq] at hs
    rcases hs with ⟨-, rfl⟩ | ⟨-, rfl⟩ | ⟨-, rfl⟩ | ⟨-, rfl⟩ | ⟨-, rfl⟩ | ⟨-, rfl⟩ | ⟨-, rfl⟩ | ⟨-, rfl⟩ | ⟨-, rfl⟩ | ⟨-, rfl⟩ |
      ⟨-, rfl⟩ | ⟨-, rfl⟩ | ⟨-, rfl⟩ | ⟨-, rfl⟩ | ⟨-, rfl⟩ <;>
      (revert p; simp [required, optional])
  have hex : ∃ sig, (new, sig) ∈ leidenSignatures := by
    simp only [singleLayerNames, List.mem_cons, List.not_mem_nil, or_false, Prod.mk.injEq] at hn
    rcases hn with ⟨-, rfl⟩ | ⟨-, rfl⟩ | ⟨-, rfl⟩ | ⟨-, rfl⟩ | ⟨-, rfl⟩ <;> simp [leidenSignatures]
  obtain ⟨sig, hs⟩ := hex
  refine (c117_shimmed inst hn hs pos kws).2 fun vals hb => ?_
  obtain ⟨i, p, -, hi, hp⟩ := hb.known _ hk
  exact hnot sig hs p (List.mem_of_getElem? hi) hp

/-- **C117 (the experiments).** Every call of the experiments through the deprecated module goes through, for all arguments of the kinds
that occur, except the call in `hierarchical_SBM_test.py` and `runtime_comparison_with_louvain.py`, which is a `TypeError` for every
graph and all resolution parameters. -/
theorem c117_sites (inst : LouvainInstallation) (G Gi Gx : Graph ℝ) (γ : ℝ) (γs ωs : List ℝ) (layers part : List Nat) :
    (∀ s ∈ workingCallSites G Gi Gx γ γs ωs layers part, ∃ r, callDeprecated inst s.1 s.2.1 s.2.2 = .ok r) ∧
    callDeprecated inst (staleCallSite G γs).1 (staleCallSite G γs).2.1 (staleCallSite G γs).2.2 = .error .typeError := by
  constructor
  · intro s hs
    have hown : louvainGetattr (louvainOwnNames inst) leidenNames "sorted_tuple".toList = .ok (.own "sorted_tuple".toList) := by
      cases inst <;> decide +kernel
    simp only [workingCallSites, List.mem_cons, List.not_mem_nil, or_false] at hs
    rcases hs with rfl | rfl | rfl | rfl | rfl | rfl | rfl | rfl <;> unfold callDeprecated
    · rw [singleLayer_getattr inst ("repeated_parallel_louvain_from_gammas", "repeated_parallel_leiden_from_gammas")
        (by simp [singleLayerNames])]
      exact ⟨_, rfl⟩
    · rw [singleLayer_getattr inst ("repeated_louvain_from_gammas", "repeated_leiden_from_gammas") (by simp [singleLayerNames])]
      exact ⟨_, rfl⟩
    · rw [singleLayer_getattr inst ("repeated_parallel_louvain_from_gammas", "repeated_parallel_leiden_from_gammas")
        (by simp [singleLayerNames])]
      exact ⟨_, rfl⟩
    · rw [multilayer_getattr inst "repeated_parallel_louvain_from_gammas_omegas" (by simp [multilayerNames])]
      exact ⟨_, rfl⟩
    · rw [hown]
      exact ⟨_, rfl⟩
    · rw [singleLayer_getattr inst ("louvain_part_with_membership", "leiden_part_with_membership") (by simp [singleLayerNames])]
      exact ⟨_, rfl⟩
    · rw [singleLayer_getattr inst ("singlelayer_louvain", "singlelayer_leiden") (by simp [singleLayerNames])]
      exact ⟨_, rfl⟩
    · rw [multilayer_getattr inst "repeated_parallel_louvain_from_gammas_omegas" (by simp [multilayerNames])]
      exact ⟨_, rfl⟩
  · exact c117_chunk_dispatch inst (new := "repeated_parallel_leiden_from_gammas") (by simp [singleLayerNames, staleCallSite]) _
      (by simp [staleCallSite])

/-- **C117 (the hierarchical study).** With the call as committed no Louvain run of the study takes place: the search for an example
ends at its first graph and the stability probabilities end at their first trial, with a `TypeError`, whatever the graphs, the
installation and the optimiser. -/
theorem c117_hierarchical (env : PruneEnv) (inst : LouvainInstallation) (run : Nat → Attr × List Arg → Run (List (List Nat)))
    (graphs : Nat → Graph ℝ) :
    (∀ i γ₀ γf iters, hierarchicalRunLouvain inst (run i) (graphs i) γ₀ γf iters =
      (some (.error .typeError) : Option (Except PyErr _))) ∧
    (∀ fuel i, exampleSearch (hierarchicalTrial env inst run graphs) (fuel + 1) i =
      (some (.error .typeError) : Option (Except PyErr _))) ∧
    (∀ trials, 0 < trials → stabilityProbabilities trials (hierarchicalTrial env inst run graphs) =
      (some (.error .typeError) : Option (Except PyErr _))) := by
  have h1 : ∀ i γ₀ γf iters, hierarchicalRunLouvain inst (run i) (graphs i) γ₀ γf iters =
      (some (.error .typeError) : Option (Except PyErr _)) := by
    intro i γ₀ γf iters
    unfold hierarchicalRunLouvain
    simp only
    rw [(c117_sites inst (graphs i) (graphs i) (graphs i) 0 (linspace γ₀ γf iters) [] [] []).2]
    rfl
  have h2 : ∀ i, hierarchicalTrial env inst run graphs i = (some (.error .typeError) : Option (Except PyErr _)) := by
    intro i
    unfold hierarchicalTrial
    rw [h1]; rfl
  refine ⟨h1, fun fuel i => ?_, fun trials ht => ?_⟩
  · unfold exampleSearch
    rw [h2]; rfl
  · obtain ⟨n, rfl⟩ : ∃ n, trials = n + 1 := ⟨trials - 1, by omega⟩
    unfold stabilityProbabilities tallyTrials
    rw [h2]; rfl

/-- **C117 (the runtime comparison as committed).** It ends with a `TypeError` unless no number of runs is asked for. -/
theorem c117_runtimes_stale (inst : LouvainInstallation) (run : Nat → Attr × List Arg → Run (List (List Nat)))
    (prune : Nat → Graph ℝ → List (List Nat) → ℝ → ℝ → Run (List (List Nat))) (clock : Nat → ℝ) (G : Graph ℝ) (ns : List Nat) :
    generateRuntimes inst staleKeywords run prune clock G 0 ns =
      (some (if ns = [] then .ok ([], [], []) else .error .typeError) : Option (Except PyErr _)) := by
  cases ns with
  | nil => rfl
  | cons n ns =>
    unfold generateRuntimes
    rw [c117_chunk_dispatch inst (new := "repeated_parallel_leiden_from_gammas") (by simp [singleLayerNames]) _
      (by simp [staleKeywords])]
    rfl

/-- **C117 (the runtime comparison without the dropped parameter).** It finishes exactly if every run and every pruning does; the three
lists have one entry per number of runs: the two durations and the number of distinct partitions found by that many runs. -/
theorem c117_runtimes (inst : LouvainInstallation) (run : Nat → Attr × List Arg → Run (List (List Nat)))
    (prune : Nat → Graph ℝ → List (List Nat) → ℝ → ℝ → Run (List (List Nat))) (clock : Nat → ℝ) (G : Graph ℝ) (ns : List Nat)
    (out : List ℝ × List ℝ × List Nat) :
    generateRuntimes inst [("show_progress", .bool false)] run prune clock G 0 ns = (some (.ok out) : Option (Except PyErr _)) ↔
      ∃ parts : Nat → List (List Nat),
        (∀ (j n : Nat), ns[j]? = some n →
          run j (.leiden "repeated_parallel_leiden_from_gammas".toList, [.graph G, .numbers (linspace 0 3 n), .bool false]) =
            (some (.ok (parts j)) : Option (Except PyErr _)) ∧
          ∃ stable, prune j G (parts j) 0 3 = (some (.ok stable) : Option (Except PyErr _))) ∧
        out = ((List.range ns.length).map (fun j => clock (4 * j + 1) - clock (4 * j)),
          (List.range ns.length).map (fun j => clock (4 * j + 3) - clock (4 * j + 2)),
          (List.range ns.length).map fun j => (parts j).length) := by
  have hcall : ∀ n, callDeprecated inst "repeated_parallel_louvain_from_gammas" [.graph G, .numbers (linspace 0 3 n)]
      [("show_progress", .bool false)] =
      .ok (.leiden "repeated_parallel_leiden_from_gammas".toList, [.graph G, .numbers (linspace 0 3 n), .bool false]) := by
    intro n
    unfold callDeprecated
    rw [singleLayer_getattr inst ("repeated_parallel_louvain_from_gammas", "repeated_parallel_leiden_from_gammas")
      (by simp [singleLayerNames])]
    rfl
  have hgen : ∀ (ns : List Nat) (i : Nat) (out : List ℝ × List ℝ × List Nat),
      generateRuntimes inst [("show_progress", .bool false)] run prune clock G i ns = (some (.ok out) : Option (Except PyErr _)) ↔
      ∃ parts : Nat → List (List Nat),
        (∀ (j n : Nat), ns[j]? = some n →
          run (i + j) (.leiden "repeated_parallel_leiden_from_gammas".toList, [.graph G, .numbers (linspace 0 3 n), .bool false]) =
            (some (.ok (parts j)) : Option (Except PyErr _)) ∧
          ∃ stable, prune (i + j) G (parts j) 0 3 = (some (.ok stable) : Option (Except PyErr _))) ∧
        out = ((List.range ns.length).map (fun j => clock (4 * (i + j) + 1) - clock (4 * (i + j))),
          (List.range ns.length).map (fun j => clock (4 * (i + j) + 3) - clock (4 * (i + j) + 2)),
          (List.range ns.length).map fun j => (parts j).length) := by
    intro ns
    induction ns with
    | nil =>
      intro i out
      constructor
      · intro h
        cases h
        exact ⟨fun _ => [], by simp, rfl⟩
      · rintro ⟨parts, -, rfl⟩; rfl
    | cons n ns ih =>
      intro i out
      unfold generateRuntimes
      rw [hcall, Run.bind_ok]
      constructor
      · rintro ⟨f, hf, h⟩
        cases hf
        obtain ⟨ps, hps, h⟩ := Run.bind_ok.1 h
        obtain ⟨st, hst, h⟩ := Run.bind_ok.1 h
        obtain ⟨rest, hr, h⟩ := Run.bind_ok.1 h
        cases h
        obtain ⟨parts, h1, h2⟩ := (ih (i + 1) rest).1 hr
        refine ⟨fun j => if j = 0 then ps else parts (j - 1), ?_, ?_⟩
        · intro j m hj
          cases j with
          | zero => cases hj; exact ⟨hps, st, hst⟩
          | succ j =>
            have := h1 j m hj
            rw [show i + 1 + j = i + (j + 1) by omega] at this
            simpa using this
        · subst h2
          simp only [List.length_cons, List.range_succ_eq_map, List.map_cons, List.map_map, Nat.add_zero]
          refine Prod.ext ?_ (Prod.ext ?_ ?_)
          · simp only [List.cons.injEq, true_and]
            refine List.map_congr_left fun j _ => ?_
            simp only [Function.comp]
            rw [show i + 1 + j = i + (j + 1) by omega]
          · simp only [List.cons.injEq, true_and]
            refine List.map_congr_left fun j _ => ?_
            simp only [Function.comp]
            rw [show i + 1 + j = i + (j + 1) by omega]
          · simp [Function.comp]
      · rintro ⟨parts, h1, rfl⟩
        obtain ⟨h2, st, h3⟩ := h1 0 n rfl
        refine ⟨_, rfl, ?_⟩
        rw [Run.bind_ok]
        refine ⟨parts 0, h2, ?_⟩
        rw [Run.bind_ok]
        refine ⟨st, h3, ?_⟩
        rw [Run.bind_ok]
        refine ⟨_, (ih (i + 1) _).2 ⟨fun j => parts (j + 1), fun j m hj => ?_, rfl⟩, ?_⟩
        · have := h1 (j + 1) m hj
          rwa [show i + (j + 1) = i + 1 + j by omega] at this
        · simp only [List.length_cons, List.range_succ_eq_map, List.map_cons, List.map_map, Nat.add_zero]
          refine congrArg some (congrArg Except.ok (Prod.ext ?_ (Prod.ext ?_ ?_)))
          · simp only [List.cons.injEq, true_and]
            refine List.map_congr_left fun j _ => ?_
            simp only [Function.comp]
            rw [show i + 1 + j = i + (j + 1) by omega]
          · simp only [List.cons.injEq, true_and]
            refine List.map_congr_left fun j _ => ?_
            simp only [Function.comp]
            rw [show i + 1 + j = i + (j + 1) by omega]
          · simp [Function.comp]
  have := hgen ns 0 out
  simpa only [Nat.zero_add] using this

theorem benchmarkLoop_some {timeout : ℝ} {ours champs : Nat → ℝ} : ∀ (fuel i : Nat) (our last : ℝ) (iters : Nat)
    {r : List Nat × List ℝ × List ℝ}, benchmarkLoop timeout ours champs fuel i our last iters = some r →
    ∃ m q : Nat,
      (m = 0 ↔ timeout ≤ our) ∧ (∀ k, k + 1 < m → ours (i + k) < timeout) ∧ (∀ k, k + 1 = m → timeout ≤ ours (i + k)) ∧
      r.1.length = m ∧ (∀ x, r.1[0]? = some x → x = iters) ∧ (∀ (k x y : Nat), r.1[k]? = some x → r.1[k + 1]? = some y → y = 3 * x / 2) ∧
      r.2.1 = (List.range m).map (fun k => ours (i + k)) ∧
      q ≤ m ∧ r.2.2 = (List.range q).map (fun k => champs (i + k)) ∧ (∀ k, k + 1 < q → champs (i + k) < timeout) ∧
      (q < m → (if q = 0 then timeout ≤ last else timeout ≤ champs (i + (q - 1)))) ∧ (timeout ≤ last → q = 0) := by
  intro fuel
  induction fuel with
  | zero =>
    intro i our last iters r h
    unfold benchmarkLoop at h
    split at h
    · cases h
    · cases h
      exact ⟨0, 0, by simpa using (not_lt.1 ‹_›), by simp, by simp, rfl, by simp, by simp, rfl, le_rfl, rfl, by simp, by simp, by simp⟩
  | succ fuel ih =>
    intro i our last iters r h
    unfold benchmarkLoop at h
    split at h
    · rename_i hour
      simp only at h
      split at h
      · rename_i hlast
        obtain ⟨s, hs, rfl⟩ := Option.map_eq_some_iff.1 h
        obtain ⟨m, q, a1, a2, a3, a4, a5, a6, a7, a8, a9, a10, a11, a12⟩ := ih _ _ _ _ hs
        refine ⟨m + 1, q + 1, ⟨fun h => absurd h (by omega), fun h => absurd hour (not_lt.2 h)⟩, ?_, ?_, by simp [a4], ?_, ?_, ?_,
          by omega, ?_, ?_, ?_, fun h => absurd hlast (not_lt.2 h)⟩
        · intro k hk
          cases k with
          | zero => exact not_le.1 fun h => absurd (a1.2 h) (by omega)
          | succ k => have := a2 k (by omega); rwa [show i + 1 + k = i + (k + 1) by omega] at this
        · intro k hk
          cases k with
          | zero => exact a1.1 (by omega)
          | succ k => have := a3 k (by omega); rwa [show i + 1 + k = i + (k + 1) by omega] at this
        · intro x hx; simpa using hx.symm
        · intro k x y hx hy
          cases k with
          | zero =>
            have hx : iters = x := by simpa using hx
            have := a5 y (by simpa using hy)
            omega
          | succ k => exact a6 k x y (by simpa using hx) (by simpa using hy)
        · rw [a7, List.range_succ_eq_map, List.map_cons, List.map_map]
          simp only [Nat.add_zero, List.cons.injEq, true_and]
          exact List.map_congr_left fun k _ => by simp only [Function.comp]; rw [show i + 1 + k = i + (k + 1) by omega]
        · rw [a9, List.range_succ_eq_map, List.map_cons, List.map_map]
          simp only [Nat.add_zero, List.cons.injEq, true_and]
          exact List.map_congr_left fun k _ => by simp only [Function.comp]; rw [show i + 1 + k = i + (k + 1) by omega]
        · intro k hk
          cases k with
          | zero => exact not_le.1 fun h => absurd (a12 h) (by omega)
          | succ k => have := a10 k (by omega); rwa [show i + 1 + k = i + (k + 1) by omega] at this
        · intro hq
          rw [if_neg (by omega)]
          have := a11 (by omega)
          split at this
          · rename_i h0; subst h0; simpa using this
          · rwa [show i + 1 + (q - 1) = i + (q + 1 - 1) by omega] at this
      · rename_i hlast
        obtain ⟨s, hs, rfl⟩ := Option.map_eq_some_iff.1 h
        obtain ⟨m, q, a1, a2, a3, a4, a5, a6, a7, a8, a9, a10, a11, a12⟩ := ih _ _ _ _ hs
        have hq0 := a12 (not_lt.1 hlast)
        subst hq0
        refine ⟨m + 1, 0, ⟨fun h => absurd h (by omega), fun h => absurd hour (not_lt.2 h)⟩, ?_, ?_, by simp [a4], ?_, ?_, ?_,
          by omega, by simpa using a9, by simp, by simpa using hlast, by simp⟩
        · intro k hk
          cases k with
          | zero => exact not_le.1 fun h => absurd (a1.2 h) (by omega)
          | succ k => have := a2 k (by omega); rwa [show i + 1 + k = i + (k + 1) by omega] at this
        · intro k hk
          cases k with
          | zero => exact a1.1 (by omega)
          | succ k => have := a3 k (by omega); rwa [show i + 1 + k = i + (k + 1) by omega] at this
        · intro x hx; simpa using hx.symm
        · intro k x y hx hy
          cases k with
          | zero =>
            have hx : iters = x := by simpa using hx
            have := a5 y (by simpa using hy)
            omega
          | succ k => exact a6 k x y (by simpa using hx) (by simpa using hy)
        · rw [a7, List.range_succ_eq_map, List.map_cons, List.map_map]
          simp only [Nat.add_zero, List.cons.injEq, true_and]
          exact List.map_congr_left fun k _ => by simp only [Function.comp]; rw [show i + 1 + k = i + (k + 1) by omega]
    · cases h
      exact ⟨0, 0, by simpa using (not_lt.1 ‹_›), by simp, by simp, rfl, by simp, by simp, rfl, le_rfl, rfl, by simp, by simp, by simp⟩

/-- **C117 (the benchmark).** When the benchmark ends it made exactly the passes up to the first that took at least the time limit (none
if the limit is not positive): the numbers of runs start with the given one and grow to the integer part of three halves each pass; our
times are those of all passes, CHAMP's those of the passes up to its first that took at least the limit. -/
theorem c117_benchmark {timeout : ℝ} {ours champs : Nat → ℝ} {iters fuel : Nat} {xs : List Nat} {ys1 ys2 : List ℝ}
    (h : simpleBenchmark timeout ours champs iters fuel = some (xs, ys1, ys2)) :
    (xs = [] ↔ timeout ≤ 0) ∧ (∀ x, xs[0]? = some x → x = iters) ∧
    (∀ (k x y : Nat), xs[k]? = some x → xs[k + 1]? = some y → y = 3 * x / 2) ∧
    (∀ k, k + 1 < xs.length → ours k < timeout) ∧ (∀ k, k + 1 = xs.length → timeout ≤ ours k) ∧
    ys1 = (List.range xs.length).map ours ∧
    ys2 = (List.range ys2.length).map champs ∧ ys2.length ≤ xs.length ∧ (∀ k, k + 1 < ys2.length → champs k < timeout) ∧
    (ys2.length < xs.length → 0 < ys2.length ∧ timeout ≤ champs (ys2.length - 1)) := by
  obtain ⟨m, q, a1, a2, a3, a4, a5, a6, a7, a8, a9, a10, a11, a12⟩ := benchmarkLoop_some _ _ _ _ _ h
  simp only [Nat.zero_add] at *
  have hq : ys2.length = q := by rw [a9]; simp
  subst a4
  refine ⟨by rw [← a1, List.length_eq_zero_iff], a5, a6, a2, a3, a7, by rw [hq]; exact a9, by omega, by rwa [hq], fun hlt => ?_⟩
  rw [hq] at hlt ⊢
  have := a11 hlt
  split at this
  · rename_i h0
    exfalso
    have := a1.2 this
    omega
  · exact ⟨by omega, this⟩

/-- **C117 (the benchmark ends).** It ends exactly if the limit is not positive or some pass takes at least the limit. -/
theorem c117_benchmark_ends {timeout : ℝ} {ours champs : Nat → ℝ} {iters : Nat} :
    (∃ fuel r, simpleBenchmark timeout ours champs iters fuel = some r) ↔ timeout ≤ 0 ∨ ∃ k, timeout ≤ ours k := by
  constructor
  · rintro ⟨fuel, ⟨xs, ys1, ys2⟩, h⟩
    obtain ⟨h1, -, -, -, h5, -⟩ := c117_benchmark h
    cases xs with
    | nil => exact .inl (h1.1 rfl)
    | cons x xs => exact .inr ⟨xs.length, h5 _ rfl⟩
  · have hgen : ∀ (fuel i : Nat) (our last : ℝ) (iters : Nat), (timeout ≤ our ∨ ∃ k < fuel, timeout ≤ ours (i + k)) →
        ∃ r, benchmarkLoop timeout ours champs fuel i our last iters = some r := by
      intro fuel
      induction fuel with
      | zero =>
        rintro i our last iters (h | ⟨k, hk, -⟩)
        · unfold benchmarkLoop; rw [if_neg (not_lt.2 h)]; exact ⟨_, rfl⟩
        · omega
      | succ fuel ih =>
        intro i our last iters h
        unfold benchmarkLoop
        by_cases hour : our < timeout
        · rw [if_pos hour]
          have hnext : timeout ≤ ours i ∨ ∃ k < fuel, timeout ≤ ours (i + 1 + k) := by
            rcases h with h | ⟨k, hk, h⟩
            · exact absurd hour (not_lt.2 h)
            · cases k with
              | zero => exact .inl h
              | succ k => exact .inr ⟨k, by omega, by rwa [show i + 1 + k = i + (k + 1) by omega]⟩
          simp only
          split
          · obtain ⟨r, hr⟩ := ih (i + 1) (ours i) (champs i) (iters + iters / 2) hnext
            rw [hr]; exact ⟨_, rfl⟩
          · obtain ⟨r, hr⟩ := ih (i + 1) (ours i) last (iters + iters / 2) hnext
            rw [hr]; exact ⟨_, rfl⟩
        · rw [if_neg hour]; exact ⟨_, rfl⟩
    rintro (h | ⟨k, hk⟩)
    · obtain ⟨r, hr⟩ := hgen 0 0 0 0 iters (.inl h)
      exact ⟨0, r, hr⟩
    · obtain ⟨r, hr⟩ := hgen (k + 1) 0 0 0 iters (.inr ⟨k, by omega, by simpa using hk⟩)
      exact ⟨_, r, hr⟩

-- an accepted and a rejected call of the same function
example (G : Graph ℝ) : callDeprecated .missing "repeated_parallel_louvain_from_gammas" [.graph G] [("gammas", .numbers [1, 2])] =
    .ok (.leiden "repeated_parallel_leiden_from_gammas".toList, [.graph G, .numbers [1, 2], .bool true]) := by
  refine ((c117_shimmed .missing (new := "repeated_parallel_leiden_from_gammas")
    (sig := [required "G", required "gammas", optional "show_progress" (.bool true)])
    (by simp [singleLayerNames]) (by simp [leidenSignatures]) _ _).1 _).2 ⟨rfl, by simp, by simp, ?_, by simp, ?_⟩
  · intro k hk
    have hk : k = "gammas" := by simpa using hk
    exact ⟨1, required "gammas", by simp, rfl, hk.symm⟩
  · rintro (_ | _ | _ | i) p hp
    · exact .inl ⟨by simp, rfl⟩
    · cases hp; exact .inr (.inl ⟨by simp, .numbers [1, 2], by simp [required], rfl⟩)
    · cases hp; exact .inr (.inr ⟨by simp, by simp [optional], .bool true, rfl, rfl⟩)
    · simp at hp
example (G : Graph ℝ) : callDeprecated .missing "repeated_louvain_from_gammas" [.graph G] [] = .error .typeError := by
  refine (c117_shimmed .missing (new := "repeated_leiden_from_gammas") (sig := [required "G", required "gammas"])
    (by simp [singleLayerNames]) (by simp [leidenSignatures]) _ _).2 fun vals h => ?_
  rcases h.value 1 _ rfl with ⟨h, -⟩ | ⟨-, v, hv, -⟩ | ⟨-, -, d, hd, -⟩
  · simp at h
  · simp at hv
  · simp [required] at hd
-- three passes: 100, 150, 225 runs; CHAMP reaches the limit in its second pass
example : simpleBenchmark 60 (fun k => 20 * (k + 1 : Nat)) (fun k => 50 * (k + 1 : Nat)) 100 5 =
    some ([100, 150, 225], [20, 40, 60], [50, 100]) := by
  norm_num [simpleBenchmark, benchmarkLoop]

end Verif.Props
