import Mathlib.Data.List.Nodup
import Verif.Spec.Stages
import Verif.Proofs.LfrRuns

namespace Verif
open Spec
variable {V : Type} {plans : List Plan} {Derives : FileName → List V → V → Prop} {d d' : Store V}
  {compute : FileName → List V → Except Stop V}

theorem except_mapM_forall₂ {ε β γ : Type} {f : β → Except ε γ} {l : List β} {r : List γ} :
    l.mapM f = .ok r ↔ List.Forall₂ (fun x y => f x = .ok y) l r := by
  induction l generalizing r with
  | nil =>
    simp only [List.mapM_nil, List.forall₂_nil_left_iff]
    constructor
    · intro h; cases h; rfl
    · rintro rfl; rfl
  | cons a l ih =>
    rw [List.mapM_cons]
    cases hf : f a with
    | error e =>
      constructor
      · intro h; cases h
      · intro h; cases h with | cons h1 _ => rw [hf] at h1; cases h1
    | ok b =>
      cases hl : l.mapM f with
      | error e =>
        constructor
        · intro h; cases h
        · intro h; cases h with | cons _ h2 => rw [← ih, hl] at h2; cases h2
      | ok bs =>
        constructor
        · intro h
          cases h
          exact List.Forall₂.cons hf (ih.mp hl)
        · intro h
          cases h with
          | cons h1 h2 =>
            rw [hf] at h1
            cases h1
            rw [← ih, hl] at h2
            cases h2
            rfl

theorem loadFile_ok {n : FileName} {v : V} : loadFile d n = .ok v ↔ d n = .full v := by
  unfold loadFile
  cases h : d n <;> simp

theorem loads_ok {names : List FileName} {vs : List V} : names.mapM (loadFile d) = .ok vs ↔ Holds d names vs := by
  rw [except_mapM_forall₂]
  unfold Holds
  simp only [loadFile_ok]

theorem holds_mem {names : List FileName} {vs : List V} (h : Holds d names vs) {n : FileName} (hn : n ∈ names) :
    ∃ v, d n = .full v := by
  unfold Holds at h
  induction h with
  | nil => cases hn
  | cons h1 _ ih =>
    rcases List.mem_cons.mp hn with rfl | hn
    · exact ⟨_, h1⟩
    · exact ih hn

theorem holds_congr {names : List FileName} {vs : List V} (h : Holds d names vs)
    (he : ∀ n ∈ names, ∀ v, d n = .full v → d' n = .full v) : Holds d' names vs := by
  unfold Holds at h ⊢
  induction h with
  | nil => exact List.Forall₂.nil
  | cons h1 _ ih =>
    exact List.Forall₂.cons (he _ List.mem_cons_self _ h1) (ih fun n hn => he n (List.mem_cons_of_mem _ hn))

theorem holds_unique {names : List FileName} {vs ws : List V} (h : Holds d names vs) (h' : Holds d names ws) : vs = ws := by
  rw [← loads_ok] at h h'
  rw [h] at h'
  exact Except.ok.inj h'

theorem holds_exists {names : List FileName} (h : ∀ n ∈ names, ∃ v, d n = .full v) : ∃ vs, Holds d names vs := by
  induction names with
  | nil => exact ⟨[], List.Forall₂.nil⟩
  | cons n names ih =>
    obtain ⟨v, hv⟩ := h n List.mem_cons_self
    obtain ⟨vs, hvs⟩ := ih fun m hm => h m (List.mem_cons_of_mem _ hm)
    exact ⟨v :: vs, List.Forall₂.cons hv hvs⟩

/-- What a phase is about to write: for each missing product, the name and a value computed from the sources. -/
theorem produce_ok {p : Product} {nv : FileName × V} : produce compute d p = .ok nv ↔
    nv.1 = p.name ∧ ∃ vs, Holds d p.sources vs ∧ compute p.name vs = .ok nv.2 := by
  unfold produce
  cases hl : p.sources.mapM (loadFile d) with
  | error e =>
    constructor
    · intro h; cases h
    · rintro ⟨-, vs, h, -⟩
      rw [← loads_ok, hl] at h
      cases h
  | ok vs =>
    have hvs := loads_ok.mp hl
    cases hc : compute p.name vs with
    | error e =>
      constructor
      · intro h
        have : (compute p.name vs >>= fun v => pure (p.name, v)) = .ok nv := h
        rw [hc] at this; cases this
      · rintro ⟨-, ws, h, h2⟩
        rw [← holds_unique hvs h, hc] at h2
        cases h2
    | ok v =>
      constructor
      · intro h
        have : (compute p.name vs >>= fun v => pure (p.name, v)) = .ok nv := h
        rw [hc] at this
        cases this
        exact ⟨rfl, vs, hvs, hc⟩
      · rintro ⟨h1, ws, h, h2⟩
        rw [← holds_unique hvs h, hc] at h2
        cases h2
        show (compute p.name vs >>= fun v => pure (p.name, v)) = .ok nv
        rw [hc, ← h1]
        rfl

/-- The files after writing. -/
def written (d : Store V) : List (FileName × V) → Store V
  | [] => d
  | nv :: rest => written (Function.update d nv.1 (.full nv.2)) rest

/-- The files visited while writing. -/
def writing (d : Store V) : List (FileName × V) → List (Store V)
  | [] => []
  | nv :: rest => Function.update d nv.1 .torn :: Function.update d nv.1 (.full nv.2) ::
      writing (Function.update d nv.1 (.full nv.2)) rest

theorem now_writing (l : List (FileName × V)) (d : Store V) : Script.now d (writing d l) = written d l := by
  induction l generalizing d with
  | nil => rfl
  | cons nv l ih =>
    have : writing d (nv :: l) = [Function.update d nv.1 .torn, Function.update d nv.1 (.full nv.2)] ++
      writing (Function.update d nv.1 (.full nv.2)) l := rfl
    rw [this, Script.now_append, Script.now_pair, ih]
    rfl

theorem dumpFiles_eq (l : List (FileName × V)) (d : Store V) : dumpFiles l d = (writing d l, .ok ()) := by
  induction l generalizing d with
  | nil => rfl
  | cons nv l ih =>
    unfold dumpFiles
    have h : dumpFile nv.1 nv.2 d =
        ([Function.update d nv.1 .torn, Function.update d nv.1 (.full nv.2)], .ok ()) := rfl
    rw [Script.bind_of_ok h, Script.now_pair, ih]
    rfl

/-- A phase either raises and changes nothing, or writes its missing products. -/
theorem runPhase_eq (ps : List Product) (d : Store V) :
    (∃ e, (ps.filter fun p => (d p.name).isAbsent).mapM (produce compute d) = .error e ∧ runPhase compute ps d = ([], .error e)) ∨
    ∃ nvs, (ps.filter fun p => (d p.name).isAbsent).mapM (produce compute d) = .ok nvs ∧
      runPhase compute ps d = (writing d nvs, .ok ()) := by
  cases h : (ps.filter fun p => (d p.name).isAbsent).mapM (produce compute d) with
  | error e =>
    refine Or.inl ⟨e, rfl, ?_⟩
    unfold runPhase
    rw [Script.bind_of_ok (Script.files_eq d)]
    simp only [Script.now_nil, List.nil_append]
    rw [Script.bind_of_error (t := []) (e := e) (by rw [Script.lift_eq, h])]
  | ok nvs =>
    refine Or.inr ⟨nvs, rfl, ?_⟩
    unfold runPhase
    rw [Script.bind_of_ok (Script.files_eq d)]
    simp only [Script.now_nil, List.nil_append]
    rw [Script.bind_of_ok (t := []) (a := nvs) (by rw [Script.lift_eq, h])]
    simp only [Script.now_nil, List.nil_append, dumpFiles_eq]

theorem isAbsent_iff {f : File V} : f.isAbsent = true ↔ f = .absent := by
  cases f <;> simp [File.isAbsent]

/-! ### Existing files are kept -/

/-- `d'` has the existing files of `d`, unchanged. -/
def Keeps (d d' : Store V) : Prop := ∀ n, d n ≠ .absent → d' n = d n

theorem Keeps.refl (d : Store V) : Keeps d d := fun _ _ => rfl

theorem Keeps.trans {d'' : Store V} (h : Keeps d d') (h' : Keeps d' d'') : Keeps d d'' := fun n hn => by
  rw [h' n (by rw [h n hn]; exact hn), h n hn]

theorem Keeps.update (h : Keeps d d') {n : FileName} (hn : d n = .absent) (X : File V) : Keeps d (Function.update d' n X) := by
  intro m hm
  rw [Function.update_of_ne (by rintro rfl; exact hm hn)]
  exact h m hm

theorem writing_keeps {l : List (FileName × V)} {d₀ : Store V} (h : Keeps d₀ d) (hl : ∀ nv ∈ l, d₀ nv.1 = .absent) :
    ∀ d' ∈ writing d l, Keeps d₀ d' := by
  induction l generalizing d with
  | nil => intro d' hd'; cases hd'
  | cons nv l ih =>
    have hnv := hl nv List.mem_cons_self
    intro d' hd'
    rcases List.mem_cons.mp hd' with rfl | hd'
    · exact h.update hnv _
    · rcases List.mem_cons.mp hd' with rfl | hd'
      · exact h.update hnv _
      · exact ih (h.update hnv _) (fun nv h => hl nv (List.mem_cons_of_mem _ h)) d' hd'

theorem produced_absent {ps : List Product} {nvs : List (FileName × V)}
    (h : (ps.filter fun p => (d p.name).isAbsent).mapM (produce compute d) = .ok nvs) :
    nvs.map Prod.fst = (ps.filter fun p => (d p.name).isAbsent).map Product.name := by
  rw [except_mapM_forall₂] at h
  generalize (ps.filter fun p => (d p.name).isAbsent) = qs at h ⊢
  induction h with
  | nil => rfl
  | cons h1 _ ih => rw [List.map_cons, List.map_cons, ih, (produce_ok.mp h1).1]

theorem produced_mem {ps : List Product} {nvs : List (FileName × V)}
    (h : (ps.filter fun p => (d p.name).isAbsent).mapM (produce compute d) = .ok nvs) {nv : FileName × V} (hnv : nv ∈ nvs) :
    ∃ p ∈ ps, d p.name = .absent ∧ nv.1 = p.name ∧ ∃ vs, Holds d p.sources vs ∧ compute p.name vs = .ok nv.2 := by
  rw [except_mapM_forall₂] at h
  have hex : ∃ p ∈ ps.filter fun p => (d p.name).isAbsent, produce compute d p = .ok nv := by
    generalize (ps.filter fun p => (d p.name).isAbsent) = qs at h ⊢
    induction h with
    | nil => cases hnv
    | cons h1 _ ih =>
      rcases List.mem_cons.mp hnv with rfl | hnv
      · exact ⟨_, List.mem_cons_self, h1⟩
      · obtain ⟨p, hp, h2⟩ := ih hnv
        exact ⟨p, List.mem_cons_of_mem _ hp, h2⟩
  obtain ⟨p, hp, h⟩ := hex
  obtain ⟨h1, h2⟩ := List.mem_filter.mp hp
  obtain ⟨h3, h4⟩ := produce_ok.mp h
  exact ⟨p, h1, isAbsent_iff.mp h2, h3, h4⟩

theorem runPhase_keeps (ps : List Product) (d : Store V) : ∀ d' ∈ (runPhase compute ps d).1, Keeps d d' := by
  rcases runPhase_eq (compute := compute) ps d with ⟨e, -, h⟩ | ⟨nvs, h1, h⟩
  · rw [h]; intro d' hd'; cases hd'
  · rw [h]
    refine writing_keeps (Keeps.refl d) fun nv hnv => ?_
    obtain ⟨p, -, h2, h3, -⟩ := produced_mem h1 hnv
    rw [h3, h2]

theorem now_all {D : Type} {P : D → Prop} {d : D} {t : List D} (hd : P d) (ht : ∀ x ∈ t, P x) : P (Script.now d t) := by
  rcases List.mem_cons.mp (Script.now_mem d t) with h | h
  · rw [h]; exact hd
  · exact ht _ h

theorem runPhases_keeps (phases : List (List Product)) (d : Store V) :
    ∀ d' ∈ (runPhases compute phases d).1, Keeps d d' := by
  induction phases generalizing d with
  | nil => intro d' hd'; cases hd'
  | cons ps rest ih =>
    have h1 := runPhase_keeps (compute := compute) ps d
    unfold runPhases
    rcases hx : runPhase compute ps d with ⟨t, _ | a⟩
    · rw [Script.bind_of_error hx]
      rw [hx] at h1
      exact h1
    · rw [Script.bind_of_ok hx]
      rw [hx] at h1
      intro d' hd'
      rcases List.mem_append.mp hd' with h | h
      · exact h1 d' h
      · exact (now_all (Keeps.refl d) h1).trans (ih _ d' h)

theorem runPlan_trace (plan : Plan) (d : Store V) : (runPlan compute plan d).1 = (runPhases compute plan.phases d).1 := by
  unfold runPlan
  rcases hx : runPhases compute plan.phases d with ⟨t, _ | a⟩
  · rw [Script.bind_of_error hx]
  · rw [Script.bind_of_ok hx, Script.bind_of_ok (Script.files_eq _)]
    simp

theorem runPlan_ok {plan : Plan} {d : Store V} {vs : List V} : (runPlan compute plan d).2 = .ok vs ↔
    (runPhases compute plan.phases d).2 = .ok () ∧
      Holds (Script.now d (runPhases compute plan.phases d).1) plan.reads vs := by
  unfold runPlan
  rcases hx : runPhases compute plan.phases d with ⟨t, _ | a⟩
  · rw [Script.bind_of_error hx]
    constructor
    · intro h; cases h
    · rintro ⟨h, -⟩; cases h
  · rw [Script.bind_of_ok hx, Script.bind_of_ok (Script.files_eq _)]
    simp only [Script.now_nil, Script.lift_eq, loads_ok]
    exact ⟨fun h => ⟨trivial, h⟩, fun h => h.2⟩

/-! ### Provenance -/

theorem derived_update (h : Derived plans Derives d) {n : FileName} (hn : d n = .absent) {X : File V}
    (hX : ∀ P ∈ plans, ∀ p ∈ P.products, p.name = n → ∃ vs, Holds d p.sources vs ∧ ∀ v, X = .full v → Derives p.name vs v) :
    Derived plans Derives (Function.update d n X) := by
  have hholds : ∀ {names : List FileName} {vs : List V}, Holds d names vs → Holds (Function.update d n X) names vs := by
    intro names vs hh
    refine holds_congr hh fun m _ v hv => ?_
    rw [Function.update_of_ne (by rintro rfl; rw [hn] at hv; cases hv)]
    exact hv
  intro P hP p hp hne
  by_cases hpn : p.name = n
  · obtain ⟨vs, h1, h2⟩ := hX P hP p hp hpn
    refine ⟨vs, hholds h1, fun v hv => h2 v ?_⟩
    rw [hpn, Function.update_self] at hv
    exact hv
  · rw [Function.update_of_ne hpn] at hne
    obtain ⟨vs, h1, h2⟩ := h P hP p hp hne
    exact ⟨vs, hholds h1, fun v hv => h2 v (by rw [Function.update_of_ne hpn] at hv; exact hv)⟩

theorem writing_derived (h : Derived plans Derives d) {l : List (FileName × V)} (hnd : (l.map Prod.fst).Nodup)
    (hl : ∀ nv ∈ l, d nv.1 = .absent ∧ ∀ P ∈ plans, ∀ p ∈ P.products, p.name = nv.1 →
      ∃ vs, Holds d p.sources vs ∧ Derives p.name vs nv.2) :
    (∀ d' ∈ writing d l, Derived plans Derives d') := by
  induction l generalizing d with
  | nil => intro d' hd'; cases hd'
  | cons nv l ih =>
    rw [List.map_cons, List.nodup_cons] at hnd
    obtain ⟨h1, h2⟩ := hl nv List.mem_cons_self
    have h3 : ∀ X : File V, (X = .torn ∨ X = .full nv.2) → Derived plans Derives (Function.update d nv.1 X) := by
      intro X hX
      refine derived_update h h1 fun P hP p hp hpn => ?_
      obtain ⟨vs, h4, h5⟩ := h2 P hP p hp hpn
      refine ⟨vs, h4, fun v hv => ?_⟩
      rcases hX with rfl | rfl
      · cases hv
      · cases hv; exact h5
    intro d' hd'
    rcases List.mem_cons.mp hd' with rfl | hd'
    · exact h3 _ (Or.inl rfl)
    · rcases List.mem_cons.mp hd' with rfl | hd'
      · exact h3 _ (Or.inr rfl)
      · refine ih (h3 _ (Or.inr rfl)) hnd.2 (fun nv' hnv' => ?_) d' hd'
        obtain ⟨h4, h5⟩ := hl nv' (List.mem_cons_of_mem _ hnv')
        refine ⟨?_, fun P hP p hp hpn => ?_⟩
        · rw [Function.update_of_ne (fun he => hnd.1 (by rw [← he]; exact List.mem_map_of_mem hnv'))]
          exact h4
        · obtain ⟨vs, h6, h7⟩ := h5 P hP p hp hpn
          refine ⟨vs, holds_congr h6 fun m _ v hv => ?_, h7⟩
          rw [Function.update_of_ne (by rintro rfl; rw [h1] at hv; cases hv)]
          exact hv

theorem runPhase_derived (hc : Compatible plans) (hs : ∀ name vs v, compute name vs = .ok v → Derives name vs v)
    {P : Plan} (hP : P ∈ plans) {ps : List Product} (hps : ∀ p ∈ ps, p ∈ P.products) (hnd : (ps.map Product.name).Nodup)
    (h : Derived plans Derives d) : ∀ d' ∈ (runPhase compute ps d).1, Derived plans Derives d' := by
  rcases runPhase_eq (compute := compute) ps d with ⟨e, -, hr⟩ | ⟨nvs, h1, hr⟩
  · rw [hr]; intro d' hd'; cases hd'
  · rw [hr]
    refine writing_derived h ?_ ?_
    · rw [produced_absent h1]
      exact hnd.sublist (List.filter_sublist.map _)
    · intro nv hnv
      obtain ⟨p, hp, h2, h3, vs, h4, h5⟩ := produced_mem h1 hnv
      refine ⟨by rw [h3, h2], fun Q hQ q hq hqn => ?_⟩
      have := hc P hP Q hQ p (hps p hp) q hq (by rw [← h3, hqn])
      subst this
      exact ⟨vs, h4, hs _ _ _ h5⟩

theorem runPhases_derived (hc : Compatible plans) (hs : ∀ name vs v, compute name vs = .ok v → Derives name vs v)
    {P : Plan} (hP : P ∈ plans) {phases : List (List Product)} (hps : ∀ p ∈ phases.flatten, p ∈ P.products)
    (hnd : (phases.flatten.map Product.name).Nodup) (h : Derived plans Derives d) :
    ∀ d' ∈ (runPhases compute phases d).1, Derived plans Derives d' := by
  induction phases generalizing d with
  | nil => intro d' hd'; cases hd'
  | cons ps rest ih =>
    rw [List.flatten_cons, List.map_append, List.nodup_append] at hnd
    have h1 := runPhase_derived hc hs hP (ps := ps) (fun p hp => hps p (by simp [hp])) hnd.1 h
    unfold runPhases
    rcases hx : runPhase compute ps d with ⟨t, _ | a⟩
    · rw [Script.bind_of_error hx]
      rw [hx] at h1
      exact h1
    · rw [Script.bind_of_ok hx]
      rw [hx] at h1
      intro d' hd'
      rcases List.mem_append.mp hd' with h2 | h2
      · exact h1 d' h2
      · exact ih (fun p hp => hps p (by rw [List.flatten_cons]; exact List.mem_append_right _ hp)) hnd.2.1
          (now_all h h1) d' h2

/-! ### Completion -/

theorem written_get {l : List (FileName × V)} (hnd : (l.map Prod.fst).Nodup) (d : Store V) :
    (∀ nv ∈ l, written d l nv.1 = .full nv.2) ∧ ∀ n, n ∉ l.map Prod.fst → written d l n = d n := by
  induction l generalizing d with
  | nil => exact ⟨(fun _ h => by cases h), fun _ _ => rfl⟩
  | cons nv l ih =>
    rw [List.map_cons, List.nodup_cons] at hnd
    obtain ⟨h1, h2⟩ := ih hnd.2 (Function.update d nv.1 (.full nv.2))
    refine ⟨fun nv' h => ?_, fun n hn => ?_⟩
    · rcases List.mem_cons.mp h with rfl | h
      · show written (Function.update d nv'.1 (.full nv'.2)) l nv'.1 = _
        rw [h2 _ hnd.1, Function.update_self]
      · exact h1 nv' h
    · rw [List.map_cons, List.mem_cons, not_or] at hn
      show written (Function.update d nv.1 (.full nv.2)) l n = _
      rw [h2 n hn.2, Function.update_of_ne hn.1]

/-- After a phase without exception its missing products are complete, computed from the files before. -/
theorem runPhase_ok {ps : List Product} (hnd : (ps.map Product.name).Nodup) (h : (runPhase compute ps d).2 = .ok ()) :
    (∀ p ∈ ps, d p.name = .absent → ∃ vs v, Holds d p.sources vs ∧ compute p.name vs = .ok v ∧
      Script.now d (runPhase compute ps d).1 p.name = .full v) ∧
    ∀ n, n ∉ ps.map Product.name → Script.now d (runPhase compute ps d).1 n = d n := by
  rcases runPhase_eq (compute := compute) ps d with ⟨e, -, hr⟩ | ⟨nvs, h1, hr⟩
  · rw [hr] at h; cases h
  · rw [hr]
    have hfst := produced_absent h1
    have hnd' : (nvs.map Prod.fst).Nodup := by
      rw [hfst]
      exact hnd.sublist (List.filter_sublist.map _)
    obtain ⟨g1, g2⟩ := written_get hnd' d
    show (∀ p ∈ ps, d p.name = .absent → ∃ vs v, Holds d p.sources vs ∧ compute p.name vs = .ok v ∧
      Script.now d (writing d nvs) p.name = .full v) ∧
      ∀ n, n ∉ ps.map Product.name → Script.now d (writing d nvs) n = d n
    rw [now_writing]
    refine ⟨fun p hp hpa => ?_, fun n hn => g2 n ?_⟩
    · have hmem : p.name ∈ nvs.map Prod.fst := by
        rw [hfst]
        exact List.mem_map_of_mem (List.mem_filter.mpr ⟨hp, isAbsent_iff.mpr hpa⟩)
      obtain ⟨nv, hnv, hname⟩ := List.mem_map.mp hmem
      obtain ⟨q, hq, -, h3, vs, h4, h5⟩ := produced_mem h1 hnv
      have hqp : q = p := List.inj_on_of_nodup_map hnd hq hp (by rw [← h3, hname])
      subst hqp
      exact ⟨vs, nv.2, h4, h5, by rw [← hname]; exact g1 nv hnv⟩
    · rw [hfst]
      intro hmem
      obtain ⟨p, hp, rfl⟩ := List.mem_map.mp hmem
      exact hn (List.mem_map_of_mem (List.mem_filter.mp hp).1)

/-- After phases without exception no product is missing. -/
theorem runPhases_complete {phases : List (List Product)} (hnd : (phases.flatten.map Product.name).Nodup)
    (h : (runPhases compute phases d).2 = .ok ()) :
    ∀ p ∈ phases.flatten, Script.now d (runPhases compute phases d).1 p.name ≠ .absent := by
  induction phases generalizing d with
  | nil => intro p hp; cases hp
  | cons ps rest ih =>
    rw [List.flatten_cons, List.map_append, List.nodup_append] at hnd
    unfold runPhases at h ⊢
    have hk := runPhases_keeps (compute := compute) rest
    rcases hx : runPhase compute ps d with ⟨t, _ | a⟩
    · rw [Script.bind_of_error hx] at h; cases h
    · rw [Script.bind_of_ok hx] at h ⊢
      have hok := runPhase_ok (compute := compute) (d := d) hnd.1 (by rw [hx])
      rw [hx] at hok
      intro p hp
      show Script.now d (t ++ _) p.name ≠ _
      rw [Script.now_append]
      rw [List.flatten_cons, List.mem_append] at hp
      rcases hp with hp | hp
      · have hne : Script.now d t p.name ≠ .absent := by
          by_cases ha : d p.name = .absent
          · obtain ⟨vs, v, -, -, h3⟩ := hok.1 p hp ha
            have h3 : Script.now d t p.name = .full v := h3
            rw [h3]; exact fun h => by cases h
          · have hkp := now_all (P := Keeps d) (Keeps.refl d) (runPhase_keeps (compute := compute) ps d)
            rw [hx] at hkp
            have hkp : Keeps d (Script.now d t) := hkp
            rw [hkp _ ha]; exact ha
        rw [now_all (P := Keeps (Script.now d t)) (Keeps.refl _) (hk _) _ hne]
        exact hne
      · exact ih hnd.2.1 h p hp

end Verif
