import Verif.Proofs.Stages

/-!
# C97: scripts with cached intermediate results
-/

namespace Verif.Props
open Verif Spec
variable {V : Type} {plans : List Plan} {Derives : FileName → List V → V → Prop} {d d' : Store V} {plan : Plan}
  {compute : FileName → List V → Except Stop V}

theorem stopped_keeps (h : Stopped plans Derives d d') : Keeps d d' := by
  obtain ⟨P, -, compute, -, hd⟩ := h
  rw [runPlan_trace] at hd
  rcases List.mem_cons.mp hd with rfl | hd
  · exact Keeps.refl _
  · exact runPhases_keeps _ _ _ hd

/-- **C97.** However often the scripts are run, interrupted and run again in one directory: a file that exists is never changed by
a later run – neither a complete nor an incomplete one. -/
theorem c97_kept (h : Runs plans Derives d d') : ∀ n, d n ≠ .absent → d' n = d n := by
  induction h with
  | refl => exact fun _ _ => rfl
  | tail _ h2 ih => exact Keeps.trans ih (stopped_keeps h2)

theorem stopped_derived (hc : Compatible plans) (hp : ∀ P ∈ plans, Proper P) (hd : Derived plans Derives d)
    (h : Stopped plans Derives d d') : Derived plans Derives d' := by
  obtain ⟨P, hP, compute, hs, hd'⟩ := h
  rw [runPlan_trace] at hd'
  rcases List.mem_cons.mp hd' with rfl | hd'
  · exact hd
  · exact runPhases_derived hc hs hP (fun p hp => hp) (hp P hP).names hd d' hd'

/-- **C97.** Starting with an empty directory, after any number of interrupted runs of the scripts, in any order, every complete
file was derived from what its source files hold now, and no file exists whose sources are not complete. -/
theorem c97_provenance (hc : Compatible plans) (hp : ∀ P ∈ plans, Proper P) (h : Runs plans Derives noFiles d) :
    Derived plans Derives d := by
  induction h with
  | refl => exact fun P _ p _ hne => absurd rfl hne
  | tail _ h2 ih => exact stopped_derived hc hp ih h2

/-- A file is used: a figure loads it or a product is computed from it. -/
def Used (plan : Plan) (n : FileName) : Prop := n ∈ plan.reads ∨ ∃ p ∈ plan.products, n ∈ p.sources

theorem phases_complete {phases : List (List Product)} {known : List FileName} {need : FileName → Prop}
    (htotal : ∀ name vs, ∃ v, compute name vs = .ok v) (hnd : (phases.flatten.map Product.name).Nodup)
    (hse : SourcesEarlier known phases) (hneed : ∀ p ∈ phases.flatten, ∀ s ∈ p.sources, need s)
    (hknown : ∀ s ∈ known, need s → ∃ v, d s = .full v) (hnt : ∀ p ∈ phases.flatten, need p.name → d p.name ≠ .torn) :
    (runPhases compute phases d).2 = .ok () ∧
      (∀ p ∈ phases.flatten, need p.name → ∃ v, Script.now d (runPhases compute phases d).1 p.name = .full v) := by
  induction phases generalizing d known with
  | nil => exact ⟨rfl, fun p hp => by cases hp⟩
  | cons ps rest ih =>
    rw [List.flatten_cons, List.map_append, List.nodup_append] at hnd
    obtain ⟨hs1, hs2⟩ := hse
    have hok : (runPhase compute ps d).2 = .ok () := by
      rcases runPhase_eq (compute := compute) ps d with ⟨e, he, hr⟩ | ⟨nvs, -, hr⟩
      · exfalso
        have hall : ∀ p ∈ ps.filter fun p => (d p.name).isAbsent, ∃ nv, produce compute d p = .ok nv := by
          intro p hp
          have hp := (List.mem_filter.mp hp).1
          obtain ⟨vs, hvs⟩ := holds_exists (d := d) (names := p.sources) fun s hs =>
            hknown s (hs1 p hp s hs) (hneed p (by rw [List.flatten_cons]; exact List.mem_append_left _ hp) s hs)
          obtain ⟨v, hv⟩ := htotal p.name vs
          exact ⟨(p.name, v), produce_ok.mpr ⟨rfl, vs, hvs, hv⟩⟩
        have : ∃ nvs, (ps.filter fun p => (d p.name).isAbsent).mapM (produce compute d) = .ok nvs := by
          clear he
          generalize (ps.filter fun p => (d p.name).isAbsent) = qs at hall
          induction qs with
          | nil => exact ⟨[], rfl⟩
          | cons q qs ihq =>
            obtain ⟨nv, hnv⟩ := hall q List.mem_cons_self
            obtain ⟨nvs, hnvs⟩ := ihq fun p hp => hall p (List.mem_cons_of_mem _ hp)
            exact ⟨nv :: nvs, except_mapM_forall₂.mpr (List.Forall₂.cons hnv (except_mapM_forall₂.mp hnvs))⟩
        obtain ⟨nvs, hnvs⟩ := this
        rw [he] at hnvs
        cases hnvs
      · rw [hr]
    obtain ⟨g1, g2⟩ := runPhase_ok hnd.1 hok
    have hkeep := now_all (P := Keeps d) (Keeps.refl d) (runPhase_keeps (compute := compute) ps d)
    have hfull : ∀ p ∈ ps, need p.name → ∃ v, Script.now d (runPhase compute ps d).1 p.name = .full v := by
      intro p hp hn
      have hnt' := hnt p (by rw [List.flatten_cons]; exact List.mem_append_left _ hp) hn
      cases hdp : d p.name with
      | absent =>
        obtain ⟨vs, v, -, -, h⟩ := g1 p hp hdp
        exact ⟨v, h⟩
      | torn => exact absurd hdp hnt'
      | full v => exact ⟨v, by rw [hkeep _ (by rw [hdp]; exact fun h => by cases h), hdp]⟩
    have hrest := ih (d := Script.now d (runPhase compute ps d).1) (known := known ++ ps.map Product.name) hnd.2.1 hs2
      (fun p hp => hneed p (by rw [List.flatten_cons]; exact List.mem_append_right _ hp))
      (by
        intro s hs hn
        rcases List.mem_append.mp hs with hs | hs
        · obtain ⟨v, hv⟩ := hknown s hs hn
          exact ⟨v, by rw [hkeep _ (by rw [hv]; exact fun h => by cases h), hv]⟩
        · obtain ⟨p, hp, rfl⟩ := List.mem_map.mp hs
          exact hfull p hp hn)
      (by
        intro p hp hn
        rw [g2 p.name (fun hmem => hnd.2.2 _ hmem _ (List.mem_map_of_mem hp) rfl)]
        exact hnt p (by rw [List.flatten_cons]; exact List.mem_append_right _ hp) hn)
    unfold runPhases
    rcases hx : runPhase compute ps d with ⟨t, _ | a⟩
    · rw [hx] at hok; cases hok
    · rw [Script.bind_of_ok hx]
      rw [hx] at hrest hfull
      refine ⟨hrest.1, fun p hp hn => ?_⟩
      show ∃ v, Script.now d (t ++ _) p.name = _
      rw [Script.now_append]
      rw [List.flatten_cons, List.mem_append] at hp
      rcases hp with hp | hp
      · obtain ⟨v, hv⟩ := hfull p hp hn
        have hv : Script.now d t p.name = .full v := hv
        refine ⟨v, ?_⟩
        rw [now_all (P := Keeps (Script.now d t)) (Keeps.refl _) (runPhases_keeps rest _) _
          (by rw [hv]; exact fun h => by cases h), hv]
      · exact hrest.2 p hp hn

/-- **C97.** If no file that is used is incomplete and no computation raises, a run succeeds: it computes exactly the missing
products – the existing ones are taken as they are – and the figures get what the files hold at the end. -/
theorem c97_completes (hp : Proper plan) (htotal : ∀ name vs, ∃ v, compute name vs = .ok v)
    (hnt : ∀ n, Used plan n → d n ≠ .torn) :
    ∃ t vs, runPlan compute plan d = (t, .ok vs) ∧ Holds (Script.now d t) plan.reads vs ∧
      (∀ p ∈ plan.products, d p.name = .absent → ∃ ws v, Holds (Script.now d t) p.sources ws ∧ compute p.name ws = .ok v ∧
        Script.now d t p.name = .full v) ∧
      (∀ n, d n ≠ .absent → Script.now d t n = d n) ∧
      ∀ n, n ∉ plan.products.map Product.name → Script.now d t n = d n := by
  have hread : ∀ s ∈ plan.reads, ∃ p ∈ plan.products, p.name = s := hp.reads
  obtain ⟨h1, h2⟩ := phases_complete (need := Used plan) (d := d) htotal hp.names hp.sources
    (fun p hp s hs => Or.inr ⟨p, hp, hs⟩) (fun s hs => by cases hs) (fun p _ hn => hnt _ hn)
  obtain ⟨vs, hvs⟩ := holds_exists (d := Script.now d (runPhases compute plan.phases d).1) (names := plan.reads)
    (fun s hs => by
      obtain ⟨p, hp, rfl⟩ := hread s hs
      exact h2 p hp (Or.inl hs))
  refine ⟨(runPlan compute plan d).1, vs, Prod.ext rfl (runPlan_ok.mpr ⟨h1, hvs⟩), ?_, ?_, ?_, ?_⟩
  · rw [runPlan_trace]; exact hvs
  · rw [runPlan_trace]
    clear hvs h2 hread hnt
    have hnd := hp.names
    unfold Plan.products at hnd ⊢
    generalize plan.phases = phases at h1 hnd
    induction phases generalizing d with
    | nil => intro p hp; cases hp
    | cons ps rest ih =>
      rw [List.flatten_cons, List.map_append, List.nodup_append] at hnd
      unfold runPhases at h1 ⊢
      rcases hx : runPhase compute ps d with ⟨t, _ | a⟩
      · rw [Script.bind_of_error hx] at h1; cases h1
      · rw [Script.bind_of_ok hx] at h1 ⊢
        obtain ⟨g1, g2⟩ := runPhase_ok (compute := compute) (d := d) hnd.1 (by rw [hx])
        rw [hx] at g1 g2
        have hk1 := now_all (P := Keeps d) (Keeps.refl d) (runPhase_keeps (compute := compute) ps d)
        rw [hx] at hk1
        have hk1 : Keeps d (Script.now d t) := hk1
        have hk2 := now_all (P := Keeps (Script.now d t)) (Keeps.refl _)
          (runPhases_keeps (compute := compute) rest (Script.now d t))
        intro p hp hpa
        show ∃ ws v, Holds (Script.now d (t ++ _)) p.sources ws ∧ _ ∧ Script.now d (t ++ _) p.name = _
        rw [Script.now_append]
        rw [List.flatten_cons, List.mem_append] at hp
        rcases hp with hp | hp
        · obtain ⟨ws, v, h3, h4, h5⟩ := g1 p hp hpa
          have h5 : Script.now d t p.name = .full v := h5
          refine ⟨ws, v, holds_congr h3 fun n _ w hw => ?_, h4, ?_⟩
          · have : Script.now d t n = .full w := by rw [hk1 n (by rw [hw]; exact fun h => by cases h), hw]
            rw [hk2 n (by rw [this]; exact fun h => by cases h), this]
          · rw [hk2 _ (by rw [h5]; exact fun h => by cases h), h5]
        · refine ih (d := Script.now d t) h1 hnd.2.1 p hp ?_
          have h6 : Script.now d t p.name = d p.name :=
            g2 p.name (fun hmem => hnd.2.2 _ hmem _ (List.mem_map_of_mem hp) rfl)
          rw [h6]; exact hpa
  · rw [runPlan_trace]
    exact now_all (P := Keeps d) (Keeps.refl d) (runPhases_keeps _ _)
  · rw [runPlan_trace]
    intro n hn
    have hnd := hp.names
    unfold Plan.products at hnd hn
    clear h2 hvs hnt
    generalize plan.phases = phases at h1 hnd hn
    induction phases generalizing d with
    | nil => rfl
    | cons ps rest ih =>
      rw [List.flatten_cons, List.map_append, List.nodup_append] at hnd
      rw [List.flatten_cons, List.map_append, List.mem_append, not_or] at hn
      unfold runPhases at h1 ⊢
      rcases hx : runPhase compute ps d with ⟨t, _ | a⟩
      · rw [Script.bind_of_error hx] at h1; cases h1
      · rw [Script.bind_of_ok hx] at h1 ⊢
        obtain ⟨-, g2⟩ := runPhase_ok (compute := compute) (d := d) hnd.1 (by rw [hx])
        rw [hx] at g2
        have g2 : Script.now d t n = d n := g2 n hn.1
        show Script.now d (t ++ _) n = _
        rw [Script.now_append, ← g2]
        exact ih h1 hnd.2.1 hn.2

theorem runPhases_done {phases : List (List Product)} (h : ∀ p ∈ phases.flatten, d p.name ≠ .absent) :
    runPhases compute phases d = ([], .ok ()) := by
  induction phases with
  | nil => rfl
  | cons ps rest ih =>
    have hphase : runPhase compute ps d = ([], .ok ()) := by
      have hf : (ps.filter fun p => (d p.name).isAbsent) = [] := by
        refine List.filter_eq_nil_iff.mpr fun p hp ha => h p ?_ (isAbsent_iff.mp ha)
        rw [List.flatten_cons]
        exact List.mem_append_left _ hp
      rcases runPhase_eq (compute := compute) ps d with ⟨e, h1, -⟩ | ⟨nvs, h1, h2⟩
      · rw [hf] at h1; cases h1
      · rw [hf] at h1; cases h1; exact h2
    unfold runPhases
    rw [Script.bind_of_ok hphase]
    simp only [Script.now_nil, List.nil_append]
    exact ih fun p hp => h p (by rw [List.flatten_cons]; exact List.mem_append_right _ hp)

/-- **C97.** After a successful run, running the script again writes nothing, computes nothing (whatever the computations would
deliver now) and shows the same results. -/
theorem c97_rerun (hp : Proper plan) {t : List (Store V)} {vs : List V} (h : runPlan compute plan d = (t, .ok vs))
    (compute' : FileName → List V → Except Stop V) : runPlan compute' plan (Script.now d t) = ([], .ok vs) := by
  have ht : t = (runPhases compute plan.phases d).1 := by rw [← runPlan_trace, h]
  obtain ⟨h1, h2⟩ := runPlan_ok.mp (show (runPlan compute plan d).2 = .ok vs by rw [h])
  have hdone := runPhases_done (compute := compute') (runPhases_complete hp.names h1)
  subst ht
  refine Prod.ext ?_ ?_
  · rw [runPlan_trace, hdone]
  · rw [runPlan_ok, hdone]
    exact ⟨rfl, by simpa only [Script.now_nil] using h2⟩

/-- **C97.** An incomplete file stays for ever, and if it is used the script never succeeds again: starting with an empty directory,
once some interrupted run has left the file incomplete, every later run of every script that uses it raises, whatever is run in
between. -/
theorem c97_torn_forever (hc : Compatible plans) (hp : ∀ P ∈ plans, Proper P) (h : Runs plans Derives noFiles d) {n : FileName}
    (hn : d n = .torn) (hP : plan ∈ plans) (hu : Used plan n) (h' : Runs plans Derives d d') :
    ∃ e, (runPlan compute plan d').2 = .error e := by
  cases ho : (runPlan compute plan d').2 with
  | error e => exact ⟨e, rfl⟩
  | ok vs =>
    exfalso
    obtain ⟨h1, h2⟩ := runPlan_ok.mp ho
    have hweak : Derived plans (fun _ _ _ => True) d' := by
      intro Q hQ q hq hne
      obtain ⟨ws, h3, -⟩ := c97_provenance hc hp (h.trans h') Q hQ q hq hne
      exact ⟨ws, h3, fun _ _ => trivial⟩
    have hd' : d' n = .torn := by
      rw [c97_kept h' n (by rw [hn]; exact fun h => by cases h), hn]
    have hlast : Script.now d' (runPhases compute plan.phases d').1 n = .torn := by
      rw [now_all (P := Keeps d') (Keeps.refl d') (runPhases_keeps _ _) n (by rw [hd']; exact fun h => by cases h), hd']
    rcases hu with hr | ⟨p, hp', hs⟩
    · obtain ⟨v, hv⟩ := holds_mem h2 hr
      rw [hlast] at hv; cases hv
    · have hne := runPhases_complete (hp plan hP).names h1 p hp'
      have hder := now_all (P := Derived plans (fun _ _ _ => True)) hweak
        (runPhases_derived (compute := compute) hc (fun _ _ _ _ => trivial) hP (fun p hp => hp) (hp plan hP).names hweak)
      obtain ⟨ws, h3, -⟩ := hder plan hP p hp' hne
      obtain ⟨v, hv⟩ := holds_mem h3 hs
      rw [hlast] at hv; cases hv

/-- **C97.** Deleting a complete file and running again recomputes that file only: every other file – also the ones derived from
the deleted one – stays as it was. -/
theorem c97_stale (hp : Proper plan) (htotal : ∀ name vs, ∃ v, compute name vs = .ok v)
    (hfull : ∀ p ∈ plan.products, ∃ v, d p.name = .full v) {g : Product} (hg : g ∈ plan.products) :
    ∃ t vs, runPlan compute plan (Function.update d g.name .absent) = (t, .ok vs) ∧
      (∀ n, n ≠ g.name → Script.now (Function.update d g.name .absent) t n = d n) ∧
      ∃ ws v, Holds (Script.now (Function.update d g.name .absent) t) g.sources ws ∧ compute g.name ws = .ok v ∧
        Script.now (Function.update d g.name .absent) t g.name = .full v := by
  have hsrc : ∀ (known : List FileName) (phases : List (List Product)), SourcesEarlier known phases →
      ∀ p ∈ phases.flatten, ∀ s ∈ p.sources, s ∈ known ∨ s ∈ phases.flatten.map Product.name := by
    intro known phases
    induction phases generalizing known with
    | nil => intro _ p hp; cases hp
    | cons ps rest ih =>
      rintro ⟨h1, h2⟩ p hp s hs
      rw [List.flatten_cons] at hp ⊢
      rcases List.mem_append.mp hp with hp | hp
      · exact Or.inl (h1 p hp s hs)
      · rw [List.map_append, List.mem_append]
        rcases ih _ h2 p hp s hs with h | h
        · rcases List.mem_append.mp h with h | h
          · exact Or.inl h
          · exact Or.inr (Or.inl h)
        · exact Or.inr (Or.inr h)
  have hused : ∀ n, Used plan n → ∃ p ∈ plan.products, p.name = n := by
    rintro n (hr | ⟨p, hp', hs⟩)
    · exact hp.reads n hr
    · rcases hsrc [] plan.phases hp.sources p hp' n hs with h | h
      · cases h
      · exact List.mem_map.mp h
  obtain ⟨t, vs, h1, -, h3, h4, h5⟩ := c97_completes (d := Function.update d g.name .absent) hp htotal (by
    intro n hn
    by_cases hng : n = g.name
    · subst hng; rw [Function.update_self]; exact fun h => by cases h
    · obtain ⟨p, hp', rfl⟩ := hused n hn
      rw [Function.update_of_ne hng]
      obtain ⟨v, hv⟩ := hfull p hp'
      rw [hv]; exact fun h => by cases h)
  refine ⟨t, vs, h1, fun n hn => ?_, h3 g hg (Function.update_self ..)⟩
  by_cases hmem : n ∈ plan.products.map Product.name
  · obtain ⟨p, hp', rfl⟩ := List.mem_map.mp hmem
    obtain ⟨v, hv⟩ := hfull p hp'
    have hd : Function.update d g.name .absent p.name = .full v := by rw [Function.update_of_ne hn, hv]
    rw [h4 _ (by rw [hd]; exact fun h => by cases h), hd, hv]
  · rw [h5 n hmem, Function.update_of_ne hn]

/-- **C97.** `SNAP_boxplot.py` saves no partitions before the partitions of all graphs are computed: if computing them raises for
one graph without a file, the script writes nothing at all – what it computed for the other graphs is lost. -/
theorem c97_all_or_nothing {n i : Nat} (hi : i < n) (ha : d (.parts i) = .absent) {e : Stop}
    (he : compute (.parts i) [] = .error e) : ∃ e', runPlan compute (snapPlan n) d = ([], .error e') := by
  have hphase : ∃ e', runPhase compute ((List.range n).map fun i => ⟨.parts i, []⟩) d = ([], .error e') := by
    rcases runPhase_eq (compute := compute) ((List.range n).map fun i => ⟨.parts i, []⟩) d with ⟨e', -, h⟩ | ⟨nvs, h1, -⟩
    · exact ⟨e', h⟩
    · exfalso
      have hmem : FileName.parts i ∈ nvs.map Prod.fst := by
        rw [produced_absent h1]
        refine List.mem_map.mpr ⟨⟨.parts i, []⟩, List.mem_filter.mpr ⟨List.mem_map.mpr ⟨i, List.mem_range.mpr hi, rfl⟩, ?_⟩, rfl⟩
        exact isAbsent_iff.mpr ha
      obtain ⟨nv, hnv, hname⟩ := List.mem_map.mp hmem
      obtain ⟨p, hp, -, h3, vs, h4, h5⟩ := produced_mem h1 hnv
      obtain ⟨j, -, rfl⟩ := List.mem_map.mp hp
      have hj : FileName.parts j = .parts i := by rw [← hname, h3]
      cases hj
      cases h4
      rw [show compute (.parts i) [] = _ from he] at h5
      cases h5
  obtain ⟨e', hphase⟩ := hphase
  refine ⟨e', ?_⟩
  unfold runPlan
  have : runPhases compute (snapPlan n).phases d = ([], .error e') := by
    show runPhases compute (_ :: _) d = _
    unfold runPhases
    rw [Script.bind_of_error hphase]
  rw [Script.bind_of_error this]

/-- A file with a fixed name. -/
def _root_.Verif.FileName.isNamed : FileName → Bool
  | .named _ => true
  | .parts _ => false

theorem parts_nodup (n : Nat) : ((List.range n).map FileName.parts).Nodup :=
  List.nodup_range.map fun _ _ h => by cases h; rfl

theorem parts_append_nodup (n : Nat) {l : List FileName} (hl : l.Nodup) (hn : ∀ x ∈ l, x.isNamed = true) :
    ((List.range n).map FileName.parts ++ l).Nodup := by
  rw [List.nodup_append]
  refine ⟨parts_nodup n, hl, ?_⟩
  intro a ha b hb hab
  obtain ⟨i, -, rfl⟩ := List.mem_map.mp ha
  have := hn _ hb
  rw [← hab] at this
  cases this

theorem snap_names (n : Nat) : (snapPlan n).products.map Product.name =
    (List.range n).map FileName.parts ++ [.named "maximum_gammas.p", .named "boxplot_results.p"] := by
  simp [snapPlan, Plan.products, single]

theorem nodup_compatible {plans : List Plan} (h : ((plans.flatMap Plan.products).map Product.name).Nodup) :
    Compatible plans := by
  intro P hP Q hQ p hp q hq hpq
  exact List.inj_on_of_nodup_map h (List.mem_flatMap.mpr ⟨P, hP, hp⟩) (List.mem_flatMap.mpr ⟨Q, hQ, hq⟩) hpq

/-- **C97.** The seven scripts of the repository meet the assumptions, for any number of SNAP graphs: each is sensible, and no two
use the same file – also when they share a directory. -/
theorem c97_scripts (n : Nat) : (∀ P ∈ cachedScripts n, Proper P) ∧ Compatible (cachedScripts n) := by
  constructor
  · intro P hP
    simp only [cachedScripts, List.mem_cons, List.not_mem_nil, or_false] at hP
    rcases hP with rfl | rfl | rfl | rfl | rfl | rfl | rfl
    · exact ⟨by decide +kernel, by simp [easyRegime, single, SourcesEarlier], by decide +kernel⟩
    · exact ⟨by decide +kernel, by simp [hardRegime, single, SourcesEarlier], by decide +kernel⟩
    · exact ⟨by decide +kernel, by simp [lazegaPlan, single, SourcesEarlier], by decide +kernel⟩
    · refine ⟨?_, by simp [snapPlan, single, SourcesEarlier], ?_⟩
      · rw [snap_names]
        exact parts_append_nodup n (by decide +kernel) (by decide +kernel)
      · intro s hs
        rw [← List.mem_map, snap_names]
        exact List.mem_append_right _ hs
    · exact ⟨by decide +kernel, by simp [hierarchicalPlan, single, SourcesEarlier], by decide +kernel⟩
    · exact ⟨by decide +kernel, by simp [scalesPlan, single, SourcesEarlier], by decide +kernel⟩
    · exact ⟨by decide +kernel, by simp [runtimePlan, single, SourcesEarlier], by decide +kernel⟩
  · refine nodup_compatible ?_
    have hperm : (((cachedScripts n).flatMap Plan.products).map Product.name).Perm
        ((List.range n).map FileName.parts ++ ([.named "maximum_gammas.p", .named "boxplot_results.p"] ++
          (([easyRegime, hardRegime, lazegaPlan, hierarchicalPlan, scalesPlan, runtimePlan].flatMap
            Plan.products).map Product.name))) := by
      have h1 : ((cachedScripts n).flatMap Plan.products).map Product.name =
          (([easyRegime, hardRegime, lazegaPlan].flatMap Plan.products).map Product.name) ++
          ((snapPlan n).products.map Product.name ++
          (([hierarchicalPlan, scalesPlan, runtimePlan].flatMap Plan.products).map Product.name)) := by
        simp [cachedScripts]
      have h2 : (([easyRegime, hardRegime, lazegaPlan, hierarchicalPlan, scalesPlan, runtimePlan].flatMap
            Plan.products).map Product.name) =
          (([easyRegime, hardRegime, lazegaPlan].flatMap Plan.products).map Product.name) ++
          (([hierarchicalPlan, scalesPlan, runtimePlan].flatMap Plan.products).map Product.name) := by
        simp
      rw [h1, h2, snap_names, ← List.append_assoc, ← List.append_assoc ((List.range n).map _),
        ← List.append_assoc ((List.range n).map _ ++ _)]
      exact List.perm_append_comm.append_right _
    exact hperm.nodup_iff.mpr (parts_append_nodup n (by decide +kernel) (by decide +kernel))

/-- **C97.** The last three Lazega result files are computed, but nothing uses them. -/
theorem c97_unused : ∀ name ∈ ["lazega_CHAMP5.p", "lazega_CHAMP6.p", "lazega_CHAMP7.p"],
    (∃ p ∈ lazegaPlan.products, p.name = .named name) ∧ ¬ Used lazegaPlan (.named name) := by
  unfold Used
  decide +kernel

/-! ### Witnesses -/

/-- A computation that never raises: the sum of the sources plus one. -/
def demo : FileName → List Nat → Except Stop Nat := fun _ vs => .ok (vs.sum + 1)

example : ∀ name vs, ∃ v, demo name vs = .ok v := fun _ vs => ⟨vs.sum + 1, rfl⟩

/-- Three SNAP graphs from scratch: five files, written one after the other, the last from the first three. -/
example : (runPlan demo (snapPlan 3) noFiles).1.length = 10 ∧ (runPlan demo (snapPlan 3) noFiles).2.toOption = some [1, 4] := by
  decide +kernel

/-- The hypotheses of `c97_torn_forever`: the Lazega script was killed while it wrote its third file. -/
example : ∃ d : Store Nat, Runs (cachedScripts 3) (fun _ vs v => v = vs.sum + 1) noFiles d ∧
    d (.named "lazega_CHAMP2.p") = .torn ∧ d (.named "lazega_CHAMP.p") = .full 2 ∧
    Used lazegaPlan (.named "lazega_CHAMP2.p") := by
  refine ⟨Function.update (Function.update (Function.update noFiles (.named "lazega_1M_louvain.p") (.full 1))
    (.named "lazega_CHAMP.p") (.full 2)) (.named "lazega_CHAMP2.p") .torn, Relation.ReflTransGen.single
    ⟨lazegaPlan, by simp [cachedScripts], demo, ?_, ?_⟩, by rfl, by rfl, by
      unfold Used; decide +kernel⟩
  · intro name vs v h
    cases h
    rfl
  · have h : (runPlan demo lazegaPlan noFiles).1[4]? = some (Function.update (Function.update (Function.update noFiles
      (.named "lazega_1M_louvain.p") (.full 1)) (.named "lazega_CHAMP.p") (.full 2)) (.named "lazega_CHAMP2.p") .torn) := rfl
    exact List.mem_cons_of_mem _ (List.mem_of_getElem? h)

/-- A stale result: after the graph is generated anew (a different one), the figures still show the old results. -/
example : ∃ d : Store Nat, (∀ p ∈ easyRegime.products, ∃ v, d p.name = .full v) ∧
    (runPlan (fun _ _ => .ok 7) easyRegime (Function.update d (.named "easy_regime_multilayer.p") .absent)).2.toOption =
      some [7, 2, 4, 7, 4, 4, 4] := by
  refine ⟨Script.now noFiles (runPlan demo easyRegime noFiles).1, ?_, by decide +kernel⟩
  have h : ∀ p ∈ easyRegime.products, ∃ v ∈ [1, 2, 4],
      (loadFile (Script.now noFiles (runPlan demo easyRegime noFiles).1) p.name).toOption = some v := by decide +kernel
  intro p hp
  obtain ⟨v, -, hv⟩ := h p hp
  refine ⟨v, loadFile_ok.mp ?_⟩
  cases hl : loadFile (Script.now noFiles (runPlan demo easyRegime noFiles).1) p.name with
  | error e => rw [hl] at hv; cases hv
  | ok w => rw [hl] at hv; cases hv; rfl

end Verif.Props
