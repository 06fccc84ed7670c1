import Verif.Proofs.LfrRuns

namespace Verif
open Spec
variable {Gr R : Type} {fmt : ℝ → String} {o : Workers Gr R} {num runs : Nat} {mu : ℝ} {d : Disk Gr R}
variable {Generated : ℝ → Gr → Prop} {Possible : Nat → String → Gr → R → Prop}

theorem KeepsGraphs.refl (d : Disk Gr R) : KeepsGraphs d d := fun _ _ => rfl
theorem KeepsGraphs.trans {d d' d'' : Disk Gr R} (h : KeepsGraphs d d') (h' : KeepsGraphs d' d'') : KeepsGraphs d d'' :=
  fun k hk => (h' k (by rw [h k hk]; exact hk)).trans (h k hk)

theorem KeepsGraphs.full {d d' : Disk Gr R} (h : KeepsGraphs d d') {k : Nat × String} {gs : List Gr}
    (hk : d.graphs k = .full gs) : d'.graphs k = .full gs := (h k (by rw [hk]; simp)).trans hk

theorem FinishedRows.mono {d d' : Disk Gr R} {P : Plots R} (hk : KeepsGraphs d d') (h : FinishedRows fmt Possible d P) :
    FinishedRows fmt Possible d' P := by
  obtain ⟨rows, h1, h2, h3⟩ := h
  refine ⟨rows, h1, h2, fun r hr => ?_⟩
  obtain ⟨num, runs, gs, hg, hrest⟩ := h3 r hr
  exact ⟨num, runs, gs, KeepsGraphs.full hk hg, hrest⟩

theorem GoodGraphs.congr {d d' : Disk Gr R} (hg : d'.graphs = d.graphs) (h : GoodGraphs fmt Generated d) :
    GoodGraphs fmt Generated d' := by
  intro k gs hk
  rw [hg] at hk
  exact h k gs hk

theorem KeepsGraphs.congr {d d' : Disk Gr R} (hg : d'.graphs = d.graphs) : KeepsGraphs d d' := by
  intro k hk
  rw [hg]

/-- What `generate_LFR_graphs` may do to the files. -/
structure GenStep (fmt : ℝ → String) (Generated : ℝ → Gr → Prop) (d d' : Disk Gr R) : Prop where
  keeps : KeepsGraphs d d'
  part : d'.partialResults = d.partialResults
  res : d'.results = d.results
  good : GoodGraphs fmt Generated d → GoodGraphs fmt Generated d'

theorem GenStep.refl (d : Disk Gr R) : GenStep fmt Generated d d := ⟨KeepsGraphs.refl d, rfl, rfl, id⟩
theorem GenStep.trans {d d' d'' : Disk Gr R} (h : GenStep fmt Generated d d') (h' : GenStep fmt Generated d' d'') :
    GenStep fmt Generated d d'' :=
  ⟨KeepsGraphs.trans h.keeps h'.keeps, h'.part.trans h.part, h'.res.trans h.res, h'.good ∘ h.good⟩

theorem delivered_mem {bs : List (Option (List (Option Gr)))} {G : Gr} (h : G ∈ delivered bs) :
    ∃ rs, some rs ∈ bs ∧ some G ∈ rs := by
  unfold delivered at h
  simp only [List.mem_filterMap, List.mem_flatten, id_eq, exists_eq_right] at h
  exact h

theorem generate_facts (ho : SoundWorkers Generated Possible o) (d : Disk Gr R) :
    (∀ d' ∈ (generateGraphs fmt o num mu d).1, GenStep fmt Generated d d') ∧
    ∀ gs, (generateGraphs fmt o num mu d).2 = .ok gs →
      (Script.now d (generateGraphs fmt o num mu d).1).graphs (num, fmt mu) = .full gs := by
  cases hd : d.graphs (num, fmt mu) with
  | full gs =>
    rw [generateGraphs_full hd]
    refine ⟨fun d' h => by simp at h, fun gs' h => ?_⟩
    cases h
    exact hd
  | torn =>
    rw [generateGraphs_torn hd]
    exact ⟨fun d' h => by simp at h, fun gs' h => by cases h⟩
  | absent =>
    rw [generateGraphs_absent hd]
    cases hc : collectGraphs num (o.batches mu) [] with
    | error x => exact ⟨fun d' h => by simp at h, fun gs' h => by cases h⟩
    | ok gs =>
      have hkeep : ∀ f : File (List Gr), KeepsGraphs d { d with graphs := Function.update d.graphs (num, fmt mu) f } := by
        intro f k hk
        have : k ≠ (num, fmt mu) := by
          rintro rfl
          exact hk hd
        show Function.update d.graphs (num, fmt mu) f k = _
        rw [Function.update_of_ne this]
      refine ⟨fun d' h => ?_, fun gs' h => ?_⟩
      · simp only [List.mem_cons, List.not_mem_nil, or_false] at h
        rcases h with rfl | rfl
        · refine ⟨hkeep _, rfl, rfl, fun hg k gs hk => ?_⟩
          by_cases hkk : k = (num, fmt mu)
          · subst hkk
            simp at hk
          · simp only [Function.update_of_ne hkk] at hk
            exact hg k gs hk
        · refine ⟨hkeep _, rfl, rfl, fun hg k gs' hk => ?_⟩
          by_cases hkk : k = (num, fmt mu)
          · subst hkk
            simp only [Function.update_self, File.full.injEq] at hk
            subst hk
            obtain ⟨h1, h2⟩ := collectGraphs_take hc
            rw [h1] at h2
            refine ⟨h2, mu, rfl, fun G hG => ?_⟩
            obtain ⟨rs, hr, hG⟩ := delivered_mem (List.mem_of_mem_take hG)
            exact ho.graphs mu rs hr G hG
          · simp only [Function.update_of_ne hkk] at hk
            exact hg k gs' hk
      · cases h
        simp

theorem generate_now (ho : SoundWorkers Generated Possible o) (d : Disk Gr R) :
    GenStep fmt Generated d (Script.now d (generateGraphs fmt o num mu d).1) := by
  rcases List.mem_cons.mp (Script.now_mem d (generateGraphs fmt o num mu d).1) with h | h
  · rw [h]; exact GenStep.refl d
  · exact (generate_facts ho d).1 _ h

theorem generateAll_facts (ho : SoundWorkers Generated Possible o) (mus : List ℝ) (d : Disk Gr R) :
    ∀ d' ∈ (generateAll fmt o num mus d).1, GenStep fmt Generated d d' := by
  induction mus generalizing d with
  | nil => intro d' h; simp [generateAll] at h
  | cons mu mus ih =>
    intro d' h
    rw [generateAll] at h
    rcases hg : generateGraphs fmt o num mu d with ⟨t, x | gs⟩
    · rw [Script.bind_of_error hg] at h
      have := (generate_facts (fmt := fmt) (num := num) (mu := mu) ho d).1 d'
      rw [hg] at this
      exact this h
    · rw [Script.bind_of_ok hg] at h
      rcases List.mem_append.mp h with h | h
      · have := (generate_facts (fmt := fmt) (num := num) (mu := mu) ho d).1 d'
        rw [hg] at this
        exact this h
      · have hn := generate_now (fmt := fmt) (num := num) (mu := mu) ho d
        rw [hg] at hn
        exact hn.trans (ih _ d' h)

theorem generateAll_now (ho : SoundWorkers Generated Possible o) (mus : List ℝ) (d : Disk Gr R) :
    GenStep fmt Generated d (Script.now d (generateAll fmt o num mus d).1) := by
  rcases List.mem_cons.mp (Script.now_mem d (generateAll fmt o num mus d).1) with h | h
  · rw [h]; exact GenStep.refl d
  · exact generateAll_facts ho mus d _ h

theorem forall₂_possible (ho : SoundWorkers Generated Possible o) {method : String} {gs : List Gr} {rs : List R}
    (h : starmapScores o runs mu method gs = .ok rs) : List.Forall₂ (Possible runs method) gs rs :=
  (starmapScores_ok h).imp fun _ _ ⟨_, hi⟩ => ho.scores _ _ _ _ _ _ hi

theorem plotsOf_keys (rows : List (Row R)) : (plotsOf rows).plot1.map Prod.fst = rows.map Row.mu := by
  simp [plotsOf, List.map_map, Function.comp_def]

theorem addRow_plotsOf {rows : List (Row R)} (h : mu ∉ rows.map Row.mu) (a b c e : List R) :
    addRow (plotsOf rows) mu a b c e = plotsOf (rows ++ [⟨mu, a, b, c, e⟩]) := by
  have key : ∀ f : Row R → List R, mu ∉ (rows.map fun r => (r.mu, f r)).map Prod.fst := by
    intro f
    simpa [List.map_map, Function.comp_def] using h
  unfold addRow plotsOf
  rw [dictSet_new (key _), dictSet_new (key _), dictSet_new (key _), dictSet_new (key _)]
  simp

theorem Extends.refl (P : Plots R) : Extends P P :=
  ⟨List.prefix_rfl, List.prefix_rfl, List.prefix_rfl, List.prefix_rfl⟩
theorem Extends.trans {P P' P'' : Plots R} (h : Extends P P') (h' : Extends P' P'') : Extends P P'' :=
  ⟨h.1.trans h'.1, h.2.1.trans h'.2.1, h.2.2.1.trans h'.2.2.1, h.2.2.2.trans h'.2.2.2⟩

theorem extends_plotsOf (rows more : List (Row R)) : Extends (plotsOf rows) (plotsOf (rows ++ more)) := by
  unfold Extends plotsOf
  simp

/-- What `run_experiment` may do to the files before it stores the results, having loaded `P`. -/
structure RunStep (fmt : ℝ → String) (Generated : ℝ → Gr → Prop) (Possible : Nat → String → Gr → R → Prop) (P : Plots R)
    (d d' : Disk Gr R) : Prop where
  keeps : KeepsGraphs d d'
  res : d'.results = d.results
  good : GoodGraphs fmt Generated d'
  part : d'.partialResults = d.partialResults ∨ d'.partialResults = .torn ∨
    ∃ P', d'.partialResults = .full P' ∧ Extends P P' ∧ FinishedRows fmt Possible d' P'

theorem loop_facts (ho : SoundWorkers Generated Possible o) (mus : List ℝ) {P : Plots R} {d : Disk Gr R}
    (hd : GoodGraphs fmt Generated d) (hP : FinishedRows fmt Possible d P) :
    (∀ d' ∈ (experimentLoop fmt o runs num mus P d).1, RunStep fmt Generated Possible P d d') ∧
    ∀ P', (experimentLoop fmt o runs num mus P d).2 = .ok P' →
      FinishedRows fmt Possible (Script.now d (experimentLoop fmt o runs num mus P d).1) P' ∧ Extends P P' ∧
      P'.plot1.map Prod.fst = P.plot1.map Prod.fst ++ missing (P.plot1.map Prod.fst) mus ∧
      (Loaded d P → Loaded (Script.now d (experimentLoop fmt o runs num mus P d).1) P') := by
  induction mus generalizing P d with
  | nil =>
    rw [experimentLoop]
    refine ⟨fun d' h => by simp at h, fun P' h => ?_⟩
    cases h
    exact ⟨hP, Extends.refl P, by simp [missing], id⟩
  | cons mu mus ih =>
    by_cases hm : mu ∈ P.plot1.map Prod.fst
    · rw [loop_mem hm]
      obtain ⟨h1, h2⟩ := ih hd hP
      refine ⟨h1, fun P' h => ?_⟩
      obtain ⟨a, b, c, e⟩ := h2 P' h
      refine ⟨a, b, ?_, e⟩
      rw [c, missing, if_pos hm]
    · have hgen : ∀ d' ∈ (generateGraphs fmt o num mu d).1, RunStep fmt Generated Possible P d d' := fun d' h => by
        have := (generate_facts (fmt := fmt) (num := num) (mu := mu) ho d).1 d' h
        exact ⟨this.keeps, this.res, this.good hd, Or.inl this.part⟩
      rcases loop_new_cases (fmt := fmt) (o := o) (runs := runs) (num := num) (d := d) mus hm with
        ⟨x, hx⟩ | ⟨t, gs, a, b, c, e, hg, h1, h2, h3, h4⟩
      · rw [hx]
        exact ⟨hgen, fun P' h => by cases h⟩
      · rw [loop_new_ok hm hg h1 h2 h3 h4]
        have hstep := generate_now (fmt := fmt) (num := num) (mu := mu) ho d
        have hfull := (generate_facts (fmt := fmt) (num := num) (mu := mu) ho d).2 gs (by rw [hg])
        rw [hg] at hgen hstep hfull
        simp only at hgen hstep hfull
        obtain ⟨rows, rfl, hnd, hrows⟩ := hP
        have hnew : mu ∉ rows.map Row.mu := by rw [← plotsOf_keys]; exact hm
        set d1 := Script.now d t with hd1
        have hadd := addRow_plotsOf hnew a b c e
        rw [hadd]
        set P2 := plotsOf (rows ++ [⟨mu, a, b, c, e⟩]) with hP2
        have hl : gs.length = num := (hstep.good hd _ _ hfull).1
        have hfin : ∀ dd : Disk Gr R, dd.graphs = d1.graphs → FinishedRows fmt Possible dd P2 := by
          intro dd hdd
          refine ⟨_, rfl, ?_, fun r hr => ?_⟩
          · rw [List.map_append, List.nodup_append]
            refine ⟨hnd, by simp, fun x hx y hy => ?_⟩
            simp only [List.map_cons, List.map_nil, List.mem_cons, List.not_mem_nil, or_false] at hy
            rintro rfl
            exact hnew (hy ▸ hx)
          · rcases List.mem_append.mp hr with hr | hr
            · obtain ⟨num', runs', gs', hg', hrest⟩ := hrows r hr
              refine ⟨num', runs', gs', ?_, hrest⟩
              rw [hdd]
              exact KeepsGraphs.full hstep.keeps hg'
            · simp only [List.mem_cons, List.not_mem_nil, or_false] at hr
              subst hr
              refine ⟨num, runs, gs, ?_, hl, forall₂_possible ho h1, forall₂_possible ho h2, forall₂_possible ho h3,
                forall₂_possible ho h4⟩
              rw [hdd]; exact hfull
        have hext : Extends (plotsOf rows) P2 := extends_plotsOf _ _
        set d2 : Disk Gr R := { d1 with partialResults := .full P2 } with hd2
        have hgood2 : GoodGraphs fmt Generated d2 := GoodGraphs.congr (d := d1) rfl (hstep.good hd)
        have hkeep2 : KeepsGraphs d d2 := KeepsGraphs.trans hstep.keeps (KeepsGraphs.congr rfl)
        obtain ⟨i1, i2⟩ := ih hgood2 (hfin d2 rfl)
        refine ⟨fun d' h => ?_, fun P' h => ?_⟩
        · simp only at h
          rcases List.mem_append.mp h with h | h
          · exact hgen d' h
          rcases List.mem_cons.mp h with rfl | h
          · exact ⟨KeepsGraphs.trans hstep.keeps (KeepsGraphs.congr rfl), hstep.res,
              GoodGraphs.congr (d := d1) rfl (hstep.good hd), Or.inr (Or.inl rfl)⟩
          rcases List.mem_cons.mp h with rfl | h
          · exact ⟨hkeep2, hstep.res, hgood2, Or.inr (Or.inr ⟨P2, rfl, hext, hfin _ rfl⟩)⟩
          · have hs := i1 d' h
            refine ⟨KeepsGraphs.trans hkeep2 hs.keeps, hs.res.trans hstep.res, hs.good, ?_⟩
            rcases hs.part with hp | hp | ⟨P', hp, he, hf⟩
            · refine Or.inr (Or.inr ⟨P2, hp, hext, ?_⟩)
              exact FinishedRows.mono hs.keeps (hfin d2 rfl)
            · exact Or.inr (Or.inl hp)
            · exact Or.inr (Or.inr ⟨P', hp, Extends.trans hext he, hf⟩)
        · have hnow : ∀ l : List (Disk Gr R), Script.now d (t ++ { d1 with partialResults := .torn } :: d2 :: l) = Script.now d2 l := by
            intro l
            rw [show t ++ { d1 with partialResults := .torn } :: d2 :: l = (t ++ [{ d1 with partialResults := .torn }, d2]) ++ l by
              simp, Script.now_append, Script.now_append, Script.now_pair]
          simp only at h ⊢
          rw [hnow]
          obtain ⟨j1, j2, j3, j4⟩ := i2 P' h
          refine ⟨j1, Extends.trans hext j2, ?_, fun _ => j4 (Or.inl rfl)⟩
          rw [j3, missing, if_neg hm, hP2, plotsOf_keys, plotsOf_keys]
          simp

theorem main_gen_error {mus : List ℝ} {t : List (Disk Gr R)} {x : Stop} (h : generateAll fmt o num mus d = (t, .error x)) :
    lfrMain fmt o runs num mus d = (t, .error x) := by
  unfold lfrMain
  rw [Script.bind_of_error h]

theorem main_full {mus : List ℝ} {t : List (Disk Gr R)} {P : Plots R} (h : generateAll fmt o num mus d = (t, .ok ()))
    (hr : (Script.now d t).results = .full P) : lfrMain fmt o runs num mus d = (t, .ok P) := by
  unfold lfrMain
  rw [Script.bind_of_ok h, Script.bind_of_ok (Script.files_eq _)]
  simp only [Script.now_nil, List.nil_append]
  rw [hr]
  simp only
  rw [Script.bind_of_ok (Script.files_eq _)]
  simp only [Script.now_nil, List.nil_append]
  rw [hr]
  simp

theorem main_torn {mus : List ℝ} {t : List (Disk Gr R)} (h : generateAll fmt o num mus d = (t, .ok ()))
    (hr : (Script.now d t).results = .torn) : lfrMain fmt o runs num mus d = (t, .error .unpickling) := by
  unfold lfrMain
  rw [Script.bind_of_ok h, Script.bind_of_ok (Script.files_eq _)]
  simp only [Script.now_nil, List.nil_append]
  rw [hr]
  simp only
  rw [Script.bind_of_ok (Script.files_eq _)]
  simp only [Script.now_nil, List.nil_append]
  rw [hr]
  simp

theorem main_run_error {mus : List ℝ} {t t' : List (Disk Gr R)} {x : Stop} (h : generateAll fmt o num mus d = (t, .ok ()))
    (hr : (Script.now d t).results = .absent) (he : runExperiment fmt o runs num mus (Script.now d t) = (t', .error x)) :
    lfrMain fmt o runs num mus d = (t ++ t', .error x) := by
  unfold lfrMain
  rw [Script.bind_of_ok h, Script.bind_of_ok (Script.files_eq _)]
  simp only [Script.now_nil, List.nil_append]
  rw [hr]
  simp only
  rw [Script.bind_of_error he]

theorem main_run_ok {mus : List ℝ} {t t' : List (Disk Gr R)} {P : Plots R} (h : generateAll fmt o num mus d = (t, .ok ()))
    (hr : (Script.now d t).results = .absent) (he : runExperiment fmt o runs num mus (Script.now d t) = (t', .ok ()))
    (hP : (Script.now (Script.now d t) t').results = .full P) :
    lfrMain fmt o runs num mus d = (t ++ t', .ok P) := by
  unfold lfrMain
  rw [Script.bind_of_ok h, Script.bind_of_ok (Script.files_eq _)]
  simp only [Script.now_nil, List.nil_append]
  rw [hr]
  simp only
  rw [Script.bind_of_ok he, Script.bind_of_ok (Script.files_eq _)]
  simp only [Script.now_nil, List.nil_append]
  rw [hP]
  simp

/-- The invariant of the files. -/
structure SoundDisk (fmt : ℝ → String) (Generated : ℝ → Gr → Prop) (Possible : Nat → String → Gr → R → Prop)
    (d : Disk Gr R) : Prop where
  good : GoodGraphs fmt Generated d
  part : ∀ P, d.partialResults = .full P → FinishedRows fmt Possible d P
  res : ∀ P, d.results = .full P → FinishedRows fmt Possible d P

theorem SoundDisk.loaded (h : SoundDisk fmt Generated Possible d) {P : Plots R} (hP : Loaded d P) :
    FinishedRows fmt Possible d P := by
  rcases hP with hP | ⟨_, rfl⟩
  · exact h.part P hP
  · exact ⟨[], rfl, by simp, fun r hr => by simp at hr⟩

theorem SoundDisk.gen {d' : Disk Gr R} (h : SoundDisk fmt Generated Possible d) (hs : GenStep fmt Generated d d') :
    SoundDisk fmt Generated Possible d' :=
  ⟨hs.good h.good, fun P hP => FinishedRows.mono hs.keeps (h.part P (hs.part ▸ hP)),
    fun P hP => FinishedRows.mono hs.keeps (h.res P (hs.res ▸ hP))⟩

theorem SoundDisk.run {P : Plots R} {d' : Disk Gr R} (h : SoundDisk fmt Generated Possible d)
    (hs : RunStep fmt Generated Possible P d d') : SoundDisk fmt Generated Possible d' := by
  refine ⟨hs.good, fun P' hP => ?_, fun P hP => FinishedRows.mono hs.keeps (h.res P (hs.res ▸ hP))⟩
  rcases hs.part with hp | hp | ⟨P'', hp, _, hf⟩
  · exact FinishedRows.mono hs.keeps (h.part P' (hp ▸ hP))
  · rw [hp] at hP; cases hP
  · rw [hp] at hP; cases hP; exact hf

/-- What `run_experiment` may do to the files. -/
structure ExpStep (fmt : ℝ → String) (Generated : ℝ → Gr → Prop) (Possible : Nat → String → Gr → R → Prop)
    (d d' : Disk Gr R) : Prop where
  keeps : KeepsGraphs d d'
  sound : SoundDisk fmt Generated Possible d'
  part : ∀ P, d.partialResults = .full P →
    d'.partialResults = .torn ∨ ∃ P', d'.partialResults = .full P' ∧ Extends P P'
  notorn : d.partialResults = .torn → d'.partialResults = .torn

theorem experiment_facts (ho : SoundWorkers Generated Possible o) (mus : List ℝ) (hd : SoundDisk fmt Generated Possible d) :
    ∀ d' ∈ (runExperiment fmt o runs num mus d).1, ExpStep fmt Generated Possible d d' := by
  by_cases ht : d.partialResults = .torn
  · rw [experiment_torn mus ht]
    intro d' h; simp at h
  obtain ⟨P, hP⟩ := loaded_exists ht
  rw [experiment_loaded mus hP]
  obtain ⟨h1, h2⟩ := loop_facts (runs := runs) (num := num) ho mus hd.good (hd.loaded hP)
  have hrun : ∀ d', RunStep fmt Generated Possible P d d' → ExpStep fmt Generated Possible d d' := by
    intro d' hs
    refine ⟨hs.keeps, hd.run hs, fun Q hQ => ?_, fun h => absurd h ht⟩
    have : P = Q := by
      rcases hP with hP | ⟨hP, _⟩ <;> rw [hP] at hQ <;> cases hQ
      rfl
    subst this
    rcases hs.part with hp | hp | ⟨P', hp, he, _⟩
    · exact Or.inr ⟨P, hp.trans hQ, Extends.refl P⟩
    · exact Or.inl hp
    · exact Or.inr ⟨P', hp, he⟩
  rcases hl : experimentLoop fmt o runs num mus P d with ⟨t, x | P'⟩
  · rw [hl] at h1
    simp only
    exact fun d' h => hrun d' (h1 d' h)
  · rw [hl] at h1 h2
    simp only
    obtain ⟨hf, -, -, -⟩ := h2 P' rfl
    have hnow : ExpStep fmt Generated Possible d (Script.now d t) := by
      rcases List.mem_cons.mp (Script.now_mem d t) with h | h
      · rw [h]
        exact ⟨KeepsGraphs.refl d, hd, fun Q hQ => Or.inr ⟨Q, hQ, Extends.refl Q⟩, id⟩
      · exact hrun _ (h1 _ h)
    split
    · exact fun d' h => hrun d' (h1 d' h)
    · intro d' h
      simp only [List.mem_append, List.mem_cons, List.not_mem_nil, or_false] at h
      rcases h with h | rfl | rfl
      · exact hrun d' (h1 d' h)
      · exact ⟨hnow.keeps, ⟨hnow.sound.good, hnow.sound.part, fun P h => by cases h⟩, hnow.part, hnow.notorn⟩
      · exact ⟨hnow.keeps, ⟨hnow.sound.good, hnow.sound.part, fun P h => by cases h; exact hf⟩, hnow.part, hnow.notorn⟩

theorem ExpStep.of_gen {d' : Disk Gr R} (h : SoundDisk fmt Generated Possible d) (hs : GenStep fmt Generated d d') :
    ExpStep fmt Generated Possible d d' :=
  ⟨hs.keeps, h.gen hs, fun P hP => Or.inr ⟨P, hs.part.trans hP, Extends.refl P⟩, fun hp => hs.part.trans hp⟩

theorem ExpStep.trans {d d' d'' : Disk Gr R} (h : ExpStep fmt Generated Possible d d')
    (h' : ExpStep fmt Generated Possible d' d'') : ExpStep fmt Generated Possible d d'' := by
  refine ⟨KeepsGraphs.trans h.keeps h'.keeps, h'.sound, fun P hP => ?_, fun hp => h'.notorn (h.notorn hp)⟩
  rcases h.part P hP with hp | ⟨P', hp, he⟩
  · exact Or.inl (h'.notorn hp)
  · rcases h'.part P' hp with hp | ⟨P'', hp, he'⟩
    · exact Or.inl hp
    · exact Or.inr ⟨P'', hp, Extends.trans he he'⟩

theorem main_facts (ho : SoundWorkers Generated Possible o) (mus : List ℝ) (hd : SoundDisk fmt Generated Possible d) :
    ∀ d' ∈ (lfrMain fmt o runs num mus d).1, ExpStep fmt Generated Possible d d' ∧
      (d.results ≠ .absent → d'.results = d.results) := by
  have hall := generateAll_facts (fmt := fmt) (num := num) ho mus d
  have hnow := generateAll_now (fmt := fmt) (num := num) ho mus d
  have hgen : ∀ d', GenStep fmt Generated d d' → ExpStep fmt Generated Possible d d' ∧
      (d.results ≠ .absent → d'.results = d.results) := fun d' h => ⟨ExpStep.of_gen hd h, fun _ => h.res⟩
  rcases hg : generateAll fmt o num mus d with ⟨t, x | ⟨⟩⟩
  · rw [hg] at hall
    rw [main_gen_error hg]
    exact fun d' h => hgen d' (hall d' h)
  · rw [hg] at hall hnow
    simp only at hall hnow
    cases hr : (Script.now d t).results with
    | full P =>
      rw [main_full hg hr]
      exact fun d' h => hgen d' (hall d' h)
    | torn =>
      rw [main_torn hg hr]
      exact fun d' h => hgen d' (hall d' h)
    | absent =>
      have hexp := experiment_facts (runs := runs) (num := num) ho mus (hd.gen hnow)
      have habs : d.results = .absent := hnow.res ▸ hr
      have hlist : (lfrMain fmt o runs num mus d).1 = t ++ (runExperiment fmt o runs num mus (Script.now d t)).1 := by
        unfold lfrMain
        rw [Script.bind_of_ok hg, Script.bind_of_ok (Script.files_eq _)]
        simp only [Script.now_nil, List.nil_append]
        rw [hr]
        simp only
        rcases he : runExperiment fmt o runs num mus (Script.now d t) with ⟨t', x | ⟨⟩⟩
        · rw [Script.bind_of_error he]
        · rw [Script.bind_of_ok he, Script.bind_of_ok (Script.files_eq _)]
          simp only [Script.now_nil, List.nil_append]
          cases (Script.now (Script.now d t) t').results <;> simp
      rw [hlist]
      intro d' h
      rcases List.mem_append.mp h with h | h
      · exact hgen d' (hall d' h)
      · exact ⟨(ExpStep.of_gen hd hnow).trans (hexp d' h), fun h => absurd habs h⟩

end Verif
