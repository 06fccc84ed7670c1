import Verif.Proofs.LfrRunsInv

namespace Verif
open Spec
variable {Gr R : Type} {fmt : ℝ → String} {o : Workers Gr R} {num runs : Nat} {mu : ℝ} {d : Disk Gr R}

/-- The files a finished `generate_LFR_graphs` leaves, and that it may be run again from any of its files. -/
theorem generate_resume {t : List (Disk Gr R)} {gs : List Gr} (h : generateGraphs fmt o num mu d = (t, .ok gs))
    {d' : Disk Gr R} (hd' : d' ∈ d :: t) (hn : d'.graphs (num, fmt mu) ≠ .torn) :
    ∃ t', generateGraphs fmt o num mu d' = (t', .ok gs) ∧ Script.now d' t' = Script.now d t ∧
      d'.partialResults = d.partialResults ∧ d'.results = d.results := by
  cases hd : d.graphs (num, fmt mu) with
  | full gs' =>
    rw [generateGraphs_full hd] at h
    cases h
    simp only [List.mem_cons, List.not_mem_nil, or_false] at hd'
    subst hd'
    exact ⟨[], generateGraphs_full hd, rfl, rfl, rfl⟩
  | torn => rw [generateGraphs_torn hd] at h; cases h
  | absent =>
    rcases List.mem_cons.mp hd' with rfl | hd'
    · exact ⟨t, h, rfl, rfl, rfl⟩
    rw [generateGraphs_absent hd] at h
    cases hc : collectGraphs num (o.batches mu) [] with
    | error x => rw [hc] at h; cases h
    | ok g =>
      rw [hc] at h
      cases h
      simp only [List.mem_cons, List.not_mem_nil, or_false] at hd'
      rcases hd' with rfl | rfl
      · simp at hn
      · refine ⟨[], generateGraphs_full (by simp), rfl, rfl, rfl⟩

theorem generate_keeps {t : List (Disk Gr R)} {r : Except Stop (List Gr)} (h : generateGraphs fmt o num mu d = (t, r)) {d' : Disk Gr R}
    (hd' : d' ∈ d :: t) : KeepsGraphs d d' ∧ d'.partialResults = d.partialResults ∧ d'.results = d.results := by
  have ho : SoundWorkers (fun _ _ => True) (fun _ _ _ _ => True) o := ⟨fun _ _ _ _ _ => trivial, fun _ _ _ _ _ _ _ => trivial⟩
  rcases List.mem_cons.mp hd' with rfl | hd'
  · exact ⟨KeepsGraphs.refl _, rfl, rfl⟩
  · have := (generate_facts (fmt := fmt) (num := num) (mu := mu) ho d).1 d' (by rw [h]; exact hd')
    exact ⟨this.keeps, this.part, this.res⟩

theorem generate_stored {t : List (Disk Gr R)} {gs : List Gr} (h : generateGraphs fmt o num mu d = (t, .ok gs)) :
    (Script.now d t).graphs (num, fmt mu) = .full gs := by
  have ho : SoundWorkers (fun _ _ => True) (fun _ _ _ _ => True) o := ⟨fun _ _ _ _ _ => trivial, fun _ _ _ _ _ _ _ => trivial⟩
  have := (generate_facts (fmt := fmt) (num := num) (mu := mu) ho d).2 gs (by rw [h])
  rw [h] at this
  exact this

theorem dictSet_keys {ν : Type} {l : List (ℝ × ν)} {k x : ℝ} {v : ν} :
    x ∈ (dictSet l k v).map Prod.fst ↔ x = k ∨ x ∈ l.map Prod.fst := by
  induction l with
  | nil => simp [dictSet]
  | cons y l ih =>
    obtain ⟨k', v'⟩ := y
    unfold dictSet
    split
    · rename_i h
      subst h
      simp
    · simp only [List.map_cons, List.mem_cons, ih]
      tauto

/-- With every mixing parameter there, the loop does nothing. -/
theorem loop_done {P : Plots R} (mus : List ℝ) (h : ∀ mu ∈ mus, mu ∈ P.plot1.map Prod.fst) :
    experimentLoop fmt o runs num mus P d = ([], .ok P) := by
  induction mus with
  | nil => rfl
  | cons mu mus ih =>
    rw [loop_mem (h mu (by simp))]
    exact ih fun x hx => h x (by simp [hx])

theorem loop_resume (mus : List ℝ) {P P' : Plots R} {d : Disk Gr R} {t : List (Disk Gr R)} (hP : Loaded d P)
    (h : experimentLoop fmt o runs num mus P d = (t, .ok P')) :
    (∀ mu ∈ mus, mu ∈ P'.plot1.map Prod.fst) ∧ (∀ x ∈ P.plot1.map Prod.fst, x ∈ P'.plot1.map Prod.fst) ∧
    Loaded (Script.now d t) P' ∧
    (∀ d' ∈ d :: t, d'.results = d.results) ∧
    (∀ d' ∈ d :: t, KeepsGraphs d d') ∧
    ∀ d' ∈ d :: t, d'.partialResults ≠ .torn → (∀ mu ∈ mus, d'.graphs (num, fmt mu) ≠ .torn) →
      ∃ P0, Loaded d' P0 ∧ (∀ x ∈ P.plot1.map Prod.fst, x ∈ P0.plot1.map Prod.fst) ∧
        ∃ t', experimentLoop fmt o runs num mus P0 d' = (t', .ok P') ∧ Script.now d' t' = Script.now d t := by
  induction mus generalizing P d t with
  | nil =>
    cases h
    refine ⟨by simp, fun _ h => h, hP, by simp, ?_, fun d' hd' hp hg => ?_⟩
    · intro d' hd'
      simp only [List.mem_cons, List.not_mem_nil, or_false] at hd'
      subst hd'
      exact KeepsGraphs.refl _
    simp only [List.mem_cons, List.not_mem_nil, or_false] at hd'
    subst hd'
    exact ⟨_, hP, fun _ h => h, [], rfl, rfl⟩
  | cons mu mus ih =>
    by_cases hm : mu ∈ P.plot1.map Prod.fst
    · rw [loop_mem hm] at h
      obtain ⟨i1, i2, i3, i4, i5, i6⟩ := ih hP h
      refine ⟨fun x hx => ?_, i2, i3, i4, i5, fun d' hd' hp hg => ?_⟩
      · rcases List.mem_cons.mp hx with rfl | hx
        · exact i2 _ hm
        · exact i1 x hx
      · obtain ⟨P0, hP0, hsub, t', ht', hn⟩ := i6 d' hd' hp fun x hx => hg x (by simp [hx])
        refine ⟨P0, hP0, hsub, t', ?_, hn⟩
        rw [loop_mem (hsub _ hm)]
        exact ht'
    · rcases loop_new_cases (fmt := fmt) (o := o) (runs := runs) (num := num) (d := d) mus hm with
        ⟨x, hx⟩ | ⟨tg, gs, a, b, c, e, hg, h1, h2, h3, h4⟩
      · rw [hx] at h; cases h
      · have h0 := h
        rw [loop_new_ok hm hg h1 h2 h3 h4] at h
        set d1 := Script.now d tg with hd1
        set P2 := addRow P mu a b c e with hP2
        set d2 : Disk Gr R := { d1 with partialResults := .full P2 } with hd2
        rcases hl : experimentLoop fmt o runs num mus P2 d2 with ⟨t2, r2⟩
        rw [hl] at h
        simp only [Prod.mk.injEq] at h
        obtain ⟨rfl, rfl⟩ := h
        obtain ⟨i1, i2, i3, i4, i5, i6⟩ := ih (Or.inl rfl) hl
        have hkeys : ∀ x, x ∈ P2.plot1.map Prod.fst ↔ x = mu ∨ x ∈ P.plot1.map Prod.fst := fun x => dictSet_keys
        have hnow : ∀ (dd : Disk Gr R) (tt l : List (Disk Gr R)) (z : Disk Gr R), Script.now dd (tt ++ z :: d2 :: l) = Script.now d2 l := by
          intro dd tt l z
          rw [show tt ++ z :: d2 :: l = (tt ++ [z, d2]) ++ l by simp, Script.now_append, Script.now_append, Script.now_pair]
        have hgk := fun d' hd' => generate_keeps hg (d' := d') hd'
        have hd1mem : d1 ∈ d :: tg := Script.now_mem d tg
        refine ⟨fun x hx => ?_, fun x hx => i2 x ((hkeys x).mpr (Or.inr hx)), by rw [hnow]; exact i3, fun d' hd' => ?_,
          fun d' hd' => ?_, fun d' hd' hp hgr => ?_⟩
        · rcases List.mem_cons.mp hx with rfl | hx
          · exact i2 _ ((hkeys _).mpr (Or.inl rfl))
          · exact i1 x hx
        · rw [← List.cons_append, List.mem_append] at hd'
          rcases hd' with hd' | hd'
          · exact (hgk d' hd').2.2
          rcases List.mem_cons.mp hd' with rfl | hd'
          · exact (hgk d1 hd1mem).2.2
          · exact (i4 d' hd').trans (hgk d1 hd1mem).2.2
        · rw [← List.cons_append, List.mem_append] at hd'
          rcases hd' with hd' | hd'
          · exact (hgk d' hd').1
          rcases List.mem_cons.mp hd' with rfl | hd'
          · exact KeepsGraphs.trans (hgk d1 hd1mem).1 (KeepsGraphs.congr rfl)
          · exact KeepsGraphs.trans (KeepsGraphs.trans (hgk d1 hd1mem).1 (KeepsGraphs.congr rfl)) (i5 d' hd')
        · rw [hnow]
          rw [← List.cons_append, List.mem_append] at hd'
          rcases hd' with hd' | hd'
          · obtain ⟨t', ht', hn, hpp, hrr⟩ := generate_resume hg hd' (hgr mu (by simp))
            refine ⟨P, ?_, fun _ h => h, ?_⟩
            · rcases hP with hP | ⟨hP, hP'⟩
              · exact Or.inl (hpp.trans hP)
              · exact Or.inr ⟨hpp.trans hP, hP'⟩
            · rw [loop_new_ok hm ht' h1 h2 h3 h4, hn]
              rw [← hd1, ← hP2, ← hd2, hl]
              exact ⟨_, rfl, hnow _ _ _ _⟩
          rcases List.mem_cons.mp hd' with rfl | hd'
          · exact absurd rfl hp
          · obtain ⟨P0, hP0, hsub, t', ht', hn⟩ := i6 d' hd' hp fun x hx => hgr x (by simp [hx])
            refine ⟨P0, hP0, fun x hx => hsub x ((hkeys x).mpr (Or.inr hx)), t', ?_, hn⟩
            rw [loop_mem (hsub _ ((hkeys _).mpr (Or.inl rfl)))]
            exact ht'

theorem experiment_ok {mus : List ℝ} {t : List (Disk Gr R)} (h : runExperiment fmt o runs num mus d = (t, .ok ())) :
    ∃ P P' tl, Loaded d P ∧ experimentLoop fmt o runs num mus P d = (tl, .ok P') ∧ mus ≠ [] ∧
      t = tl ++ [{ Script.now d tl with results := .torn }, { Script.now d tl with results := .full P' }] := by
  by_cases ht : d.partialResults = .torn
  · rw [experiment_torn mus ht] at h; cases h
  obtain ⟨P, hP⟩ := loaded_exists ht
  rw [experiment_loaded mus hP] at h
  rcases hl : experimentLoop fmt o runs num mus P d with ⟨tl, x | P'⟩
  · rw [hl] at h; cases h
  · rw [hl] at h
    simp only at h
    split at h
    · cases h
    · rename_i hm
      refine ⟨P, P', tl, hP, hl, ?_, (Prod.mk.inj h).1.symm⟩
      rintro rfl
      simp at hm

theorem experiment_resume {mus : List ℝ} {t : List (Disk Gr R)} (h : runExperiment fmt o runs num mus d = (t, .ok ()))
    {d' : Disk Gr R} (hd' : d' ∈ d :: t) (hp : d'.partialResults ≠ .torn) (hg : ∀ mu ∈ mus, d'.graphs (num, fmt mu) ≠ .torn) :
    ∃ t', runExperiment fmt o runs num mus d' = (t', .ok ()) ∧ Script.now d' t' = Script.now d t := by
  obtain ⟨P, P', tl, hP, hl, hm, rfl⟩ := experiment_ok h
  obtain ⟨i1, i2, i3, i4, i5, i6⟩ := loop_resume mus hP hl
  have hm' : ¬ mus.length = 0 := by simpa using hm
  rw [← List.cons_append, List.mem_append] at hd'
  rw [Script.now_append, Script.now_pair]
  rcases hd' with hd' | hd'
  · obtain ⟨P0, hP0, -, t', ht', hn⟩ := i6 d' hd' hp hg
    rw [experiment_loaded mus hP0, ht']
    simp only [if_neg hm']
    refine ⟨_, rfl, ?_⟩
    rw [Script.now_append, Script.now_pair, hn]
  · simp only [List.mem_cons, List.not_mem_nil, or_false] at hd'
    have hload : Loaded d' P' := by
      rcases hd' with rfl | rfl <;> exact i3
    rw [experiment_loaded mus hload, loop_done mus i1]
    simp only [if_neg hm']
    refine ⟨_, rfl, ?_⟩
    rw [List.nil_append, Script.now_pair, Script.now_nil]
    rcases hd' with rfl | rfl <;> rfl

theorem generateAll_ok {mus : List ℝ} {d : Disk Gr R} {t : List (Disk Gr R)} (h : generateAll fmt o num mus d = (t, .ok ())) :
    (∀ mu ∈ mus, ∃ gs, (Script.now d t).graphs (num, fmt mu) = .full gs) ∧
    ∀ d' ∈ d :: t, KeepsGraphs d d' ∧ d'.partialResults = d.partialResults ∧ d'.results = d.results := by
  induction mus generalizing d t with
  | nil =>
    cases h
    refine ⟨by simp, fun d' hd' => ?_⟩
    simp only [List.mem_cons, List.not_mem_nil, or_false] at hd'
    subst hd'
    exact ⟨KeepsGraphs.refl _, rfl, rfl⟩
  | cons mu mus ih =>
    rw [generateAll] at h
    obtain ⟨t1, gs, t2, hg, h2, rfl⟩ := Script.bind_ok.mp h
    obtain ⟨i1, i2⟩ := ih h2
    rw [Script.now_append]
    refine ⟨fun x hx => ?_, fun d' hd' => ?_⟩
    · rcases List.mem_cons.mp hx with rfl | hx
      · exact ⟨gs, KeepsGraphs.full (i2 _ (Script.now_mem _ _)).1 (generate_stored hg)⟩
      · exact i1 x hx
    · rw [← List.cons_append, List.mem_append] at hd'
      rcases hd' with hd' | hd'
      · exact generate_keeps hg hd'
      · obtain ⟨a, b, c⟩ := i2 d' (List.mem_cons_of_mem _ hd')
        obtain ⟨a', b', c'⟩ := generate_keeps hg (Script.now_mem d t1)
        exact ⟨KeepsGraphs.trans a' a, b.trans b', c.trans c'⟩

theorem generateAll_done {mus : List ℝ} (h : ∀ mu ∈ mus, ∃ gs, d.graphs (num, fmt mu) = .full gs) :
    generateAll fmt o num mus d = ([], .ok ()) := by
  induction mus with
  | nil => rfl
  | cons mu mus ih =>
    obtain ⟨gs, hgs⟩ := h mu (by simp)
    rw [generateAll, Script.bind_of_ok (generateGraphs_full hgs)]
    simp only [Script.now_nil, List.nil_append]
    exact ih fun x hx => h x (by simp [hx])

theorem generateAll_resume {mus : List ℝ} {d : Disk Gr R} {t : List (Disk Gr R)} (h : generateAll fmt o num mus d = (t, .ok ()))
    {d' : Disk Gr R} (hd' : d' ∈ d :: t) (hg : ∀ mu ∈ mus, d'.graphs (num, fmt mu) ≠ .torn) :
    ∃ t', generateAll fmt o num mus d' = (t', .ok ()) ∧ Script.now d' t' = Script.now d t := by
  induction mus generalizing d d' t with
  | nil =>
    cases h
    simp only [List.mem_cons, List.not_mem_nil, or_false] at hd'
    subst hd'
    exact ⟨[], rfl, rfl⟩
  | cons mu mus ih =>
    rw [generateAll] at h
    obtain ⟨t1, gs, t2, hgen, h2, rfl⟩ := Script.bind_ok.mp h
    rw [Script.now_append]
    rw [← List.cons_append, List.mem_append] at hd'
    rw [generateAll]
    rcases hd' with hd' | hd'
    · obtain ⟨t', ht', hn, -, -⟩ := generate_resume hgen hd' (hg mu (by simp))
      refine ⟨t' ++ t2, Script.bind_ok.mpr ⟨t', gs, t2, ht', ?_, rfl⟩, ?_⟩
      · rw [hn]; exact h2
      · rw [Script.now_append, hn]
    · obtain ⟨t', ht', hn⟩ := ih h2 (List.mem_cons_of_mem _ hd') fun x hx => hg x (by simp [hx])
      have hk := ((generateAll_ok h2).2 d' (List.mem_cons_of_mem _ hd')).1
      refine ⟨t', Script.bind_ok.mpr ⟨[], gs, t', generateGraphs_full (KeepsGraphs.full hk (generate_stored hgen)), ht', rfl⟩, hn⟩

theorem main_ok {mus : List ℝ} {t : List (Disk Gr R)} {P : Plots R} (h : lfrMain fmt o runs num mus d = (t, .ok P)) :
    ∃ t1, generateAll fmt o num mus d = (t1, .ok ()) ∧
      ((Script.now d t1).results = .full P ∧ t = t1 ∨
       (Script.now d t1).results = .absent ∧ ∃ t2, runExperiment fmt o runs num mus (Script.now d t1) = (t2, .ok ()) ∧
        (Script.now (Script.now d t1) t2).results = .full P ∧ t = t1 ++ t2) := by
  rcases hg : generateAll fmt o num mus d with ⟨t1, x | ⟨⟩⟩
  · rw [main_gen_error hg] at h; cases h
  refine ⟨t1, rfl, ?_⟩
  cases hr : (Script.now d t1).results with
  | full Q =>
    rw [main_full hg hr] at h
    cases h
    exact Or.inl ⟨rfl, rfl⟩
  | torn => rw [main_torn hg hr] at h; cases h
  | absent =>
    rcases he : runExperiment fmt o runs num mus (Script.now d t1) with ⟨t2, x | ⟨⟩⟩
    · rw [main_run_error hg hr he] at h; cases h
    · obtain ⟨P0, P', tl, hP, hl, hm, rfl⟩ := experiment_ok he
      have hres : (Script.now (Script.now d t1) (tl ++ [{ Script.now (Script.now d t1) tl with results := .torn },
          { Script.now (Script.now d t1) tl with results := .full P' }])).results = .full P' := by
        rw [Script.now_append, Script.now_pair]
      rw [main_run_ok hg hr he hres] at h
      cases h
      exact Or.inr ⟨rfl, _, rfl, hres, rfl⟩

theorem main_resume {mus : List ℝ} {t : List (Disk Gr R)} {P : Plots R} (h : lfrMain fmt o runs num mus d = (t, .ok P))
    {d' : Disk Gr R} (hd' : d' ∈ d :: t) (hp : d'.partialResults ≠ .torn) (hr : d'.results ≠ .torn)
    (hg : ∀ mu ∈ mus, d'.graphs (num, fmt mu) ≠ .torn) :
    ∃ t', lfrMain fmt o runs num mus d' = (t', .ok P) ∧ Script.now d' t' = Script.now d t := by
  obtain ⟨t1, hgen, hcase⟩ := main_ok h
  obtain ⟨g1, g2⟩ := generateAll_ok hgen
  rcases hcase with ⟨hres, rfl⟩ | ⟨habs, t2, hrun, hres, rfl⟩
  · obtain ⟨t', ht', hn⟩ := generateAll_resume hgen hd' hg
    exact ⟨t', main_full ht' (by rw [hn]; exact hres), hn⟩
  · rw [← List.cons_append, List.mem_append] at hd'
    rw [Script.now_append]
    rcases hd' with hd' | hd'
    · obtain ⟨t', ht', hn⟩ := generateAll_resume hgen hd' hg
      refine ⟨t' ++ t2, main_run_ok ht' (by rw [hn]; exact habs) (by rw [hn]; exact hrun) (by rw [hn]; exact hres), ?_⟩
      rw [Script.now_append, hn]
    · have hmem : d' ∈ Script.now d t1 :: t2 := List.mem_cons_of_mem _ hd'
      have hkeep : KeepsGraphs (Script.now d t1) d' ∧ (d'.results = .absent ∨ d' = Script.now (Script.now d t1) t2) := by
        obtain ⟨P0, P', tl, hP, hl, hm, rfl⟩ := experiment_ok hrun
        obtain ⟨-, -, -, i4, hk, -⟩ := loop_resume mus hP hl
        rw [← List.cons_append, List.mem_append] at hmem
        rcases hmem with hmem | hmem
        · exact ⟨hk d' hmem, Or.inl ((i4 d' hmem).trans habs)⟩
        · simp only [List.mem_cons, List.not_mem_nil, or_false] at hmem
          rcases hmem with rfl | rfl
          · exact absurd rfl hr
          · refine ⟨KeepsGraphs.trans (hk _ (Script.now_mem _ _)) (KeepsGraphs.congr rfl), Or.inr ?_⟩
            rw [Script.now_append, Script.now_pair]
      have hall : generateAll fmt o num mus d' = ([], .ok ()) := by
        apply generateAll_done
        intro mu hmu
        obtain ⟨gs, hgs⟩ := g1 mu hmu
        exact ⟨gs, KeepsGraphs.full hkeep.1 hgs⟩
      rcases hkeep.2 with ha | rfl
      · obtain ⟨t', ht', hn⟩ := experiment_resume hrun hmem hp hg
        refine ⟨[] ++ t', main_run_ok hall ha ht' (by rw [Script.now_nil, hn]; exact hres), ?_⟩
        rw [List.nil_append]; exact hn
      · exact ⟨[], main_full hall hres, rfl⟩

end Verif
