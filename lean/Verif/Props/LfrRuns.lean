import Mathlib.Tactic.NormNum
import Verif.Proofs.LfrRunsResume

/-!
# C90: interrupted and resumed LFR benchmarks
-/

namespace Verif.Props
open Verif Spec
variable {Gr R : Type} {fmt : ℝ → String} {o : Workers Gr R} {num runs : Nat} {mu : ℝ} {d d' : Disk Gr R}
variable {Generated : ℝ → Gr → Prop} {Possible : Nat → String → Gr → R → Prop}

theorem emptyDisk_sound : SoundDisk fmt Generated Possible (emptyDisk : Disk Gr R) :=
  ⟨fun _ _ h => (by cases h), fun _ h => (by cases h), fun _ h => (by cases h)⟩

theorem interrupted_step (hd : SoundDisk fmt Generated Possible d) (h : Interrupted fmt Generated Possible d d') :
    ExpStep fmt Generated Possible d d' := by
  obtain ⟨o, c, ho, hm⟩ := h
  rcases List.mem_cons.mp hm with rfl | hm
  · exact ExpStep.of_gen hd (GenStep.refl _)
  · cases c with
    | generate num mu => exact ExpStep.of_gen hd ((generate_facts ho d).1 d' hm)
    | experiment runs num mus => exact experiment_facts ho mus hd d' hm
    | main runs num mus => exact (main_facts ho mus hd d' hm).1

theorem history_step (hd : SoundDisk fmt Generated Possible d) (h : History fmt Generated Possible d d') :
    ExpStep fmt Generated Possible d d' := by
  induction h with
  | refl => exact ExpStep.of_gen hd (GenStep.refl _)
  | tail _ h ih => exact ih.trans (interrupted_step ih.sound h)

theorem history_sound (h : History fmt Generated Possible emptyDisk d) : SoundDisk fmt Generated Possible d :=
  (history_step emptyDisk_sound h).sound

/-- **C90.** Whatever commands were started, and at whatever moments they were interrupted: a complete graph file holds the
number of graphs in its name, all generated for a mixing parameter formatted as in its name; and complete results, partial or
not, hold finished rows only, one result of each method for every graph of such a file. -/
theorem c90_files_sound (h : History fmt Generated Possible emptyDisk d) :
    GoodGraphs fmt Generated d ∧ (∀ P, d.partialResults = .full P → FinishedRows fmt Possible d P) ∧
      ∀ P, d.results = .full P → FinishedRows fmt Possible d P :=
  ⟨(history_sound h).good, (history_sound h).part, (history_sound h).res⟩

/-- **C90.** No later command, interrupted or not, changes a graph file; and stored rows are kept unless the file is being
written. -/
theorem c90_files_kept (h : History fmt Generated Possible emptyDisk d) (h' : History fmt Generated Possible d d') :
    KeepsGraphs d d' ∧ ∀ P, d.partialResults = .full P →
      d'.partialResults = .torn ∨ ∃ P', d'.partialResults = .full P' ∧ Extends P P' :=
  ⟨(history_step (history_sound h) h').keeps, (history_step (history_sound h) h').part⟩

/-- **C90.** `generate_LFR_graphs` returns the first `num` graphs delivered if there is no file yet, storing them, and the
stored graphs otherwise, whatever is delivered; its assertion never fails. -/
theorem c90_generate (fmt : ℝ → String) (o : Workers Gr R) (num : Nat) (mu : ℝ) (d : Disk Gr R) :
    (d.graphs (num, fmt mu) = .absent → num ≤ (delivered (o.batches mu)).length →
      ∃ t, generateGraphs fmt o num mu d = (t, .ok ((delivered (o.batches mu)).take num)) ∧
        Script.now d t = { d with graphs := Function.update d.graphs (num, fmt mu) (.full ((delivered (o.batches mu)).take num)) }) ∧
    (∀ gs, d.graphs (num, fmt mu) = .full gs → generateGraphs fmt o num mu d = ([], .ok gs)) ∧
    (generateGraphs fmt o num mu d).2 ≠ .error .assertion := by
  refine ⟨fun hd hn => ?_, fun gs => generateGraphs_full, ?_⟩
  · obtain ⟨gs, hgs⟩ := collectGraphs_enough (acc := []) (bs := o.batches mu) (by simpa using hn)
    rw [generateGraphs_absent hd, hgs]
    exact ⟨_, rfl, rfl⟩
  · have hc : ∀ bs (acc : List Gr), collectGraphs num bs acc ≠ .error .assertion := by
      intro bs
      induction bs with
      | nil => intro acc; unfold collectGraphs; split <;> simp
      | cons b bs ih =>
        intro acc
        unfold collectGraphs
        split
        · cases b with
          | none => exact ih acc
          | some rs => exact ih _
        · simp
    cases hd : d.graphs (num, fmt mu) with
    | full gs => rw [generateGraphs_full hd]; simp
    | torn => rw [generateGraphs_torn hd]; simp
    | absent =>
      rw [generateGraphs_absent hd]
      cases hcc : collectGraphs num (o.batches mu) [] with
      | error x =>
        simp only
        intro h
        cases h
        exact hc _ _ hcc
      | ok gs => simp

/-- **C90.** A `run_experiment` that returns has stored, as results and as partial results, the rows it found and, after
them, a finished row for each of the other mixing parameters, in their order. -/
theorem c90_finished (h : History fmt Generated Possible emptyDisk d) (ho : SoundWorkers Generated Possible o) {mus : List ℝ}
    {t : List (Disk Gr R)} (hr : runExperiment fmt o runs num mus d = (t, .ok ())) :
    ∃ P rows, Loaded d P ∧ (Script.now d t).results = .full (plotsOf rows) ∧
      (Script.now d t).partialResults = .full (plotsOf rows) ∧ Extends P (plotsOf rows) ∧
      rows.map Row.mu = P.plot1.map Prod.fst ++ missing (P.plot1.map Prod.fst) mus ∧
      ∀ r ∈ rows, FinishedRow fmt Possible (Script.now d t) r := by
  obtain ⟨P, P', tl, hP, hl, hm, rfl⟩ := experiment_ok hr
  have hs := history_sound h
  obtain ⟨-, h2⟩ := loop_facts (runs := runs) (num := num) ho mus hs.good (hs.loaded hP)
  rw [hl] at h2
  obtain ⟨hf, he, hk, hload⟩ := h2 P' rfl
  simp only at hf hload
  obtain ⟨rows, rfl, hnd, hrows⟩ := hf
  rw [Script.now_append, Script.now_pair]
  refine ⟨P, rows, hP, rfl, ?_, he, ?_, fun r hr => ?_⟩
  · rcases hload hP with hp | ⟨_, hp⟩
    · exact hp
    · exfalso
      cases mus with
      | nil => exact hm rfl
      | cons mu mus =>
        have hmem := (loop_resume _ hP hl).1 mu (by simp)
        rw [hp] at hmem
        simp at hmem
  · rw [← plotsOf_keys, hk]
  · exact hrows r hr

/-- **C90.** `run_experiment` started again does not use the workers for mixing parameters whose rows are stored: two runs
whose workers agree on the other mixing parameters do the same. -/
theorem c90_resume_skips {P : Plots R} (hP : Loaded d P) {o o' : Workers Gr R} (runs num : Nat) {mus : List ℝ}
    (hb : ∀ mu ∈ missing (P.plot1.map Prod.fst) mus, o.batches mu = o'.batches mu)
    (hs : ∀ mu ∈ missing (P.plot1.map Prod.fst) mus, ∀ method i G, o.score runs mu method i G = o'.score runs mu method i G) :
    runExperiment fmt o runs num mus d = runExperiment fmt o' runs num mus d := by
  rw [experiment_loaded mus hP, experiment_loaded mus hP]
  have key : ∀ (mus : List ℝ) (P : Plots R) (d : Disk Gr R) (done : List ℝ), (∀ x, x ∈ done ↔ x ∈ P.plot1.map Prod.fst) →
      (∀ mu ∈ missing done mus, o.batches mu = o'.batches mu) →
      (∀ mu ∈ missing done mus, ∀ method i G, o.score runs mu method i G = o'.score runs mu method i G) →
      experimentLoop fmt o runs num mus P d = experimentLoop fmt o' runs num mus P d := by
    intro mus
    induction mus with
    | nil => intros; rfl
    | cons mu mus ih =>
      intro P d done hdone hb hs
      unfold missing at hb hs
      by_cases hm : mu ∈ P.plot1.map Prod.fst
      · rw [if_pos ((hdone mu).mpr hm)] at hb hs
        rw [loop_mem hm, loop_mem hm]
        exact ih P d done hdone hb hs
      · rw [if_neg (fun h => hm ((hdone mu).mp h))] at hb hs
        have hgen : generateGraphs fmt o num mu = generateGraphs fmt o' num mu := by
          unfold generateGraphs
          rw [hb mu (by simp)]
        have hsc : ∀ method gs, starmapScores o runs mu method gs = starmapScores o' runs mu method gs := by
          intro method gs
          unfold starmapScores
          rw [show (fun Gi : Gr × Nat => o.score runs mu method Gi.2 Gi.1) = fun Gi => o'.score runs mu method Gi.2 Gi.1 from
            funext fun Gi => hs mu (by simp) method Gi.2 Gi.1]
        rw [experimentLoop, experimentLoop, if_neg hm, if_neg hm, hgen]
        refine congrFun (congrArg _ (funext fun gs => ?_)) d
        rw [hsc, hsc, hsc, hsc]
        refine congrArg _ (funext fun a => congrArg _ (funext fun b => congrArg _ (funext fun c => congrArg _ (funext fun e => ?_))))
        dsimp only
        refine congrArg _ (funext fun _ => funext fun d => ?_)
        refine ih _ d (done ++ [mu]) (fun x => ?_) (fun x hx => hb x (List.mem_cons_of_mem _ hx))
          fun x hx => hs x (List.mem_cons_of_mem _ hx)
        rw [dictSet_keys]
        simp only [List.mem_append, List.mem_cons, List.not_mem_nil, or_false, hdone]
        tauto
  rw [key mus P d _ (fun _ => Iff.rfl) hb hs]

/-- **C90.** A run of `run_experiment` interrupted at any moment at which no file was being written, and started again,
finishes with the same files as if it had not been interrupted. -/
theorem c90_resume_same {mus : List ℝ} {t : List (Disk Gr R)} (h : runExperiment fmt o runs num mus d = (t, .ok ()))
    (hd' : d' ∈ d :: t) (hp : d'.partialResults ≠ .torn) (hg : ∀ mu ∈ mus, d'.graphs (num, fmt mu) ≠ .torn) :
    ∃ t', runExperiment fmt o runs num mus d' = (t', .ok ()) ∧ Script.now d' t' = Script.now d t :=
  experiment_resume h hd' hp hg

/-- **C90.** The same for the whole script; it plots the same data. -/
theorem c90_script_resume_same {mus : List ℝ} {t : List (Disk Gr R)} {P : Plots R}
    (h : lfrMain fmt o runs num mus d = (t, .ok P)) (hd' : d' ∈ d :: t) (hp : d'.partialResults ≠ .torn)
    (hr : d'.results ≠ .torn) (hg : ∀ mu ∈ mus, d'.graphs (num, fmt mu) ≠ .torn) :
    ∃ t', lfrMain fmt o runs num mus d' = (t', .ok P) ∧ Script.now d' t' = Script.now d t :=
  main_resume h hd' hp hr hg

theorem generate_returns (hd : d.graphs (num, fmt mu) ≠ .torn) (hb : num ≤ (delivered (o.batches mu)).length) :
    ∃ t gs, generateGraphs fmt o num mu d = (t, .ok gs) := by
  cases hk : d.graphs (num, fmt mu) with
  | full gs => exact ⟨_, _, generateGraphs_full hk⟩
  | torn => exact absurd hk hd
  | absent =>
    obtain ⟨t, ht, _⟩ := (c90_generate fmt o num mu d).1 hk hb
    exact ⟨t, _, ht⟩

theorem generate_no_torn {t : List (Disk Gr R)} {gs : List Gr} (h : generateGraphs fmt o num mu d = (t, .ok gs)) {mu' : ℝ}
    (hd : d.graphs (num, fmt mu') ≠ .torn) : (Script.now d t).graphs (num, fmt mu') ≠ .torn := by
  by_cases hk : d.graphs (num, fmt mu') = .absent
  · cases hm : d.graphs (num, fmt mu) with
    | full gs' => rw [generateGraphs_full hm] at h; cases h; exact hd
    | torn => rw [generateGraphs_torn hm] at h; cases h
    | absent =>
      by_cases hf : fmt mu' = fmt mu
      · rw [hf, generate_stored h]; simp
      · rw [generateGraphs_absent hm] at h
        cases hc : collectGraphs num (o.batches mu) [] with
        | error x => rw [hc] at h; cases h
        | ok g =>
          rw [hc] at h
          cases h
          rw [Script.now_pair]
          show Function.update d.graphs _ _ _ ≠ _
          rw [Function.update_of_ne (by simpa using hf)]
          exact hd
  · rw [(generate_keeps h (Script.now_mem d t)).1 _ hk]
    exact hd

theorem generateAll_returns (mus : List ℝ) (d : Disk Gr R) (hg : ∀ mu ∈ mus, d.graphs (num, fmt mu) ≠ .torn)
    (hb : ∀ mu ∈ mus, num ≤ (delivered (o.batches mu)).length) : ∃ t, generateAll fmt o num mus d = (t, .ok ()) := by
  induction mus generalizing d with
  | nil => exact ⟨[], rfl⟩
  | cons mu l ih =>
    obtain ⟨t, gs, ht⟩ := generate_returns (o := o) (hg mu (by simp)) (hb mu (by simp))
    obtain ⟨t', ht'⟩ := ih (Script.now d t) (fun x hx => generate_no_torn ht (hg x (by simp [hx]))) fun x hx => hb x (by simp [hx])
    exact ⟨t ++ t', by rw [generateAll]; exact Script.bind_ok.mpr ⟨t, gs, t', ht, ht', rfl⟩⟩

theorem starmap_returns {method : String} (hs : ∀ i G, ∃ r, o.score runs mu method i G = .ok r) (gs : List Gr) :
    ∃ rs, starmapScores o runs mu method gs = .ok rs := by
  unfold starmapScores
  have : ∀ (l : List (Gr × Nat)), ∃ rs, (l.mapM fun Gi => o.score runs mu method Gi.2 Gi.1 : Py (List R)) = .ok rs := by
    intro l
    induction l with
    | nil => exact ⟨[], rfl⟩
    | cons x l ih =>
      obtain ⟨r, hr⟩ := hs x.2 x.1
      obtain ⟨rs, hrs⟩ := ih
      refine ⟨r :: rs, ?_⟩
      rw [List.mapM_cons, hr, hrs]
      rfl
  obtain ⟨rs, hrs⟩ := this gs.zipIdx
  rw [hrs]
  exact ⟨rs, rfl⟩

theorem loop_returns (mus : List ℝ) (P : Plots R) (d : Disk Gr R) (hg : ∀ mu ∈ mus, d.graphs (num, fmt mu) ≠ .torn)
    (hb : ∀ mu ∈ mus, num ≤ (delivered (o.batches mu)).length)
    (hs : ∀ mu ∈ mus, ∀ method i G, ∃ r, o.score runs mu method i G = .ok r) :
    ∃ t P', experimentLoop fmt o runs num mus P d = (t, .ok P') := by
  induction mus generalizing P d with
  | nil => exact ⟨[], P, rfl⟩
  | cons mu l ih =>
    by_cases hmem : mu ∈ P.plot1.map Prod.fst
    · rw [loop_mem hmem]
      exact ih P d (fun x hx => hg x (by simp [hx])) (fun x hx => hb x (by simp [hx])) fun x hx => hs x (by simp [hx])
    · obtain ⟨t, gs, ht⟩ := generate_returns (o := o) (hg mu (by simp)) (hb mu (by simp))
      obtain ⟨a, ha⟩ := starmap_returns (hs mu (by simp) "modularity pruning") gs
      obtain ⟨b, hb'⟩ := starmap_returns (hs mu (by simp) "gamma sweep") gs
      obtain ⟨c, hc⟩ := starmap_returns (hs mu (by simp) "modularity pruning ground truth K") gs
      obtain ⟨e, he⟩ := starmap_returns (hs mu (by simp) "ground truth gamma") gs
      obtain ⟨t', P', ht'⟩ := ih (addRow P mu a b c e) { Script.now d t with partialResults := .full (addRow P mu a b c e) }
        (fun x hx => generate_no_torn ht (hg x (by simp [hx]))) (fun x hx => hb x (by simp [hx])) fun x hx => hs x (by simp [hx])
      rw [loop_new_ok hmem ht ha hb' hc he, ht']
      exact ⟨_, _, rfl⟩

/-- **C90.** `run_experiment` returns if the workers deliver graphs enough and every task succeeds, unless a file it reads is
incomplete. -/
theorem c90_experiment_returns {mus : List ℝ} (hm : mus ≠ []) (hp : d.partialResults ≠ .torn)
    (hg : ∀ mu ∈ mus, d.graphs (num, fmt mu) ≠ .torn) (hb : ∀ mu ∈ mus, num ≤ (delivered (o.batches mu)).length)
    (hs : ∀ mu ∈ mus, ∀ method i G, ∃ r, o.score runs mu method i G = .ok r) :
    ∃ t P, runExperiment fmt o runs num mus d = (t, .ok ()) ∧ (Script.now d t).results = .full P := by
  obtain ⟨P, hP⟩ := loaded_exists hp
  obtain ⟨t2, P', ht2⟩ := loop_returns mus P d hg hb hs
  have hrun := experiment_loaded (fmt := fmt) (o := o) (runs := runs) (num := num) mus hP
  rw [ht2] at hrun
  simp only [if_neg (show ¬ mus.length = 0 by simpa using hm)] at hrun
  exact ⟨_, P', hrun, by rw [Script.now_append, Script.now_pair]⟩

/-- **C90.** So does the script. -/
theorem c90_script_returns {mus : List ℝ} (hm : mus ≠ []) (hp : d.partialResults ≠ .torn) (hr : d.results ≠ .torn)
    (hg : ∀ mu ∈ mus, d.graphs (num, fmt mu) ≠ .torn) (hb : ∀ mu ∈ mus, num ≤ (delivered (o.batches mu)).length)
    (hs : ∀ mu ∈ mus, ∀ method i G, ∃ r, o.score runs mu method i G = .ok r) :
    ∃ t P, lfrMain fmt o runs num mus d = (t, .ok P) ∧ (Script.now d t).results = .full P := by
  obtain ⟨t1, ht1⟩ := generateAll_returns mus d hg hb
  obtain ⟨g1, g2⟩ := generateAll_ok ht1
  obtain ⟨-, gp, gr⟩ := g2 _ (Script.now_mem d t1)
  cases hres : d.results with
  | torn => exact absurd hres hr
  | full P => exact ⟨t1, P, main_full ht1 (gr.trans hres), gr.trans hres⟩
  | absent =>
    obtain ⟨t, P, hrun, hP⟩ := c90_experiment_returns (d := Script.now d t1) (o := o) (runs := runs) (num := num) (fmt := fmt)
      hm (by rw [gp]; exact hp)
      (fun mu hmu => by
        obtain ⟨gs, hgs⟩ := g1 mu hmu
        rw [hgs]; simp) hb hs
    exact ⟨_, P, main_run_ok ht1 (gr.trans hres) hrun hP, by rw [Script.now_append]; exact hP⟩

/-- **C90.** Incomplete files are never repaired: with an incomplete partial results file `run_experiment` raises without
changing anything, with an incomplete graph file `generate_LFR_graphs` does, and both files stay incomplete through every later
command.  With an incomplete results file the script raises whenever the graphs are there. -/
theorem c90_torn_forever (h : History fmt Generated Possible emptyDisk d) :
    (d.partialResults = .torn → (∀ o runs num mus, runExperiment fmt o runs num mus d = ([], .error .unpickling)) ∧
      ∀ d', History fmt Generated Possible d d' → d'.partialResults = .torn) ∧
    (∀ num mu, d.graphs (num, fmt mu) = .torn → (∀ o, generateGraphs fmt o num mu d = ([], .error .unpickling)) ∧
      ∀ d', History fmt Generated Possible d d' → d'.graphs (num, fmt mu) = .torn) ∧
    (d.results = .torn → ∀ o runs num mus, (∀ mu ∈ mus, ∃ gs, d.graphs (num, fmt mu) = .full gs) →
      lfrMain fmt o runs num mus d = ([], .error .unpickling)) := by
  have hs := history_sound h
  refine ⟨fun ht => ⟨fun o runs num mus => experiment_torn mus ht, fun d' h' => (history_step hs h').notorn ht⟩,
    fun num mu ht => ⟨fun o => generateGraphs_torn ht, fun d' h' => ?_⟩, fun ht o runs num mus hg => ?_⟩
  · rw [(history_step hs h').keeps _ (by rw [ht]; simp), ht]
  · exact main_torn (generateAll_done hg) ht

/-- **C90.** Every run that stores a row passes a moment at which the partial results are incomplete: stopped there, all rows
stored before are lost, and no later command brings them back. -/
theorem c90_rows_lost (h : History fmt Generated Possible emptyDisk d) (ho : SoundWorkers Generated Possible o) {P : Plots R}
    (hP : d.partialResults = .full P) {mus : List ℝ} {t : List (Disk Gr R)} (hmiss : missing (P.plot1.map Prod.fst) mus ≠ [])
    (hr : runExperiment fmt o runs num mus d = (t, .ok ())) :
    ∃ d' ∈ t, ∀ d'', History fmt Generated Possible d' d'' → d''.partialResults = .torn := by
  have hs := history_sound h
  obtain ⟨P0, P', tl, hP0, hl, hm, rfl⟩ := experiment_ok hr
  have : P0 = P := by
    rcases hP0 with hP0 | ⟨hP0, _⟩ <;> rw [hP0] at hP <;> cases hP
    rfl
  subst this
  have key : ∀ (mus : List ℝ) (tl : List (Disk Gr R)), missing (P0.plot1.map Prod.fst) mus ≠ [] →
      experimentLoop fmt o runs num mus P0 d = (tl, .ok P') → ∃ d' ∈ tl, d'.partialResults = .torn := by
    intro mus
    induction mus with
    | nil => intro tl h; exact absurd rfl h
    | cons mu mus ih =>
      intro tl hmiss hl
      by_cases hmem : mu ∈ P0.plot1.map Prod.fst
      · rw [loop_mem hmem] at hl
        rw [missing, if_pos hmem] at hmiss
        exact ih tl hmiss hl
      · rcases loop_new_cases (fmt := fmt) (o := o) (runs := runs) (num := num) (d := d) mus hmem with
          ⟨x, hx⟩ | ⟨tg, gs, a, b, c, e, hg, h1, h2, h3, h4⟩
        · rw [hx] at hl; cases hl
        · rw [loop_new_ok hmem hg h1 h2 h3 h4] at hl
          refine ⟨{ Script.now d tg with partialResults := .torn }, ?_, rfl⟩
          rw [← (Prod.mk.inj hl).1]
          simp
  obtain ⟨d', hd', ht⟩ := key mus tl hmiss hl
  have hmem : d' ∈ tl ++ [{ Script.now d tl with results := .torn }, { Script.now d tl with results := .full P' }] :=
    List.mem_append_left _ hd'
  have hsound : SoundDisk fmt Generated Possible d' :=
    (experiment_facts ho mus hs d' (by rw [hr]; exact hmem)).sound
  exact ⟨d', hmem, fun d'' h'' => (history_step hsound h'').notorn ht⟩

/-- **C90.** Stored rows are used whatever parameters they were computed with: if every mixing parameter has a row,
`run_experiment` copies the rows, for any number of runs and graphs; and the script plots complete results for any numbers and
any mixing parameters whose graphs exist. -/
theorem c90_stale {P : Plots R} (o : Workers Gr R) (runs num : Nat) (mus : List ℝ) :
    (d.partialResults = .full P → mus ≠ [] → (∀ mu ∈ mus, mu ∈ P.plot1.map Prod.fst) →
      runExperiment fmt o runs num mus d = ([{ d with results := .torn }, { d with results := .full P }], .ok ())) ∧
    (d.results = .full P → (∀ mu ∈ mus, ∃ gs, d.graphs (num, fmt mu) = .full gs) →
      lfrMain fmt o runs num mus d = ([], .ok P)) := by
  refine ⟨fun hP hm hmem => ?_, fun hP hg => main_full (generateAll_done hg) hP⟩
  rw [experiment_loaded mus (Or.inl hP), loop_done mus hmem]
  simp only [if_neg (show ¬ mus.length = 0 by simpa using hm)]
  rfl

/-! ### Concrete cases -/

/-- Workers whose first `pool.map` runs out of time and whose second delivers three graphs of four. -/
def someWorkers : Workers Nat (List Nat) where
  batches := fun _ => [none, some [some 7, none, some 8, some 9]]
  score := fun runs _ _ i G => .ok [runs + i, G]

theorem someWorkers_sound : SoundWorkers (fun _ G => G = 7 ∨ G = 8 ∨ G = 9) (fun _ _ G r => G ∈ r) someWorkers := by
  refine ⟨fun mu rs h G hG => ?_, fun runs mu method i G r h => ?_⟩
  · simp only [someWorkers, List.mem_cons, reduceCtorEq, Option.some.injEq, List.not_mem_nil, or_false, false_or] at h
    subst h
    simp only [List.mem_cons, Option.some.injEq, reduceCtorEq, List.not_mem_nil, or_false, false_or] at hG
    exact hG
  · simp only [someWorkers, Except.ok.injEq] at h
    subst h
    simp

/-- The script finishes with them, from no files at all: the hypotheses of `c90_script_resume_same` are met. -/
example (fmt : ℝ → String) :
    ∃ t P, lfrMain fmt someWorkers 5 2 [1, 2] emptyDisk = (t, .ok P) ∧ (Script.now emptyDisk t).results = .full P :=
  c90_script_returns (by simp) (by simp [emptyDisk]) (by simp [emptyDisk]) (by simp [emptyDisk])
    (fun mu _ => by simp [someWorkers, delivered]) fun mu _ method i G => ⟨_, rfl⟩

/-- There are moments at which rows are stored, and a later run that passes a moment after which they are lost. -/
example (fmt : ℝ → String) : ∃ (d : Disk Nat (List Nat)) (P : Plots (List Nat)) (t : List (Disk Nat (List Nat))),
    History fmt (fun _ G => G = 7 ∨ G = 8 ∨ G = 9) (fun _ _ G r => G ∈ r) emptyDisk d ∧ d.partialResults = .full P ∧
    P.plot1.map Prod.fst = [1] ∧ missing (P.plot1.map Prod.fst) [1, 2] = [2] ∧
    runExperiment fmt someWorkers 5 2 [1, 2] d = (t, .ok ()) ∧
    ∃ d' ∈ t, ∀ d'', History fmt (fun _ G => G = 7 ∨ G = 8 ∨ G = 9) (fun _ _ G r => G ∈ r) d' d'' → d''.partialResults = .torn := by
  have hb : ∀ mus : List ℝ, ∀ mu ∈ mus, 2 ≤ (delivered (someWorkers.batches mu)).length := fun _ _ _ => by
    simp [someWorkers, delivered]
  have hs : ∀ mus : List ℝ, ∀ mu ∈ mus, ∀ method i G, ∃ r, someWorkers.score 5 mu method i G = .ok r :=
    fun _ _ _ _ _ _ => ⟨_, rfl⟩
  obtain ⟨t1, hgen⟩ := generateAll_returns (fmt := fmt) (o := someWorkers) (num := 2) [1, 2] emptyDisk (by simp [emptyDisk]) (hb _)
  obtain ⟨g1, g2⟩ := generateAll_ok hgen
  obtain ⟨-, gp, gr⟩ := g2 _ (Script.now_mem _ t1)
  set d1 := Script.now emptyDisk t1 with hd1
  have hlist : emptyDisk :: t1 ⊆ emptyDisk :: (lfrMain fmt someWorkers 5 2 [1, 2] emptyDisk).1 := by
    apply List.cons_subset_cons
    unfold lfrMain
    rw [Script.bind_of_ok hgen]
    exact List.subset_append_left _ _
  have hh1 : History fmt (fun _ G => G = 7 ∨ G = 8 ∨ G = 9) (fun _ _ G r => G ∈ r) emptyDisk d1 :=
    Relation.ReflTransGen.single ⟨someWorkers, .main 5 2 [1, 2], someWorkers_sound, hlist (Script.now_mem _ _)⟩
  have hfull : ∀ mu ∈ ([1, 2] : List ℝ), d1.graphs (2, fmt mu) ≠ .torn := fun mu hmu => by
    obtain ⟨gs, hgs⟩ := g1 mu hmu
    rw [hgs]; simp
  obtain ⟨t2, -, hrun, -⟩ := c90_experiment_returns (fmt := fmt) (o := someWorkers) (num := 2) (runs := 5) (d := d1) (mus := [1])
    (by simp) (by rw [gp]; simp [emptyDisk]) (fun mu hmu => hfull mu (by simp at hmu; simp [hmu])) (hb _) (hs _)
  obtain ⟨P0, rows, hP0, -, hr2, -, hkeys, -⟩ := c90_finished hh1 someWorkers_sound hrun
  have hP0' : P0 = ⟨[], [], [], []⟩ := by
    rcases hP0 with h | ⟨-, h⟩
    · rw [gp] at h; cases h
    · exact h
  have hint : History fmt (fun _ G => G = 7 ∨ G = 8 ∨ G = 9) (fun _ _ G r => G ∈ r) d1 (Script.now d1 t2) := by
    refine Relation.ReflTransGen.single ⟨someWorkers, .experiment 5 2 [1], someWorkers_sound, ?_⟩
    show _ ∈ _ :: (runExperiment fmt someWorkers 5 2 [1] d1).1
    rw [hrun]
    exact Script.now_mem _ _
  have hh := hh1.trans hint
  have hk : (plotsOf rows).plot1.map Prod.fst = [1] := by
    rw [plotsOf_keys, hkeys, hP0']
    simp [missing]
  have hmiss : missing ((plotsOf rows).plot1.map Prod.fst) [1, 2] = [2] := by
    rw [hk]
    simp [missing]
  obtain ⟨t3, -, hrun3, -⟩ := c90_experiment_returns (fmt := fmt) (o := someWorkers) (num := 2) (runs := 5) (d := Script.now d1 t2)
    (mus := [1, 2]) (by simp) (by rw [hr2]; simp)
    (fun mu hmu => by
      obtain ⟨gs, hgs⟩ := g1 mu hmu
      rw [KeepsGraphs.full (c90_files_kept hh1 hint).1 hgs]; simp) (hb _) (hs _)
  exact ⟨_, _, t3, hh, hr2, hk, hmiss, hrun3, c90_rows_lost hh someWorkers_sound hr2 (by rw [hmiss]; simp) hrun3⟩

end Verif.Props
