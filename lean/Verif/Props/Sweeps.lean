import Verif.Spec.Sweeps
import Verif.Model.Sweeps
import Verif.Props.History
import Verif.Props.Studies

/-!
# Property C100: sweeps over starting values of the iterative estimation

`Spec.sweepRuns` lists what the calls of the library return when they are made one after the other in one process;
`Spec.groupSuccesses` keeps the values returned and drops the `ValueError`s.
-/

namespace Verif.Props
open Verif Spec

section
variable {env : LeidenEnv} {G : Graph ℝ} {method : String}

theorem graphAfter_eq (env : LeidenEnv) (G : Graph ℝ) : graphAfter env G = defaulted env.test G := by
  unfold graphAfter
  rw [ensureWeight_ecount]

theorem iterateMono_defaulted (γ tol : ℝ) (n : Nat) (verbose : Bool) :
    iterateMono env (defaulted env.test G) γ tol n verbose method = iterateMono env G γ tol n verbose method := by
  unfold iterateMono
  rw [ensureWeight_ecount, ensureWeight_ecount, Verif.defaulted_idem]

theorem iterateMulti_defaulted {obj : Nat} {Gi Gx : Graph ℝ} {layers : List Nat} {model : String}
    (γ ω γtol ωtol ωmax : ℝ) (n : Nat) (verbose : Bool) :
    iterateMulti env obj (defaulted env.test Gi) (defaulted env.test Gx) layers γ ω γtol ωtol ωmax n model verbose =
      iterateMulti env obj Gi Gx layers γ ω γtol ωtol ωmax n model verbose := by
  unfold iterateMulti
  rw [ensureWeight_ecount, ensureWeight_ecount, Verif.defaulted_idem, ensureWeight_ecount, ensureWeight_ecount,
    Verif.defaulted_idem]

end

/-- Trials of a call that ignore `ValueError`s and pass on the state of the graph objects. -/
theorem trials_eq {σ α β : Type} {call : σ → Prog α} {next : σ → σ} {out : α → β} {T : Nat → σ → Prog (List β × σ)}
    (h0 : ∀ s, T 0 s = pure ([], s))
    (h1 : ∀ k s, T (k + 1) s = do
      let r ← Prog.tryValueError (call s)
      let rest ← T k (next s)
      r.elim (pure rest) fun x => pure (out x :: rest.1, rest.2))
    (hcall : ∀ s, call (next s) = call s) (k : Nat) : ∀ (s : σ) (w : World),
    (∀ l, successes (runs (call s) k w).1 = .ok l → T k s w = (.ok (l.map out, next^[k] s), (runs (call s) k w).2)) ∧
    ∀ e, successes (runs (call s) k w).1 = .error e → (T k s w).1 = .error e := by
  induction k with
  | zero =>
    intro s w
    rw [h0]
    exact ⟨by rintro l h; obtain rfl := Except.ok.inj h; rfl, by intro e h; cases h⟩
  | succ k ih =>
    intro s w
    rw [h1, Prog.bind_eq, Prog.tryValueError]
    simp only [runs]
    rcases hc : call s w with ⟨r, w'⟩
    obtain ⟨ih1, ih2⟩ := ih (next s) w'
    rw [hcall] at ih1 ih2
    have rest : ∀ (x : Option α),
        (∀ l, successes (runs (call s) k w').1 = .ok l →
          (do let rest ← T k (next s)
              x.elim (pure rest) fun x => pure (out x :: rest.1, rest.2) : Prog _) w' =
            (.ok ((x.elim l fun y => y :: l).map out, next^[k + 1] s), (runs (call s) k w').2)) ∧
        (∀ e, successes (runs (call s) k w').1 = .error e →
          ((do let rest ← T k (next s)
               x.elim (pure rest) fun x => pure (out x :: rest.1, rest.2) : Prog _) w').1 = .error e) := by
      intro x
      constructor
      · intro l hl
        rw [Prog.bind_eq, ih1 l hl]
        cases x <;> rfl
      · intro e he
        have h := ih2 e he
        rw [Prog.bind_eq]
        rcases hq : T k (next s) w' with ⟨r, w''⟩
        rw [hq] at h
        simp only at h
        rw [h]
    cases r with
    | ok a =>
      obtain ⟨r1, r2⟩ := rest (some a)
      simp only [successes]
      cases hs : successes (runs (call s) k w').1 with
      | error e' => exact ⟨fun l hl => (by cases hl), fun e he => by obtain rfl := Except.error.inj he; exact r2 _ hs⟩
      | ok l' => exact ⟨fun l hl => (by obtain rfl := Except.ok.inj hl; exact r1 _ hs), fun e he => by cases he⟩
    | error e =>
      obtain ⟨r1, r2⟩ := rest none
      cases e with
      | valueError m => exact ⟨fun l hl => r1 l hl, fun e he => r2 e he⟩
      | _ =>
        refine ⟨fun l hl => ?_, fun e he => ?_⟩
        · cases hl
        · obtain rfl := Except.error.inj he; rfl

/-- A loop over starting values. -/
theorem sweep_eq {σ α β P R : Type} {call : P → σ → Prog α} {next : σ → σ} {out : α → β} {k : Nat}
    {T : P → σ → Prog (List β × σ)} {acc : P → List β → R → R} {nil : R} {S : List P → σ → Prog R}
    (hT : ∀ p s w, (∀ l, successes (runs (call p s) k w).1 = .ok l →
        T p s w = (.ok (l.map out, next^[k] s), (runs (call p s) k w).2)) ∧
      ∀ e, successes (runs (call p s) k w).1 = .error e → (T p s w).1 = .error e)
    (h0 : ∀ s, S [] s = pure nil)
    (h1 : ∀ p ps s, S (p :: ps) s = do
      let r ← T p s
      let rest ← S ps r.2
      pure (acc p r.1 rest))
    (hcall : ∀ p s, call p (next s) = call p s) (ps : List P) : ∀ (s : σ) (w : World),
    (S ps s w).1 = (groupSuccesses (sweepRuns (fun p => call p s) k ps w)).map
      (List.foldr (fun g r => acc g.1 (g.2.map out) r) nil) := by
  have hiter : ∀ j p s, call p (next^[j] s) = call p s := by
    intro j
    induction j with
    | zero => intro p s; rfl
    | succ j ih => intro p s; rw [Function.iterate_succ_apply, ih, hcall]
  induction ps with
  | nil => intro s w; rw [h0]; rfl
  | cons p ps ih =>
    intro s w
    obtain ⟨t1, t2⟩ := hT p s w
    rw [h1, Prog.bind_eq]
    simp only [sweepRuns, groupSuccesses]
    cases hs : successes (runs (call p s) k w).1 with
    | error e =>
      have := t2 e hs
      rcases hq : T p s w with ⟨r, w'⟩
      rw [hq] at this
      simp only at this
      rw [this]
      rfl
    | ok l =>
      rw [t1 l hs]
      simp only
      have ih := ih (next^[k] s) (runs (call p s) k w).2
      rw [show (fun q => call q (next^[k] s)) = fun q => call q s from funext fun q => hiter k q s] at ih
      rw [Prog.bind_eq]
      rcases hq : S ps (next^[k] s) (runs (call p s) k w).2 with ⟨r, w'⟩
      rw [hq] at ih
      simp only at ih
      rw [ih]
      cases groupSuccesses (sweepRuns (fun p => call p s) k ps (runs (call p s) k w).2) <;> rfl

section
variable {env : LeidenEnv} {G : Graph ℝ} {method : String}

theorem estimationTrials_eq (n : Nat) (g0 : ℝ) (k : Nat) (G : Graph ℝ) (w : World) :
    (∀ l, successes (runs (iterateMono env G g0 (1 / 100) n false method) k w).1 = .ok l →
      estimationTrials env method n g0 k G w = (.ok (l.map Prod.fst, (defaulted env.test)^[k] G),
        (runs (iterateMono env G g0 (1 / 100) n false method) k w).2)) ∧
    ∀ e, successes (runs (iterateMono env G g0 (1 / 100) n false method) k w).1 = .error e →
      (estimationTrials env method n g0 k G w).1 = .error e := by
  refine trials_eq (call := fun G => iterateMono env G g0 (1 / 100) n false method) (next := defaulted env.test)
    (out := Prod.fst) (T := fun k G => estimationTrials env method n g0 k G) (fun s => rfl) ?_
    (fun s => iterateMono_defaulted _ _ _ _) k G w
  intro k G
  simp only [estimationTrials, graphAfter_eq]
  congr 1; funext r; congr 1; funext x
  cases r <;> rfl

theorem multiTrials_eq {obj : Nat} {layers : List Nat} (g0 o0 : ℝ) (k : Nat) (Gi Gx : Graph ℝ) (w : World) :
    let call := iterateMulti env obj Gi Gx layers g0 o0 (1 / 100) (5 / 100) 1000 1 "temporal" false
    let next := fun s : Graph ℝ × Graph ℝ => (defaulted env.test s.1, defaulted env.test s.2)
    (∀ l, successes (runs call k w).1 = .ok l →
      multiTrials env obj layers g0 o0 k Gi Gx w = (.ok (l.map fun x => (x.1, x.2.1), next^[k] (Gi, Gx)), (runs call k w).2)) ∧
    ∀ e, successes (runs call k w).1 = .error e → (multiTrials env obj layers g0 o0 k Gi Gx w).1 = .error e := by
  intro call next
  refine trials_eq (call := fun s : Graph ℝ × Graph ℝ =>
      iterateMulti env obj s.1 s.2 layers g0 o0 (1 / 100) (5 / 100) 1000 1 "temporal" false) (next := next)
    (out := fun x => (x.1, x.2.1)) (T := fun k s => multiTrials env obj layers g0 o0 k s.1 s.2) (fun s => rfl) ?_
    (fun s => iterateMulti_defaulted _ _ _ _ _ _ _) k (Gi, Gx) w
  intro k s
  simp only [multiTrials, graphAfter_eq]
  congr 1; funext r; congr 1; funext x
  cases r <;> rfl

/-- What `untilConvergence` computes from the results of the calls. -/
theorem untilConvergence_eq (g0s : List ℝ) (G : Graph ℝ) (w : World) :
    (untilConvergence env method g0s G w).1 =
      (groupSuccesses (sweepRuns (fun g => iterateMono env G g (1 / 100) 25 false method)
        (if method = "louvain" then 10 else 1) g0s w)).map fun gs =>
          (gs.flatMap fun g => List.replicate g.2.length g.1, gs.flatMap fun g => g.2.map Prod.fst) := by
  rw [sweep_eq (call := fun g G => iterateMono env G g (1 / 100) 25 false method) (next := defaulted env.test)
    (out := Prod.fst) (k := if method = "louvain" then 10 else 1)
    (T := fun g G => estimationTrials env method 25 g (if method = "louvain" then 10 else 1) G)
    (acc := fun g l r => (l.map (fun _ => g) ++ r.1, l ++ r.2)) (nil := ([], []))
    (S := fun g0s G => untilConvergence env method g0s G)
    (fun g G w => estimationTrials_eq 25 g _ G w) (fun s => rfl) (fun p ps s => rfl)
    (fun p s => iterateMono_defaulted _ _ _ _) g0s G w]
  congr 1
  funext gs
  induction gs with
  | nil => rfl
  | cons g gs ih =>
    rw [List.foldr_cons, ih]
    simp [Function.comp_def, List.map_const']

/-- What `oneStepArrows` computes from the results of the calls. -/
theorem oneStepArrows_eq (g0s : List ℝ) (G : Graph ℝ) (w : World) :
    (oneStepArrows env method g0s G w).1 =
      (groupSuccesses (sweepRuns (fun g => iterateMono env G g (1 / 100) 1 false method)
        (if method = "louvain" then 100 else 1) g0s w)).map fun gs =>
          gs.filterMap fun g => if g.2 = [] then none else some (g.1, g.1, averageMovement g.1 (g.2.map Prod.fst)) := by
  rw [sweep_eq (call := fun g G => iterateMono env G g (1 / 100) 1 false method) (next := defaulted env.test)
    (out := Prod.fst) (k := if method = "louvain" then 100 else 1)
    (T := fun g G => estimationTrials env method 1 g (if method = "louvain" then 100 else 1) G)
    (acc := fun g l r => if 0 < l.length then (g, g, averageMovement g l) :: r else r) (nil := [])
    (S := fun g0s G => oneStepArrows env method g0s G)
    (fun g G w => estimationTrials_eq 1 g _ G w) (fun s => rfl) ?_
    (fun p s => iterateMono_defaulted _ _ _ _) g0s G w]
  · congr 1
    funext gs
    induction gs with
    | nil => rfl
    | cons g gs ih =>
      rw [List.foldr_cons, ih, List.filterMap_cons]
      rcases g with ⟨g, _ | ⟨a, l⟩⟩ <;> simp
  · intro p ps s
    simp only [oneStepArrows]
    congr 1; funext r; congr 1; funext x
    split <;> rfl

/-- What `gridIteration` computes from the results of the calls. -/
theorem gridIteration_eq {obj : Nat} {layers : List Nat} (pts : List (ℝ × ℝ)) (Gi Gx : Graph ℝ) (w : World) :
    (gridIteration env obj layers pts Gi Gx w).1 =
      (groupSuccesses (sweepRuns (fun p : ℝ × ℝ => iterateMulti env obj Gi Gx layers p.1 p.2 (1 / 100) (5 / 100) 1000 1
        "temporal" false) 5 pts w)).map fun gs =>
          gs.map fun g => (g.1.1, g.1.2, g.2.map (fun x => Fl.sub x.1 (.fin g.1.1)), g.2.map (fun x => x.2.1 - g.1.2)) := by
  rw [sweep_eq (call := fun (p : ℝ × ℝ) (s : Graph ℝ × Graph ℝ) =>
      iterateMulti env obj s.1 s.2 layers p.1 p.2 (1 / 100) (5 / 100) 1000 1 "temporal" false)
    (next := fun s : Graph ℝ × Graph ℝ => (defaulted env.test s.1, defaulted env.test s.2))
    (out := fun x => (x.1, x.2.1)) (k := 5)
    (T := fun p s => multiTrials env obj layers p.1 p.2 5 s.1 s.2)
    (acc := fun g l r => (g.1, g.2, l.map (fun e => Fl.sub e.1 (.fin g.1)), l.map (fun e => e.2 - g.2)) :: r) (nil := [])
    (S := fun pts s => gridIteration env obj layers pts s.1 s.2)
    (fun g G w => multiTrials_eq g.1 g.2 5 G.1 G.2 w) (fun s => rfl) (fun p ps s => rfl)
    (fun p s => iterateMulti_defaulted _ _ _ _ _ _ _) pts (Gi, Gx) w]
  congr 1
  funext gs
  induction gs with
  | nil => rfl
  | cons g gs ih =>
    rw [List.foldr_cons, ih]
    simp [List.map_map, Function.comp_def]


/-- What the values kept by `groupSuccesses` are: the starting values in order, at most `k` values for each of them, each returned by
a call in a state with the invariant `J`. -/
theorem groupSuccesses_mem {P α : Type} {x : P → Prog α} {k : Nat} {J : World → Prop} (hJ : ∀ p w, J w → J (x p w).2) :
    ∀ {ps : List P} {w : World} {gs : List (P × List α)}, J w → groupSuccesses (sweepRuns x k ps w) = .ok gs →
      gs.map Prod.fst = ps ∧ ∀ g ∈ gs, g.2.length ≤ k ∧ ∀ a ∈ g.2, ∃ w', J w' ∧ (x g.1 w').1 = .ok a := by
  have h1 : ∀ (p : P) (k : Nat) (w : World), J w → J (runs (x p) k w).2 ∧ ∀ l, successes (runs (x p) k w).1 = .ok l →
      l.length ≤ k ∧ ∀ a ∈ l, ∃ w', J w' ∧ (x p w').1 = .ok a := by
    intro p k
    induction k with
    | zero =>
      intro w hw
      refine ⟨hw, fun l hl => ?_⟩
      obtain rfl := Except.ok.inj hl
      simp
    | succ k ih =>
      intro w hw
      obtain ⟨i1, i2⟩ := ih (x p w).2 (hJ p w hw)
      refine ⟨i1, fun l hl => ?_⟩
      simp only [runs] at hl
      cases hx : (x p w).1 with
      | ok a =>
        rw [hx] at hl
        simp only [successes] at hl
        cases hs : successes (runs (x p) k (x p w).2).1 with
        | error e => rw [hs] at hl; cases hl
        | ok l' =>
          rw [hs] at hl
          obtain rfl := Except.ok.inj hl
          obtain ⟨j1, j2⟩ := i2 l' hs
          refine ⟨by simpa using j1, ?_⟩
          intro b hb
          rcases List.mem_cons.mp hb with rfl | hb
          · exact ⟨w, hw, hx⟩
          · exact j2 b hb
      | error e =>
        rw [hx] at hl
        cases e with
        | valueError m =>
          obtain ⟨j1, j2⟩ := i2 l hl
          exact ⟨by omega, j2⟩
        | _ => cases hl
  intro ps
  induction ps with
  | nil => intro w gs _ h; obtain rfl := Except.ok.inj h; simp
  | cons p ps ih =>
    intro w gs hw h
    obtain ⟨i1, i2⟩ := h1 p k w hw
    simp only [sweepRuns, groupSuccesses] at h
    cases hs : successes (runs (x p) k w).1 with
    | error e => rw [hs] at h; cases h
    | ok l =>
      rw [hs] at h
      simp only at h
      cases hg : groupSuccesses (sweepRuns x k ps (runs (x p) k w).2) with
      | error e => rw [hg] at h; cases h
      | ok gs' =>
        rw [hg] at h
        obtain rfl := Except.ok.inj h
        obtain ⟨j1, j2⟩ := ih i1 hg
        refine ⟨by simp [j1], ?_⟩
        intro g hgm
        rcases List.mem_cons.mp hgm with rfl | hgm
        · exact i2 l hs
        · exact j2 g hgm

theorem groupSuccesses_error {P α : Type} : ∀ {l : List (P × List (Py α))} {e : PyErr}, groupSuccesses l = .error e →
    (∀ m, e ≠ .valueError m) ∧ ∃ g ∈ l, .error e ∈ g.2 := by
  have h1 : ∀ {l : List (Py α)} {e : PyErr}, successes l = .error e → (∀ m, e ≠ .valueError m) ∧ .error e ∈ l := by
    intro l
    induction l with
    | nil => intro e h; cases h
    | cons a l ih =>
      intro e h
      cases a with
      | ok a =>
        simp only [successes] at h
        cases hs : successes l with
        | ok l' => rw [hs] at h; cases h
        | error e' =>
          rw [hs] at h
          obtain rfl := Except.error.inj h
          exact ⟨(ih hs).1, List.mem_cons_of_mem _ (ih hs).2⟩
      | error e' =>
        cases e' with
        | valueError m => exact ⟨(ih h).1, List.mem_cons_of_mem _ (ih h).2⟩
        | _ =>
          simp only [successes] at h
          obtain rfl := Except.error.inj h
          exact ⟨fun m hm => (by cases hm), List.mem_cons_self ..⟩
  intro l
  induction l with
  | nil => intro e h; cases h
  | cons g l ih =>
    obtain ⟨p, rs⟩ := g
    intro e h
    simp only [groupSuccesses] at h
    cases hs : successes rs with
    | error e' =>
      rw [hs] at h
      obtain rfl := Except.error.inj h
      exact ⟨(h1 hs).1, _, List.mem_cons_self .., (h1 hs).2⟩
    | ok as =>
      rw [hs] at h
      simp only at h
      cases hg : groupSuccesses l with
      | ok gs => rw [hg] at h; cases h
      | error e' =>
        rw [hg] at h
        obtain rfl := Except.error.inj h
        obtain ⟨h2, g, h3, h4⟩ := ih hg
        exact ⟨h2, g, List.mem_cons_of_mem _ h3, h4⟩

/-- **C100 (until convergence, what is recorded).** The two lists recorded by `run_estimation_until_convergence` are exactly what the
successive calls of the library return: for every starting value in order, one entry per call that returned (ten calls for Louvain, one
otherwise), `ValueError`s leaving no entry; any other exception ends the run. -/
theorem c100_until_convergence (g0s : List ℝ) (G : Graph ℝ) (w : World) :
    (untilConvergence env method g0s G w).1 =
      (groupSuccesses (sweepRuns (fun g => iterateMono env G g (1 / 100) 25 false method)
        (if method = "louvain" then 10 else 1) g0s w)).map fun gs =>
          (gs.flatMap fun g => List.replicate g.2.length g.1, gs.flatMap fun g => g.2.map Prod.fst) :=
  untilConvergence_eq g0s G w

theorem zip_flatMap {α β γ : Type} (f : γ → List α) (g : γ → List β) :
    ∀ {l : List γ}, (∀ x ∈ l, (f x).length = (g x).length) →
      (l.flatMap f).length = (l.flatMap g).length ∧
      (l.flatMap f).zip (l.flatMap g) = l.flatMap fun x => (f x).zip (g x) := by
  intro l
  induction l with
  | nil => intro _; exact ⟨rfl, rfl⟩
  | cons x l ih =>
    intro h
    obtain ⟨i1, i2⟩ := ih fun y hy => h y (List.mem_cons_of_mem _ hy)
    have hx := h x (List.mem_cons_self ..)
    simp only [List.flatMap_cons]
    refine ⟨by rw [List.length_append, List.length_append, hx, i1], ?_⟩
    rw [List.zip_append hx, i2]

/-- **C100 (until convergence, final values).** For every supported method and every behaviour of the optimiser: the lists of initial
and final values that `run_estimation_until_convergence` returns have the same length, the initial values are taken from the grid, and
every final value is the gamma estimate of a partition that the optimiser found at some resolution. -/
theorem c100_final_values (hp : ProducesPartitions env) (hG : G.WF) (hs : SaneTest env.test G) (hm : Supported method)
    {g0s : List ℝ} {w w' : World} {as : List ℝ} {bs : List (Fl ℝ)}
    (h : untilConvergence env method g0s G w = (.ok (as, bs), w')) :
    as.length = bs.length ∧ bs.length ≤ (if method = "louvain" then 10 else 1) * g0s.length ∧
    (∀ a, as.count a ≤ (if method = "louvain" then 10 else 1) * g0s.count a) ∧
    ∀ p ∈ as.zip bs, p.1 ∈ g0s ∧ ∃ c i γ', maximiser env method (defaulted env.test G) i γ' = .ok c ∧
      gammaEstimate env.test (defaulted env.test G) c = .ok (some p.2, defaulted env.test G) := by
  have h1 := untilConvergence_eq (env := env) (method := method) g0s G w
  rw [h] at h1
  cases hg : groupSuccesses (sweepRuns (fun g => iterateMono env G g (1 / 100) 25 false method)
        (if method = "louvain" then 10 else 1) g0s w) with
  | error e => rw [hg] at h1; cases h1
  | ok gs =>
    rw [hg] at h1
    obtain ⟨rfl, rfl⟩ := Prod.mk.inj (Except.ok.inj h1)
    obtain ⟨hps, hmem⟩ := groupSuccesses_mem (J := fun _ => True) (fun _ _ _ => trivial) trivial hg
    obtain ⟨z1, z2⟩ := zip_flatMap (fun g : ℝ × List (Fl ℝ × Option (List Nat) × Graph ℝ) => List.replicate g.2.length g.1)
      (fun g => g.2.map Prod.fst) (l := gs) (by intro x _; simp)
    refine ⟨z1, ?_, ?_, ?_⟩
    · rw [← hps]
      clear hg h1 h hps z1 z2
      induction gs with
      | nil => simp
      | cons g gs ih =>
        have h2 := (hmem g (List.mem_cons_self ..)).1
        have := ih fun x hx => hmem x (List.mem_cons_of_mem _ hx)
        simp only [List.flatMap_cons, List.length_append, List.length_map, List.map_cons, List.length_cons] at this ⊢
        generalize (if method = "louvain" then 10 else 1) = t at h2 this ⊢
        rw [Nat.mul_add, Nat.mul_one]; omega
    · intro a
      rw [← hps]
      clear hg h1 h hps z1 z2
      induction gs with
      | nil => simp
      | cons g gs ih =>
        have h2 := (hmem g (List.mem_cons_self ..)).1
        have := ih fun x hx => hmem x (List.mem_cons_of_mem _ hx)
        simp only [List.flatMap_cons, List.count_append, List.count_replicate, List.map_cons, List.count_cons] at this ⊢
        generalize (if method = "louvain" then 10 else 1) = t at h2 this ⊢
        split
        · rw [Nat.mul_add, Nat.mul_one]; omega
        · rw [Nat.add_zero]; omega
    · intro p hpm
      rw [z2] at hpm
      obtain ⟨g, hgm, hpg⟩ := List.mem_flatMap.mp hpm
      obtain ⟨q1, q2⟩ := List.of_mem_zip hpg
      have hp1 : p.1 = g.1 := List.eq_of_mem_replicate q1
      refine ⟨by rw [hp1, ← hps]; exact List.mem_map_of_mem hgm, ?_⟩
      obtain ⟨x, hx, hx2⟩ := List.mem_map.mp q2
      obtain ⟨w1, -, hw1⟩ := (hmem g hgm).2 x hx
      obtain ⟨γout, part, Gout⟩ := x
      have hrun : iterateMono env G g.1 (1 / 100) 25 false method w1 =
          (.ok (γout, part, Gout), (iterateMono env G g.1 (1 / 100) 25 false method w1).2) := Prod.ext hw1 rfl
      obtain ⟨hGo, -, c, γ', -, he, hmx, -⟩ := c46_returns_estimate_of_partition hp hG hs hm (by norm_num) hrun
      subst hGo
      subst hx2
      exact ⟨c, _, γ', hmx, he⟩

/-- **C100 (other exceptions).** A sweep never ends with a `ValueError`: an exception that ends it is another one, raised by a call. -/
theorem c100_exceptions {g0s : List ℝ} {w w' : World} {e : PyErr}
    (h : untilConvergence env method g0s G w = (.error e, w')) :
    (∀ m, e ≠ .valueError m) ∧
      ∃ g ∈ g0s, ∃ w1, (iterateMono env G g (1 / 100) 25 false method w1).1 = .error e := by
  have h1 := untilConvergence_eq (env := env) (method := method) g0s G w
  rw [h] at h1
  cases hg : groupSuccesses (sweepRuns (fun g => iterateMono env G g (1 / 100) 25 false method)
        (if method = "louvain" then 10 else 1) g0s w) with
  | ok gs => rw [hg] at h1; cases h1
  | error e' =>
    rw [hg] at h1
    obtain rfl := Except.error.inj h1
    obtain ⟨h2, g, h3, h4⟩ := groupSuccesses_error hg
    refine ⟨h2, ?_⟩
    have key : ∀ {ps : List ℝ} {w : World} {k : Nat} {x : ℝ → Prog (Fl ℝ × Option (List Nat) × Graph ℝ)},
        ∀ g ∈ sweepRuns x k ps w, g.1 ∈ ps ∧ ∀ r ∈ g.2, ∃ w1, (x g.1 w1).1 = r := by
      intro ps
      induction ps with
      | nil => intro w k x g hg; cases hg
      | cons p ps ih =>
        intro w k x g hg
        have hr : ∀ (k : Nat) (w : World), ∀ r ∈ (runs (x p) k w).1, ∃ w1, (x p w1).1 = r := by
          intro k
          induction k with
          | zero => intro w r hr; cases hr
          | succ k ih =>
            intro w r hr
            rcases List.mem_cons.mp hr with rfl | hr
            · exact ⟨w, rfl⟩
            · exact ih _ r hr
        rcases List.mem_cons.mp hg with rfl | hg
        · exact ⟨List.mem_cons_self .., hr k w⟩
        · obtain ⟨i1, i2⟩ := ih g hg
          exact ⟨List.mem_cons_of_mem _ i1, i2⟩
    obtain ⟨k1, k2⟩ := key g h3
    exact ⟨g.1, k1, k2 _ h4⟩

/-- One call with `max_iter=1` makes one optimisation. -/
theorem iterateMono_one (hp : ProducesPartitions env) (hG : G.WF) (hs : SaneTest env.test G) (hm : Supported method)
    (g tol : ℝ) (w : World) :
    (iterateMono env G g tol 1 false method w).1.map Prod.fst = oneStep env method (defaulted env.test G) g w.calls ∧
    (iterateMono env G g tol 1 false method w).2.calls = w.calls + 1 := by
  obtain ⟨vs, k, hw, hit, -⟩ := c46_iteration hp hG hs hm g tol 1 w
  unfold oneStep
  rw [hw]
  cases hr : (iterateMono env G g tol 1 false method w).1 with
  | ok x =>
    rw [hr] at hit
    obtain ⟨γ, part, G'⟩ := x
    cases part with
    | none => exact absurd hit.1 (by norm_num)
    | some c =>
      obtain ⟨h1, h2, h3, π, h4, h5, -⟩ := hit
      have hne : vs ≠ [] := by rintro rfl; cases h4
      obtain ⟨v, rfl⟩ : ∃ v, vs = [v] := List.length_eq_one_iff.mp (by
        have := List.length_pos_iff.mpr hne; omega)
      obtain rfl : v = (π, c) := by simpa using h4
      have hst : π = .fin g := h3.start _ rfl
      subst hst
      have hf := h3.found 0 _ rfl
      simp only [Nat.add_zero] at hf
      refine ⟨?_, by rw [h2]; rfl⟩
      rw [hf, Py.ok_bind, h5]
      rfl
  | error e =>
    rw [hr] at hit
    obtain ⟨h3, ⟨h1, h2, v, h4, h5⟩ | ⟨h1, h2, π, h4, h5⟩⟩ := hit
    · have hne : vs ≠ [] := by rintro rfl; cases h4
      obtain ⟨v', rfl⟩ : ∃ v, vs = [v] := List.length_eq_one_iff.mp (by
        have := List.length_pos_iff.mpr hne; omega)
      obtain rfl : v' = v := by simpa using h4
      have hst : v'.1 = .fin g := h3.start _ rfl
      have hf := h3.found 0 _ rfl
      simp only [Nat.add_zero] at hf
      rw [hst] at hf h5
      refine ⟨?_, by rw [h2]; rfl⟩
      rw [hf, Py.ok_bind, h5]
      rfl
    · obtain rfl : vs = [] := List.length_eq_zero_iff.mp (by omega)
      rcases h5 with ⟨-, rfl⟩ | ⟨v, hv, -⟩
      · simp only [List.length_nil, Nat.add_zero] at h4
        refine ⟨?_, by rw [h2]; rfl⟩
        rw [h4]
        rfl
      · cases hv

theorem successes_map {α β : Type} (f : α → β) : ∀ l : List (Py α),
    successes (l.map (Except.map f)) = (successes l).map (List.map f) := by
  intro l
  induction l with
  | nil => rfl
  | cons a l ih =>
    cases a with
    | ok a =>
      simp only [List.map_cons, Except.map, successes]
      rw [ih]
      cases successes l <;> rfl
    | error e => cases e <;> first | exact ih | rfl

/-- **C100 (one step).** For every supported method and every behaviour of the optimiser, `plot_one_step_estimation` draws the
following arrows, or ends with the first exception other than `ValueError`: if `es` are the estimates of the steps from the `j`-th
starting value `g` that did not raise `ValueError` (100 optimisations for Louvain, one otherwise, numbered consecutively), there is an
arrow from `(g, g)` with the average of `e - g` as its length, and no arrow if `es` is empty. -/
theorem c100_one_step (hp : ProducesPartitions env) (hG : G.WF) (hs : SaneTest env.test G) (hm : Supported method)
    (g0s : List ℝ) (w : World) :
    (oneStepArrows env method g0s G w).1 =
      (groupSuccesses (g0s.mapIdx fun j g => (g, (List.range (if method = "louvain" then 100 else 1)).map fun i =>
        oneStep env method (defaulted env.test G) g (w.calls + j * (if method = "louvain" then 100 else 1) + i)))).map
        fun gs => gs.filterMap fun g => if g.2 = [] then none else some (g.1, g.1, averageMovement g.1 g.2) := by
  rw [oneStepArrows_eq]
  generalize (if method = "louvain" then 100 else 1) = k
  have hruns : ∀ (g : ℝ) (k : Nat) (w : World),
      (runs (iterateMono env G g (1 / 100) 1 false method) k w).1.map (Except.map Prod.fst) =
        (List.range k).map (fun i => oneStep env method (defaulted env.test G) g (w.calls + i)) ∧
      (runs (iterateMono env G g (1 / 100) 1 false method) k w).2.calls = w.calls + k := by
    intro g k
    induction k with
    | zero => intro w; exact ⟨rfl, rfl⟩
    | succ k ih =>
      intro w
      obtain ⟨o1, o2⟩ := iterateMono_one hp hG hs hm g (1 / 100) w
      obtain ⟨i1, i2⟩ := ih (iterateMono env G g (1 / 100) 1 false method w).2
      refine ⟨?_, ?_⟩
      · simp only [runs, List.map_cons, List.range_succ_eq_map]
        rw [i1, o1, o2]
        simp only [List.map_map, Nat.add_zero, List.cons.injEq, true_and, Function.comp_def]
        apply List.map_congr_left
        intro i _
        rw [show w.calls + 1 + i = w.calls + (i + 1) by omega]
      · simp only [runs]
        rw [i2, o2]; omega
  have hgs : ∀ (g0s : List ℝ) (w : World) (j0 : Nat),
      (groupSuccesses (sweepRuns (fun g => iterateMono env G g (1 / 100) 1 false method) k g0s w)).map
        (List.map fun g => (g.1, g.2.map Prod.fst)) =
      groupSuccesses (g0s.mapIdx fun j g => (g, (List.range k).map fun i =>
        oneStep env method (defaulted env.test G) g (w.calls + j * k + i))) := by
    intro g0s
    induction g0s with
    | nil => intro w j0; rfl
    | cons g g0s ih =>
      intro w j0
      obtain ⟨r1, r2⟩ := hruns g k w
      simp only [sweepRuns, List.mapIdx_cons, groupSuccesses, Nat.zero_mul, Nat.add_zero]
      rw [← r1, successes_map]
      cases hsu : successes (runs (iterateMono env G g (1 / 100) 1 false method) k w).1 with
      | error e => rfl
      | ok l =>
        have ih := ih (runs (iterateMono env G g (1 / 100) 1 false method) k w).2 0
        rw [r2] at ih
        have harr : ∀ (j i : Nat), w.calls + k + j * k + i = w.calls + (j + 1) * k + i := by intro j i; ring
        simp only [harr] at ih
        simp only [Except.map] at ih ⊢
        rw [← ih]
        cases groupSuccesses (sweepRuns (fun g => iterateMono env G g (1 / 100) 1 false method) k g0s
          (runs (iterateMono env G g (1 / 100) 1 false method) k w).2) <;> rfl
  rw [← hgs g0s w 0]
  cases groupSuccesses (sweepRuns (fun g => iterateMono env G g (1 / 100) 1 false method) k g0s w) with
  | error e => rfl
  | ok gs =>
    simp only [Except.map, List.filterMap_map, Except.ok.injEq, Function.comp_def]
    congr 1
    funext g
    simp

/-- **C100 (one step, the estimates).** A step returns the gamma estimate of the partition found by maximising at the starting
value. -/
theorem c100_step_estimate {g : ℝ} {i : Nat} {e : Fl ℝ} :
    oneStep env method G g i = .ok e ↔ ∃ c, maximiser env method G i (.fin g) = .ok c ∧
      ∃ G', gammaEstimate env.test G c = .ok (some e, G') := by
  unfold oneStep reestimate
  constructor
  · intro h
    obtain ⟨c, h1, h2⟩ := Py.bind_ok' h
    refine ⟨c, h1, ?_⟩
    split at h2
    · rename_i γ' G' hg
      obtain rfl := Except.ok.inj h2
      exact ⟨G', hg⟩
    · cases h2
    · cases h2
  · rintro ⟨c, h1, G', h2⟩
    rw [h1, Py.ok_bind, h2]

theorem averageMovement_fin (g : ℝ) {xs : List ℝ} (hx : xs ≠ []) :
    averageMovement g (xs.map Fl.fin) = .fin (xs.sum / (xs.length : ℝ) - g) := by
  unfold averageMovement
  have hn : (xs.length : ℝ) ≠ 0 := by
    have := List.length_pos_iff.mpr hx
    positivity
  have h1 : (xs.map Fl.fin).map (fun e => Fl.sub e (.fin g)) = (xs.map fun x => x - g).map Fl.fin := by
    rw [List.map_map, List.map_map]
    apply List.map_congr_left
    intro x _
    simp [Fl.sub, Fl.add, sub_eq_add_neg]
  rw [h1, Fl.sum_fin, List.length_map]
  have h2 : (xs.map fun x => x - g).sum = xs.sum - (xs.length : ℝ) * g := by
    clear h1 hn hx
    induction xs with
    | nil => simp
    | cons x xs ih => simp only [List.map_cons, List.sum_cons, ih, List.length_cons, Nat.cast_add, Nat.cast_one]; ring
  rw [h2]
  simp only [Fl.div, npDiv, if_pos hn]
  congr 1
  field_simp

/-- **C100 (arrow tips).** If the estimates at a starting value are the finite numbers `xs`, the arrow from `(g, g)` ends at their
average. -/
theorem c100_arrow_tip (g : ℝ) {xs : List ℝ} (hx : xs ≠ []) :
    ∃ d, averageMovement g (xs.map Fl.fin) = .fin d ∧ g + d = xs.sum / (xs.length : ℝ) :=
  ⟨_, averageMovement_fin g hx, by ring⟩

/-- **C100 (unknown method).** With a method the library does not support, every call raises `ValueError`, so the sweeps return empty
results instead of failing. -/
theorem c100_unknown_method (hs : SaneTest env.test G) (hm : ¬ Supported method) (g0s : List ℝ) (w : World) :
    (untilConvergence env method g0s G w).1 = .ok ([], []) ∧ (oneStepArrows env method g0s G w).1 = .ok [] := by
  have hruns : ∀ (g : ℝ) (n k : Nat) (w : World),
      successes (runs (iterateMono env G g (1 / 100) n false method) k w).1 = .ok [] := by
    intro g n k
    induction k with
    | zero => intro w; rfl
    | succ k ih =>
      intro w
      simp only [runs]
      rw [c46_unsupported_method hs hm]
      exact ih w
  have hgs : ∀ (n k : Nat) (g0s : List ℝ) (w : World),
      groupSuccesses (sweepRuns (fun g => iterateMono env G g (1 / 100) n false method) k g0s w) =
        .ok (g0s.map fun g => (g, [])) := by
    intro n k g0s
    induction g0s with
    | nil => intro w; rfl
    | cons g g0s ih =>
      intro w
      simp only [sweepRuns, groupSuccesses, hruns, ih]
      rfl
  rw [untilConvergence_eq, oneStepArrows_eq, hgs, hgs]
  constructor
  · simp only [Except.map]
    congr 1
    induction g0s <;> simp_all
  · simp only [Except.map]
    congr 1
    induction g0s <;> simp_all

/-- **C100 (one run).** A run of the study per number of communities that returns a pair returns the gamma estimate of the partition
found at its starting value and the number of communities of this partition. -/
theorem c100_one_run (hp : ProducesPartitions env) (hG : G.WF) (hs : SaneTest env.test G) {g : ℝ} {w w' : World} {γ : Fl ℝ}
    {K : Nat} (h : oneRun env G g w = (.ok (some (γ, K)), w')) :
    ∃ c, maximiser env "leiden" (defaulted env.test G) w.calls (.fin g) = .ok c ∧
      gammaEstimate env.test (defaulted env.test G) c = .ok (some γ, defaulted env.test G) ∧ Contiguous c K := by
  have hm : Supported "leiden" := Or.inr (Or.inl rfl)
  obtain ⟨vs, k, hw, hit, -⟩ := c46_iteration hp hG hs hm g (1 / 100) 1 w
  unfold oneRun Prog.tryValueError at h
  rw [Prog.bind_eq] at h
  rcases hr : iterateMono env G g (1 / 100) 1 false "leiden" w with ⟨r, w1⟩
  rw [hr] at h hit
  cases r with
  | error e => cases e <;> cases h
  | ok x =>
    obtain ⟨γ1, part, G'⟩ := x
    cases part with
    | none => cases h
    | some c =>
      simp only at h
      rw [Prog.bind_eq] at h
      cases hK : numCommunities (c.map Int.ofNat) with
      | error e => rw [hK] at h; cases e <;> cases h
      | ok K' =>
        rw [hK] at h
        have hx : γ1 = γ ∧ K' = K := by
          have := Option.some.inj (Except.ok.inj (Prod.mk.inj h).1)
          exact Prod.mk.inj this
        obtain ⟨rfl, rfl⟩ := hx
        obtain ⟨hGo, -, c', γ', hc, he, -⟩ := c46_returns_estimate_of_partition hp hG hs hm (by norm_num) hr
        obtain rfl := Option.some.inj hc
        subst hGo
        obtain ⟨h1, h2, h3, π, h4, h5, -⟩ := hit
        have hne : vs ≠ [] := by rintro rfl; cases h4
        obtain ⟨v, rfl⟩ : ∃ v, vs = [v] := List.length_eq_one_iff.mp (by
          have := List.length_pos_iff.mpr hne; omega)
        obtain rfl : v = (π, c) := by simpa using h4
        have hst : π = .fin g := h3.start _ rfl
        subst hst
        have hf := h3.found 0 _ rfl
        simp only [Nat.add_zero] at hf
        exact ⟨c, hf, he, (numCommunities_nat.mp hK).2⟩

end

section Grid
variable {env : LeidenEnv} {obj : Nat} {Gi Gx : Graph ℝ} {layers : List Nat} {T : Nat} {ws : List ℝ} {heap : Nat → Graph ℝ}

/-- **C100 (grid).** For every accepted temporal network, every behaviour of the optimiser and every history of the process:
`run_pamfil_iteration` returns one entry `(g0, o0, gdiffs, odiffs)` for every grid point, in the order of the grid; `gdiffs` and `odiffs`
are the differences between at most five pairs of estimates and `(g0, o0)`, each pair being the gamma and omega estimates of a partition
that the optimiser found at `(g0, o0)` for the layers of this network. -/
theorem c100_grid (hp : ProducesPartitions env) (hheap : ∀ o, (heap o).WF ∧ SaneTest env.test (heap o))
    (hobj : heap obj = Gi) (h : Admissible env Gi Gx layers "temporal" T ws) {pts : List (ℝ × ℝ)} {w w' : World}
    (hw : Reachable env heap w) {vals : List GridValue}
    (hrun : gridIteration env obj layers pts Gi Gx w = (.ok vals, w')) :
    vals.map (fun v => (v.1, v.2.1)) = pts ∧
    ∀ v ∈ vals, ∃ es : List (Fl ℝ × ℝ), es.length ≤ 5 ∧ v.2.2.1 = es.map (fun e => Fl.sub e.1 (.fin v.1)) ∧
      v.2.2.2 = es.map (fun e => e.2 - v.2.1) ∧
      ∀ e ∈ es, ∃ c i,
        multiMaximiser env ((List.range T).map (layerGraph (defaulted env.test Gi) ws layers)) (defaulted env.test Gx) i
          (.fin v.1, v.2.1) = .ok c ∧
        gammaOmegaEstimate env.test env.fsolve (defaulted env.test Gi) (defaulted env.test Gx) layers c 1000 "temporal" =
          .ok ((some e.1, e.2), defaulted env.test Gi) := by
  have h1 := gridIteration_eq (env := env) (obj := obj) (layers := layers) pts Gi Gx w
  rw [hrun] at h1
  cases hg : groupSuccesses (sweepRuns (fun p : ℝ × ℝ => iterateMulti env obj Gi Gx layers p.1 p.2 (1 / 100) (5 / 100) 1000 1
        "temporal" false) 5 pts w) with
  | error e => rw [hg] at h1; cases h1
  | ok gs =>
    rw [hg] at h1
    obtain rfl := Except.ok.inj h1
    obtain ⟨hps, hmem⟩ := groupSuccesses_mem (J := Reachable env heap)
      (fun p w hw => Reachable.iterate obj Gi Gx layers _ _ _ _ _ 1 "temporal" false (by rw [hobj]) hw) hw hg
    refine ⟨?_, ?_⟩
    · rw [← hps, List.map_map]
      apply List.map_congr_left
      intro g _
      rfl
    · intro v hv
      obtain ⟨g, hgm, rfl⟩ := List.mem_map.mp hv
      obtain ⟨m1, m2⟩ := hmem g hgm
      refine ⟨g.2.map fun x => (x.1, x.2.1), by simpa using m1, by simp [Function.comp_def], by simp [Function.comp_def], ?_⟩
      intro e he
      obtain ⟨x, hx, rfl⟩ := List.mem_map.mp he
      obtain ⟨w1, hw1, hx1⟩ := m2 x hx
      have hcap := (reachable_inv hheap hw1).2
      obtain ⟨Gs, vs, k, hL, -, -, hit, -⟩ := c47_iteration (obj := obj) hp h g.1.1 g.1.2 (1 / 100) (5 / 100) 1000
        (by norm_num : 0 < 1) false w1 (by omega)
      have hGs : Gs = (List.range T).map (layerGraph (defaulted env.test Gi) ws layers) := by
        have := c54_reflects_graph_partial hheap hw1 obj layers
        simp only [hobj] at this
        unfold LayerGraphs at hL
        rw [this, h.split] at hL
        exact (Except.ok.inj hL).symm
      subst hGs
      have hx1' : (iterateMulti env obj Gi Gx layers g.1.1 g.1.2 (1 / 100) (5 / 100) 1000 1 "temporal" false w1).1 = .ok x := hx1
      rw [hx1'] at hit
      obtain ⟨γ, ω, c, G1, G2⟩ := x
      obtain ⟨i1, i2, i3, π, i4, i5, -⟩ := hit
      have hne : vs ≠ [] := by rintro rfl; cases i4
      obtain ⟨v, rfl⟩ : ∃ v, vs = [v] := List.length_eq_one_iff.mp (by
        have := List.length_pos_iff.mpr hne; omega)
      obtain rfl : v = (π, c) := by simpa using i4
      have hst : π = (.fin g.1.1, g.1.2) := i3.start _ rfl
      subst hst
      have hf := i3.found 0 _ rfl
      obtain ⟨rG1, rG2, -, -, r5, -⟩ := c47_returns_estimates_of_partition (obj := obj) hp h (by norm_num : 0 < 1)
        (w := w1) (by omega) (Prod.ext hx1' rfl)
      rw [rG1, rG2] at r5
      exact ⟨c, _, hf, r5⟩

/-- **C100 (grid size).** The grid has 15 × 15 points. -/
theorem c100_grid_size : pamfilGrid.length = 225 ∧ ∀ p ∈ pamfilGrid, 6 / 10 ≤ p.1 ∧ p.1 ≤ 145 / 100 ∧ 4 / 10 ≤ p.2 ∧ p.2 ≤ 16 / 10 := by
  have key : ∀ {a b : ℝ}, a ≤ b → ∀ y ∈ linspace a b 15, a ≤ y ∧ y ≤ b := by
    intro a b hab y hy
    unfold linspace at hy
    obtain ⟨i, hi, rfl⟩ := List.mem_map.mp hy
    have hi : (i : ℝ) ≤ 14 := by exact_mod_cast (by have := List.mem_range.mp hi; omega : i ≤ 14)
    have hi0 : (0 : ℝ) ≤ i := Nat.cast_nonneg i
    push_cast
    constructor
    · have : 0 ≤ (i : ℝ) * ((b - a) / (15 - 1)) := by
        apply mul_nonneg hi0; apply div_nonneg <;> linarith
      linarith
    · have : (i : ℝ) * ((b - a) / (15 - 1)) ≤ 14 * ((b - a) / (15 - 1)) := by
        apply mul_le_mul_of_nonneg_right hi; apply div_nonneg <;> linarith
      linarith
  constructor
  · unfold pamfilGrid
    simp [List.length_flatMap, linspace, Function.comp_def, List.map_const']
  · intro p hp
    unfold pamfilGrid at hp
    obtain ⟨g, hg, hp⟩ := List.mem_flatMap.mp hp
    obtain ⟨o, ho, rfl⟩ := List.mem_map.mp hp
    obtain ⟨a1, a2⟩ := key (by norm_num) g hg
    obtain ⟨b1, b2⟩ := key (by norm_num) o ho
    exact ⟨a1, a2, b1, b2⟩

theorem flMean_fin {xs : List ℝ} (hx : xs ≠ []) : flMean (xs.map Fl.fin) = .fin (xs.sum / (xs.length : ℝ)) := by
  have hn : (xs.length : ℝ) ≠ 0 := by
    have := List.length_pos_iff.mpr hx
    positivity
  unfold flMean
  rw [if_neg (by simpa using hx), Fl.sum_fin, List.length_map]
  simp only [Fl.div, npDiv, if_pos hn]

theorem mean_sub (g : ℝ) {xs : List ℝ} (hx : xs ≠ []) :
    (xs.map fun x => x - g).sum / ((xs.map fun x => x - g).length : ℝ) = xs.sum / (xs.length : ℝ) - g := by
  have hn : (xs.length : ℝ) ≠ 0 := by
    have := List.length_pos_iff.mpr hx
    positivity
  have h2 : (xs.map fun x => x - g).sum = xs.sum - (xs.length : ℝ) * g := by
    clear hn hx
    induction xs with
    | nil => simp
    | cons x xs ih => simp only [List.map_cons, List.sum_cons, ih, List.length_cons, Nat.cast_add, Nat.cast_one]; ring
  rw [h2, List.length_map]
  field_simp

/-- **C100 (grid arrows).** If the estimates at `(g0, o0)` are the finite pairs `es`, at least one, the arrow starts at `(o0, g0)` and
covers a tenth of the way to their average; if all five calls failed, its length is NaN in both directions. -/
theorem c100_grid_arrow (g0 o0 : ℝ) (es : List (ℝ × ℝ)) :
    let arrow := gridArrow (g0, o0, es.map (fun e => Fl.sub (.fin e.1) (.fin g0)), es.map fun e => e.2 - o0)
    arrow.1 = o0 ∧ arrow.2.1 = g0 ∧
    (es ≠ [] → arrow.2.2.1 = .fin (((es.map Prod.snd).sum / (es.length : ℝ) - o0) / 10) ∧
      arrow.2.2.2 = .fin (((es.map Prod.fst).sum / (es.length : ℝ) - g0) / 10)) ∧
    (es = [] → arrow.2.2.1 = .nan ∧ arrow.2.2.2 = .nan) := by
  intro arrow
  refine ⟨rfl, rfl, ?_, ?_⟩
  · intro hne
    have h1 : es.map (fun e => Fl.sub (Fl.fin e.1) (.fin g0)) = ((es.map Prod.fst).map fun x => x - g0).map Fl.fin := by
      simp [Fl.sub, Fl.add, sub_eq_add_neg, Function.comp_def]
    have h2 : (es.map fun e => e.2 - o0) = (es.map Prod.snd).map fun x => x - o0 := by simp [Function.comp_def]
    have e1 := mean_sub g0 (xs := es.map Prod.fst) (by simpa using hne)
    have e2 := mean_sub o0 (xs := es.map Prod.snd) (by simpa using hne)
    have l1 : (es.map Prod.fst).length = es.length := List.length_map ..
    have l2 : (es.map Prod.snd).length = es.length := List.length_map ..
    rw [l1] at e1
    rw [l2] at e2
    constructor
    · change Fl.mul (.fin (1 / 10)) (flMean ((es.map fun e => e.2 - o0).map Fl.fin)) = _
      rw [h2, flMean_fin (by simpa using hne), e2]
      simp only [Fl.mul]
      congr 1; ring
    · change Fl.mul (.fin (1 / 10)) (flMean (es.map fun e => Fl.sub (Fl.fin e.1) (.fin g0))) = _
      rw [h1, flMean_fin (by simpa using hne), e1]
      simp only [Fl.mul]
      congr 1; ring
  · rintro rfl
    exact ⟨rfl, rfl⟩

end Grid

section PerK

/-- The pairs kept with `K` communities. -/
def withK (kept : List (ℝ × Nat)) (K : Nat) : List ℝ := (kept.filter fun x => x.2 = K).map Prod.fst

theorem zip_filterMap (kept : List (ℝ × Nat)) (K : Nat) :
    ((kept.map Prod.fst).zip (kept.map Prod.snd)).filterMap (fun x => if x.2 = K then some x.1 else none) = withK kept K := by
  have : (kept.map Prod.fst).zip (kept.map Prod.snd) = kept := by
    induction kept with
    | nil => rfl
    | cons x l ih => simp [ih]
  rw [this]
  unfold withK
  induction kept with
  | nil => rfl
  | cons x l ih =>
    have ih := ih (by
      clear this ih
      induction l with
      | nil => rfl
      | cons x l ih => simp [ih])
    rw [List.filterMap_cons, List.filter_cons]
    by_cases hx : x.2 = K <;> simp [hx, ih]

/-- The bin edges. -/
noncomputable def binEdge (j : Nat) : ℝ := 6 / 10 + (j : ℝ) / 99

theorem edges_getD {j : Nat} (hj : j < 100) : (linspace (6 / 10) (16 / 10) 100).getD j 0 = binEdge j := by
  unfold linspace binEdge
  rw [List.getD_eq_getElem?_getD, List.getElem?_map, List.getElem?_range hj]
  simp only [Option.map_some, Option.getD_some]
  push_cast
  ring

/-- A number strictly between the ends lies in exactly one bin. -/
theorem bin_unique {x : ℝ} (h1 : 6 / 10 < x) (h2 : x < 16 / 10) :
    ∃ j0 < 99, ∀ j < 99, (binEdge j ≤ x ∧ x < binEdge (j + 1)) ↔ j = j0 := by
  have hy0 : 0 ≤ (x - 6 / 10) * 99 := by nlinarith
  have hf1 := Nat.floor_le hy0
  have hf2 := Nat.lt_floor_add_one ((x - 6 / 10) * 99)
  have hlt : ⌊(x - 6 / 10) * 99⌋₊ < 99 := by
    rw [Nat.floor_lt hy0]; push_cast; nlinarith
  refine ⟨⌊(x - 6 / 10) * 99⌋₊, hlt, ?_⟩
  intro j hj
  unfold binEdge
  push_cast
  constructor
  · rintro ⟨a, b⟩
    symm
    rw [Nat.floor_eq_iff hy0]
    constructor <;> linarith
  · rintro rfl
    constructor <;> linarith

theorem sum_indicator (n j0 : Nat) (y : ℝ) (h : j0 < n) :
    ((List.range n).map fun j => if j = j0 then y else 0).sum = y := by
  have : ∀ n, ((List.range n).map fun j => if j = j0 then y else 0).sum = if j0 < n then y else 0 := by
    intro n
    induction n with
    | zero => simp
    | succ n ih =>
      rw [List.range_succ, List.map_append, List.sum_append, ih]
      simp only [List.map_cons, List.map_nil, List.sum_cons, List.sum_nil]
      split <;> split <;> split <;> first | omega | simp
  rw [this, if_pos h]

theorem bin_filter {x : ℝ × ℝ} (h2 : x.1 < 16 / 10) {j : Nat} (hj : j < 99) :
    ((linspace (6 / 10) (16 / 10) 100).getD j 0 ≤ x.1 ∧ (x.1 < (linspace (6 / 10) (16 / 10) 100).getD (j + 1) 0 ∨
      (j + 2 = (linspace (6 / 10) (16 / 10) 100).length ∧ x.1 = (linspace (6 / 10) (16 / 10) 100).getD (j + 1) 0))) ↔
    (binEdge j ≤ x.1 ∧ x.1 < binEdge (j + 1)) := by
  rw [edges_getD (by omega), edges_getD (by omega)]
  constructor
  · rintro ⟨a, b | ⟨b, c⟩⟩
    · exact ⟨a, b⟩
    · have hl : (linspace (6 / 10) (16 / 10) 100).length = 100 := by simp [linspace]
      rw [hl] at b
      obtain rfl : j = 98 := by omega
      rw [c] at h2
      unfold binEdge at h2
      norm_num at h2
  · rintro ⟨a, b⟩
    exact ⟨a, Or.inl b⟩

theorem histogram_entry {gs : List ℝ} {y : ℝ} (h2 : ∀ x ∈ gs, x < 16 / 10) {j : Nat} (hj : j < 99) :
    (histogram (linspace (6 / 10) (16 / 10) 100) (gs.map fun g => (g, y)))[j]? =
      some ((gs.countP fun x => decide (binEdge j ≤ x ∧ x < binEdge (j + 1))) * y) := by
  unfold histogram
  have hl : (linspace (6 / 10) (16 / 10) 100).length - 1 = 99 := by simp [linspace]
  rw [List.getElem?_map, hl, List.getElem?_range hj, Option.map_some]
  congr 1
  induction gs with
  | nil => simp
  | cons x gs ih =>
    have ih := ih fun z hz => h2 z (List.mem_cons_of_mem _ hz)
    have hx := bin_filter (x := (x, y)) (h2 x (List.mem_cons_self ..)) hj
    rw [List.map_cons, List.filter_cons, List.countP_cons]
    by_cases hb : binEdge j ≤ x ∧ x < binEdge (j + 1)
    · rw [if_pos (by simpa using hx.mpr hb), if_pos (by simpa using hb), List.map_cons, List.sum_cons, ih]
      push_cast; ring
    · rw [if_neg (by rw [decide_eq_true_iff]; exact fun h => hb (hx.mp h)), if_neg (by simpa using hb), ih]
      simp

theorem histogram_sum {gs : List ℝ} {y : ℝ} (h1 : ∀ x ∈ gs, 6 / 10 < x ∧ x < 16 / 10) :
    (histogram (linspace (6 / 10) (16 / 10) 100) (gs.map fun g => (g, y))).sum = (gs.length : ℝ) * y := by
  unfold histogram
  have hl : (linspace (6 / 10) (16 / 10) 100).length - 1 = 99 := by simp [linspace]
  rw [hl]
  induction gs with
  | nil => simp
  | cons x gs ih =>
    have ih := ih fun z hz => h1 z (List.mem_cons_of_mem _ hz)
    obtain ⟨j0, hj0, hu⟩ := bin_unique (h1 x (List.mem_cons_self ..)).1 (h1 x (List.mem_cons_self ..)).2
    have hsplit : ∀ j ∈ List.range 99, ((((x :: gs).map fun g => (g, y)).filter fun x =>
        decide ((linspace (6 / 10) (16 / 10) 100).getD j 0 ≤ x.1 ∧ (x.1 < (linspace (6 / 10) (16 / 10) 100).getD (j + 1) 0 ∨
      (j + 2 = (linspace (6 / 10) (16 / 10) 100).length ∧ x.1 = (linspace (6 / 10) (16 / 10) 100).getD (j + 1) 0)))).map
          Prod.snd).sum = (if j = j0 then y else 0) + (((gs.map fun g => (g, y)).filter fun x =>
        decide ((linspace (6 / 10) (16 / 10) 100).getD j 0 ≤ x.1 ∧ (x.1 < (linspace (6 / 10) (16 / 10) 100).getD (j + 1) 0 ∨
      (j + 2 = (linspace (6 / 10) (16 / 10) 100).length ∧ x.1 = (linspace (6 / 10) (16 / 10) 100).getD (j + 1) 0)))).map
          Prod.snd).sum := by
      intro j hj
      have hj := List.mem_range.mp hj
      have hb := bin_filter (x := (x, y)) (h1 x (List.mem_cons_self ..)).2 hj
      rw [List.map_cons, List.filter_cons]
      by_cases hjj : j = j0
      · rw [if_pos (by rw [decide_eq_true_iff]; exact hb.mpr ((hu j hj).mpr hjj)), if_pos hjj]
        simp
      · rw [if_neg (by rw [decide_eq_true_iff]; exact fun h => hjj ((hu j hj).mp (hb.mp h))), if_neg hjj, zero_add]
    rw [List.map_congr_left hsplit, List.sum_map_add, ih, sum_indicator 99 j0 y hj0, List.length_cons]
    push_cast; ring

/-- **C100 (per number of communities).** If no run succeeded the script fails with `ValueError`; if an estimate lies outside
`(0.6, 1.6)`, with `AssertionError`.  Otherwise there is one histogram for each number of communities from 2 to 9 that occurs, in
order; it has 99 bins `[0.6 + j/99, 0.6 + (j+1)/99)`, the height of bin `j` is the fraction of the runs with `K` communities whose
estimate lies in the bin, and the heights add up to 1. -/
theorem c100_per_K (results : List (Option (ℝ × Nat))) :
    let kept := results.reduceOption
    (kept = [] → ∃ m, perKHistograms results = .error (.valueError m)) ∧
    (kept ≠ [] → (¬ ∀ x ∈ kept, 6 / 10 < x.1 ∧ x.1 < 16 / 10) → perKHistograms results = .error .assertionError) ∧
    (kept ≠ [] → (∀ x ∈ kept, 6 / 10 < x.1 ∧ x.1 < 16 / 10) → ∃ hs, perKHistograms results = .ok hs ∧
      hs.map Prod.fst = (List.range' 2 8).filter (fun K => decide (∃ x ∈ kept, x.2 = K)) ∧
      ∀ h ∈ hs, h.2.length = 99 ∧ h.2.sum = 1 ∧ ∀ j : Nat, j < 99 → h.2[j]? = some
        ((kept.countP fun x => decide (x.2 = h.1 ∧ 6 / 10 + (j : ℝ) / 99 ≤ x.1 ∧ x.1 < 6 / 10 + ((j + 1 : Nat) : ℝ) / 99)) /
          (kept.countP fun x => decide (x.2 = h.1) : ℝ))) := by
  intro kept
  refine ⟨?_, ?_, ?_⟩
  · intro h
    refine ⟨"not enough values to unpack (expected 2, got 0)", ?_⟩
    unfold perKHistograms keptRuns
    simp only [show results.reduceOption = [] from h, if_true]
    rfl
  · intro h hb
    unfold perKHistograms keptRuns
    simp only [show results.reduceOption = kept from rfl, if_neg h]
    rw [Py.ok_bind]
    dsimp only
    rw [if_pos]
    intro hall
    exact hb fun x hx => hall x.1 (List.mem_map_of_mem hx)
  · intro h hb
    have hall : ∀ g ∈ kept.map Prod.fst, 6 / 10 < g ∧ g < 16 / 10 := by
      intro g hg
      obtain ⟨x, hx, rfl⟩ := List.mem_map.mp hg
      exact hb x hx
    have hrun : perKHistograms results = .ok ((List.range' 2 8).filterMap fun K =>
        if 0 < (withK kept K).length then some (K, histogram (linspace (6 / 10) (16 / 10) 100)
          ((withK kept K).map fun g => (g, 1 / ((withK kept K).length : ℝ)))) else none) := by
      unfold perKHistograms keptRuns
      simp only [show results.reduceOption = kept from rfl, if_neg h]
      rw [Py.ok_bind]
      dsimp only
      rw [if_neg (not_not.mpr hall)]
      simp only [zip_filterMap]
      rfl
    refine ⟨_, hrun, ?_, ?_⟩
    · rw [List.map_filterMap]
      rw [← List.filterMap_eq_filter]
      apply List.filterMap_congr
      intro K _
      have hiff : 0 < (withK kept K).length ↔ ∃ x ∈ kept, x.2 = K := by
        unfold withK
        rw [List.length_map, List.length_pos_iff, ne_eq, List.filter_eq_nil_iff]
        push Not
        simp
      by_cases hK : 0 < (withK kept K).length
      · rw [if_pos hK]
        simp only [Option.guard, Option.map_some]
        rw [if_pos (by simpa using hiff.mp hK)]
      · rw [if_neg hK]
        simp only [Option.guard, Option.map_none]
        rw [if_neg (by rw [decide_eq_true_iff]; exact fun h => hK (hiff.mpr h))]
    · intro hh hhm
      obtain ⟨K, -, hK⟩ := List.mem_filterMap.mp hhm
      split at hK
      · rename_i hpos
        obtain rfl := Option.some.inj hK
        have hgs : ∀ x ∈ withK kept K, 6 / 10 < x ∧ x < 16 / 10 := by
          intro x hx
          unfold withK at hx
          obtain ⟨y, hy, rfl⟩ := List.mem_map.mp hx
          exact hb y (List.mem_of_mem_filter hy)
        have hn : ((withK kept K).length : ℝ) ≠ 0 := by positivity
        have hcount : (withK kept K).length = kept.countP fun x => decide (x.2 = K) := by
          unfold withK
          rw [List.length_map, List.countP_eq_length_filter]
        refine ⟨?_, ?_, ?_⟩
        · simp [histogram, linspace]
        · dsimp only
          rw [histogram_sum hgs]
          field_simp
        · intro j hj
          dsimp only
          rw [histogram_entry (fun x hx => (hgs x hx).2) hj, ← hcount]
          congr 1
          have : (withK kept K).countP (fun x => decide (binEdge j ≤ x ∧ x < binEdge (j + 1))) =
              kept.countP fun x => decide (x.2 = K ∧ 6 / 10 + (j : ℝ) / 99 ≤ x.1 ∧ x.1 < 6 / 10 + ((j + 1 : Nat) : ℝ) / 99) := by
            unfold withK
            rw [List.countP_map, List.countP_filter]
            apply List.countP_congr
            intro x _
            simp only [Function.comp_apply, Bool.and_eq_true, decide_eq_true_eq]
            exact and_comm
          rw [this]
          ring
      · cases hK

end PerK

/-! ### Concrete instances -/

/-- The hypotheses of the single-layer theorems are met and the sweep returns values. -/
example : ∃ g w', untilConvergence twoBlockEnv "leiden" [1, 2] gReal World.fresh = (.ok ([1, 2], [.fin g, .fin g]), w') := by
  obtain ⟨g, he⟩ := twoBlockEnv_estimate
  have hcall : ∀ (γ : ℝ) (w : World), ∃ w', iterateMono twoBlockEnv gReal γ (1 / 100) 25 false "leiden" w =
      (.ok (.fin g, some [0, 0, 1, 1, 1], defaulted twoBlockEnv.test gReal), w') := by
    intro γ w
    obtain ⟨w', hw, -⟩ := c46_fixed_point twoBlockEnv_produces gReal_wf (by intro h; cases h) (Or.inr (Or.inl rfl)) γ
      (tol := 1 / 100) (by norm_num) (n := 25) (by norm_num) w (fun _ _ => rfl) he
    exact ⟨w', hw⟩
  have h1 := c100_until_convergence (env := twoBlockEnv) (method := "leiden") [1, 2] gReal World.fresh
  obtain ⟨w1, e1⟩ := hcall 1 World.fresh
  obtain ⟨w2, e2⟩ := hcall 2 w1
  refine ⟨g, _, Prod.ext (h1.trans ?_) rfl⟩
  rw [if_neg (by decide)]
  simp only [sweepRuns, runs, e1, e2, groupSuccesses, successes, Except.map]
  rfl

/-- The grid iteration returns values: the hypotheses of `c100_grid` are met. -/
example : ∃ vals w', gridIteration copiesEnv 0 [0, 0, 0, 1, 1, 1] [(1, 1)] gIntraR gInterR World.fresh = (.ok vals, w') ∧
    ∀ v ∈ vals, v.2.2.1.length = 5 := by
  have hheap : ∀ o, ((fun _ : Nat => gIntraR) o).WF ∧ SaneTest copiesEnv.test ((fun _ : Nat => gIntraR) o) :=
    fun _ => ⟨copies_admissible.intra, copies_admissible.sane⟩
  have hcall : ∀ w, Reachable copiesEnv (fun _ => gIntraR) w → ∃ x, (iterateMulti copiesEnv 0 gIntraR gInterR
      [0, 0, 0, 1, 1, 1] 1 1 (1 / 100) (5 / 100) 1000 1 "temporal" false w).1 = .ok x := by
    intro w hw
    have hcap := (reachable_inv hheap hw).2
    obtain ⟨Gs, vs, k, h1, h2, h3, h4, h5⟩ := c47_iteration (obj := 0) copiesEnv_produces copies_admissible 1 1 (1 / 100)
      (5 / 100) 1000 (n := 1) (by norm_num) false w (by omega)
    have h0 : LayerGraphs World.fresh.cache 0 (defaulted copiesEnv.test gIntraR) [0, 0, 0, 1, 1, 1] Gs := by
      unfold LayerGraphs at h1 ⊢
      have e1 := c54_reflects_graph_partial hheap hw 0 [0, 0, 0, 1, 1, 1]
      have e2 := c54_reflects_graph_partial hheap Reachable.fresh 0 [0, 0, 0, 1, 1, 1]
      exact e2.trans (e1.symm.trans h1)
    have hm := copies_maximise h0
    cases hr : (iterateMulti copiesEnv 0 gIntraR gInterR [0, 0, 0, 1, 1, 1] 1 1 (1 / 100) (5 / 100) 1000 1 "temporal" false w).1 with
    | ok x => exact ⟨x, rfl⟩
    | error e =>
      exfalso
      simp only [hr] at h4
      obtain ⟨hv, ⟨-, -, v, hlast, hu⟩ | ⟨-, -, π, hmax, -⟩⟩ := h4
      · rw [List.getLast?_eq_getElem?] at hlast
        have := hv.found _ v hlast
        simp only [hm] at this
        obtain ⟨g, o, hgo⟩ := copies_reestimate v.1
        rw [← Except.ok.inj this, hgo] at hu
        cases hu
      · simp only [hm] at hmax; cases hmax
  have hruns : ∀ (k : Nat) (w : World), Reachable copiesEnv (fun _ => gIntraR) w → ∃ l, l.length = k ∧
      successes (runs (iterateMulti copiesEnv 0 gIntraR gInterR [0, 0, 0, 1, 1, 1] 1 1 (1 / 100) (5 / 100) 1000 1
        "temporal" false) k w).1 = .ok l := by
    intro k
    induction k with
    | zero => intro w _; exact ⟨[], rfl, rfl⟩
    | succ k ih =>
      intro w hw
      obtain ⟨x, hx⟩ := hcall w hw
      obtain ⟨l, hl, hs⟩ := ih _ (Reachable.iterate 0 gIntraR gInterR [0, 0, 0, 1, 1, 1] 1 1 (1 / 100) (5 / 100) 1000 1
        "temporal" false rfl hw)
      refine ⟨x :: l, by simp [hl], ?_⟩
      simp only [runs, hx, successes, hs, Except.map]
  obtain ⟨l, hl, hs⟩ := hruns 5 World.fresh Reachable.fresh
  have h1 := gridIteration_eq (env := copiesEnv) (obj := 0) (layers := [0, 0, 0, 1, 1, 1]) [(1, 1)] gIntraR gInterR World.fresh
  simp only [sweepRuns, groupSuccesses, hs, Except.map] at h1
  refine ⟨_, _, Prod.ext h1 rfl, ?_⟩
  intro v hv
  simp only [List.map_cons, List.map_nil, List.mem_singleton] at hv
  subst hv
  simpa using hl

/-- Three runs, two of which succeeded with 2 and 3 communities. -/
example : ∃ hs, perKHistograms [some (1, 2), none, some (6 / 5, 3)] = .ok hs ∧ hs.map Prod.fst = [2, 3] := by
  obtain ⟨hs, h1, h2, -⟩ := (c100_per_K [some (1, 2), none, some (6 / 5, 3)]).2.2 (by simp [List.reduceOption]) (by
    simp [List.reduceOption]; norm_num)
  refine ⟨hs, h1, h2.trans ?_⟩
  simp [List.reduceOption, List.range', List.filter]

end Verif.Props
