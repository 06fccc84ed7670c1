import Mathlib.Data.List.Forall2
import Mathlib.Data.List.Induction
import Verif.Spec.LfrRuns

namespace Verif
open Spec

namespace Script
variable {D α β : Type}

@[simp] theorem pure_eq (a : α) (d : D) : (pure a : Script D α) d = ([], .ok a) := rfl
@[simp] theorem files_eq (d : D) : (files : Script D D) d = ([], .ok d) := rfl
@[simp] theorem put_eq (d d' : D) : put d' d = ([d'], .ok ()) := rfl
@[simp] theorem lift_eq (r : Except Stop α) (d : D) : (lift r : Script D α) d = ([], r) := rfl
@[simp] theorem now_nil (d : D) : now d [] = d := rfl
theorem now_append (d : D) (t t' : List D) : now d (t ++ t') = now (now d t) t' := by
  unfold now
  induction t' using List.reverseRecOn with
  | nil => simp
  | append_singleton l x _ => rw [← List.append_assoc]; simp
@[simp] theorem now_single (d d' : D) : now d [d'] = d' := rfl
@[simp] theorem now_pair (d d' d'' : D) : now d [d', d''] = d'' := rfl

theorem now_mem (d : D) (t : List D) : now d t ∈ d :: t := by
  unfold now
  induction t using List.reverseRecOn with
  | nil => simp
  | append_singleton l x _ => simp

theorem bind_of_ok {x : Script D α} {f : α → Script D β} {d : D} {t : List D} {a : α} (h : x d = (t, .ok a)) :
    (x >>= f) d = (t ++ (f a (now d t)).1, (f a (now d t)).2) := by
  show andThen x f d = _
  unfold andThen
  rw [h]

theorem bind_of_error {x : Script D α} {f : α → Script D β} {d : D} {t : List D} {e : Stop} (h : x d = (t, .error e)) :
    (x >>= f) d = (t, .error e) := by
  show andThen x f d = _
  unfold andThen
  rw [h]

theorem bind_ok {x : Script D α} {f : α → Script D β} {d : D} {t : List D} {b : β} :
    (x >>= f) d = (t, .ok b) ↔ ∃ t1 a t2, x d = (t1, .ok a) ∧ f a (now d t1) = (t2, .ok b) ∧ t = t1 ++ t2 := by
  rcases hx : x d with ⟨t1, _ | a⟩
  · rw [bind_of_error hx]
    constructor
    · intro h; cases h
    · rintro ⟨_, _, _, h, -⟩; cases h
  · rw [bind_of_ok hx]
    constructor
    · intro h
      obtain ⟨rfl, h2⟩ := Prod.mk.inj h
      exact ⟨t1, a, _, rfl, Prod.ext rfl h2, rfl⟩
    · rintro ⟨_, _, t2, h, hf, rfl⟩
      cases h
      rw [hf]

/-- A script with the precondition `pre`: all files visited satisfy `crash`, and a result `a` satisfies `post a` with the
files at the end. -/
def Meets (pre : D → Prop) (x : Script D α) (crash : D → Prop) (post : α → D → Prop) : Prop :=
  ∀ d, pre d → (∀ d' ∈ (x d).1, crash d') ∧ ∀ a, (x d).2 = .ok a → post a (now d (x d).1)

theorem Meets.bind {pre : D → Prop} {x : Script D α} {crash : D → Prop} {mid : α → D → Prop} {f : α → Script D β}
    {post : β → D → Prop} (hx : Meets pre x crash mid) (hf : ∀ a, Meets (mid a) (f a) crash post) :
    Meets pre (x >>= f) crash post := by
  intro d hd
  obtain ⟨h1, h2⟩ := hx d hd
  rcases hxd : x d with ⟨t, _ | a⟩
  · rw [hxd] at h1
    rw [bind_of_error hxd]
    exact ⟨h1, fun a h => by cases h⟩
  · rw [hxd] at h1 h2
    obtain ⟨h3, h4⟩ := hf a _ (h2 a rfl)
    rw [bind_of_ok hxd]
    refine ⟨fun d' hd' => ?_, fun b hb => ?_⟩
    · rcases List.mem_append.mp hd' with h | h
      · exact h1 d' h
      · exact h3 d' h
    · rw [now_append]
      exact h4 b hb

end Script

section
variable {Gr R : Type}

theorem collectGraphs_ok {num : Nat} {bs : List (Option (List (Option Gr)))} {acc gs : List Gr}
    (h : collectGraphs num bs acc = .ok gs) :
    num ≤ gs.length ∧ gs <+: acc ++ delivered bs := by
  induction bs generalizing acc with
  | nil =>
    unfold collectGraphs at h
    split at h
    · cases h
    · cases h; exact ⟨by omega, by simp⟩
  | cons b bs ih =>
    unfold collectGraphs at h
    split at h
    · cases b with
      | none =>
        obtain ⟨h1, h2⟩ := ih h
        exact ⟨h1, by simpa [delivered] using h2⟩
      | some rs =>
        obtain ⟨h1, h2⟩ := ih h
        refine ⟨h1, ?_⟩
        simpa [delivered, List.append_assoc] using h2
    · cases h; exact ⟨by omega, by simp⟩

theorem collectGraphs_enough {num : Nat} {bs : List (Option (List (Option Gr)))} {acc : List Gr}
    (h : num ≤ (acc ++ delivered bs).length) : ∃ gs, collectGraphs num bs acc = .ok gs := by
  induction bs generalizing acc with
  | nil =>
    unfold collectGraphs
    simp only [delivered, List.filterMap_nil, List.flatten_nil, List.append_nil] at h
    rw [if_neg (by omega)]
    exact ⟨_, rfl⟩
  | cons b bs ih =>
    unfold collectGraphs
    split
    · cases b with
      | none => exact ih (by simpa [delivered] using h)
      | some rs =>
        apply ih
        simpa [delivered, List.append_assoc] using h
    · exact ⟨_, rfl⟩

theorem collectGraphs_take {num : Nat} {bs : List (Option (List (Option Gr)))} {gs : List Gr}
    (h : collectGraphs num bs [] = .ok gs) : gs.take num = (delivered bs).take num ∧ (gs.take num).length = num := by
  obtain ⟨h1, t, h2⟩ := collectGraphs_ok h
  rw [List.nil_append] at h2
  rw [← h2, List.take_append_of_le_length h1, List.length_take]
  exact ⟨rfl, by omega⟩

variable {fmt : ℝ → String} {o : Workers Gr R} {num runs : Nat} {mu : ℝ} {d : Disk Gr R}

theorem generateGraphs_full {gs : List Gr} (h : d.graphs (num, fmt mu) = .full gs) :
    generateGraphs fmt o num mu d = ([], .ok gs) := by
  unfold generateGraphs
  rw [Script.bind_of_ok (Script.files_eq d)]
  simp only [Script.now_nil, List.nil_append]
  rw [h]
  simp only
  rw [Script.bind_of_ok (Script.files_eq _)]
  simp only [Script.now_nil, List.nil_append]
  rw [h]
  rfl

theorem generateGraphs_torn (h : d.graphs (num, fmt mu) = .torn) :
    generateGraphs fmt o num mu d = ([], .error .unpickling) := by
  unfold generateGraphs
  rw [Script.bind_of_ok (Script.files_eq d)]
  simp only [Script.now_nil, List.nil_append]
  rw [h]
  simp only
  rw [Script.bind_of_ok (Script.files_eq _)]
  simp only [Script.now_nil, List.nil_append]
  rw [h]
  rfl

theorem generateGraphs_absent (h : d.graphs (num, fmt mu) = .absent) :
    generateGraphs fmt o num mu d = match collectGraphs num (o.batches mu) [] with
      | .error e => ([], .error e)
      | .ok _ => ([{ d with graphs := Function.update d.graphs (num, fmt mu) .torn },
          { d with graphs := Function.update d.graphs (num, fmt mu) (.full ((delivered (o.batches mu)).take num)) }],
          .ok ((delivered (o.batches mu)).take num)) := by
  unfold generateGraphs
  rw [Script.bind_of_ok (Script.files_eq d)]
  simp only [Script.now_nil, List.nil_append]
  rw [h]
  simp only
  cases hc : collectGraphs num (o.batches mu) [] with
  | error e =>
    rw [Script.bind_of_error (Script.lift_eq _ _)]
  | ok gs =>
    obtain ⟨h1, h2⟩ := collectGraphs_take hc
    rw [Script.bind_of_ok (Script.lift_eq _ _)]
    simp only [Script.now_nil, List.nil_append]
    rw [if_pos h2, h1]
    rw [Script.bind_of_ok (x := dumpGraphs _ _)
      (t := [{ d with graphs := Function.update d.graphs (num, fmt mu) .torn },
          { d with graphs := Function.update d.graphs (num, fmt mu) (.full ((delivered (o.batches mu)).take num)) }]) (a := ()) rfl]
    rw [Script.bind_of_ok (Script.files_eq _)]
    simp [Function.update_self]

theorem starmapScores_ok {method : String} {gs : List Gr} {rs : List R} (h : starmapScores o runs mu method gs = .ok rs) :
    List.Forall₂ (fun G r => ∃ i, o.score runs mu method i G = .ok r) gs rs := by
  unfold starmapScores at h
  split at h
  · rename_i rs' hm
    cases h
    have key : ∀ (gs : List Gr) (k : Nat) (rs : List R),
        ((gs.zipIdx k).mapM fun Gi => o.score runs mu method Gi.2 Gi.1) = .ok rs →
        List.Forall₂ (fun G r => ∃ i, o.score runs mu method i G = .ok r) gs rs := by
      intro gs
      induction gs with
      | nil => intro k rs h; cases h; exact .nil
      | cons G gs ih =>
        intro k rs h
        rw [List.zipIdx_cons, List.mapM_cons] at h
        cases hs : o.score runs mu method k G with
        | error e => simp only [hs] at h; cases h
        | ok r =>
          simp only [hs] at h
          cases hm : ((gs.zipIdx (k + 1)).mapM fun Gi => o.score runs mu method Gi.2 Gi.1 : Py (List R)) with
          | error e =>
            have h : ((do let rs ← (gs.zipIdx (k + 1)).mapM fun Gi => o.score runs mu method Gi.2 Gi.1; pure (r :: rs)) : Py _) =
              .ok rs := h
            rw [hm] at h; cases h
          | ok rs' =>
            have h : ((do let rs ← (gs.zipIdx (k + 1)).mapM fun Gi => o.score runs mu method Gi.2 Gi.1; pure (r :: rs)) : Py _) =
              .ok rs := h
            rw [hm] at h; cases h
            exact .cons ⟨k, hs⟩ (ih _ _ hm)
    exact key gs 0 rs hm
  · cases h

theorem dictSet_new {ν : Type} {l : List (ℝ × ν)} {k : ℝ} {v : ν} (h : k ∉ l.map Prod.fst) : dictSet l k v = l ++ [(k, v)] := by
  induction l with
  | nil => rfl
  | cons x l ih =>
    obtain ⟨k', v'⟩ := x
    simp only [List.map_cons, List.mem_cons, not_or] at h
    unfold dictSet
    rw [if_neg (Ne.symm h.1), ih h.2]
    rfl

/-- The dictionaries with one more row. -/
noncomputable def addRow (P : Plots R) (mu : ℝ) (a b c e : List R) : Plots R :=
  ⟨dictSet P.plot1 mu a, dictSet P.plot2 mu b, dictSet P.plot3 mu c, dictSet P.plot4 mu e⟩

theorem loop_mem {P : Plots R} {mus : List ℝ} (h : mu ∈ P.plot1.map Prod.fst) :
    experimentLoop fmt o runs num (mu :: mus) P = experimentLoop fmt o runs num mus P := by
  rw [experimentLoop, if_pos h]

theorem loop_new_ok {P : Plots R} {mus : List ℝ} (h : mu ∉ P.plot1.map Prod.fst) {t : List (Disk Gr R)} {gs : List Gr}
    {a b c e : List R} (hg : generateGraphs fmt o num mu d = (t, .ok gs))
    (h1 : starmapScores o runs mu "modularity pruning" gs = .ok a)
    (h2 : starmapScores o runs mu "gamma sweep" gs = .ok b)
    (h3 : starmapScores o runs mu "modularity pruning ground truth K" gs = .ok c)
    (h4 : starmapScores o runs mu "ground truth gamma" gs = .ok e) :
    experimentLoop fmt o runs num (mu :: mus) P d =
      (t ++ { Script.now d t with partialResults := .torn } ::
        { Script.now d t with partialResults := .full (addRow P mu a b c e) } ::
        (experimentLoop fmt o runs num mus (addRow P mu a b c e)
          { Script.now d t with partialResults := .full (addRow P mu a b c e) }).1,
      (experimentLoop fmt o runs num mus (addRow P mu a b c e)
          { Script.now d t with partialResults := .full (addRow P mu a b c e) }).2) := by
  rw [experimentLoop, if_neg h, Script.bind_of_ok hg]
  rw [h1, Script.bind_of_ok (Script.lift_eq _ _)]
  simp only [Script.now_nil, List.nil_append]
  rw [h2, Script.bind_of_ok (Script.lift_eq _ _)]
  simp only [Script.now_nil, List.nil_append]
  rw [h3, Script.bind_of_ok (Script.lift_eq _ _)]
  simp only [Script.now_nil, List.nil_append]
  rw [h4, Script.bind_of_ok (Script.lift_eq _ _)]
  simp only [Script.now_nil, List.nil_append]
  have hr : (⟨dictSet P.plot1 mu a, dictSet P.plot2 mu b, dictSet P.plot3 mu c, dictSet P.plot4 mu e⟩ : Plots R) =
    addRow P mu a b c e := rfl
  simp only [hr]
  rw [Script.bind_of_ok (x := dumpPartial _) (t := [{ Script.now d t with partialResults := .torn },
    { Script.now d t with partialResults := .full (addRow P mu a b c e) }]) (a := ()) rfl]
  rfl

theorem loop_new_cases {P : Plots R} (mus : List ℝ) (h : mu ∉ P.plot1.map Prod.fst) :
    (∃ x, experimentLoop fmt o runs num (mu :: mus) P d = ((generateGraphs fmt o num mu d).1, .error x)) ∨
    ∃ t gs a b c e, generateGraphs fmt o num mu d = (t, .ok gs) ∧
      starmapScores o runs mu "modularity pruning" gs = .ok a ∧
      starmapScores o runs mu "gamma sweep" gs = .ok b ∧
      starmapScores o runs mu "modularity pruning ground truth K" gs = .ok c ∧
      starmapScores o runs mu "ground truth gamma" gs = .ok e := by
  rcases hg : generateGraphs fmt o num mu d with ⟨t, x | gs⟩
  · refine Or.inl ⟨x, ?_⟩
    rw [experimentLoop, if_neg h, Script.bind_of_error hg]
  cases h1 : starmapScores o runs mu "modularity pruning" gs with
  | error x =>
    refine Or.inl ⟨x, ?_⟩
    rw [experimentLoop, if_neg h, Script.bind_of_ok hg, h1, Script.bind_of_error (Script.lift_eq _ _), List.append_nil]
  | ok a =>
  cases h2 : starmapScores o runs mu "gamma sweep" gs with
  | error x =>
    refine Or.inl ⟨x, ?_⟩
    rw [experimentLoop, if_neg h, Script.bind_of_ok hg, h1, Script.bind_of_ok (Script.lift_eq _ _)]
    simp only [Script.now_nil, List.nil_append]
    rw [h2, Script.bind_of_error (Script.lift_eq _ _), List.append_nil]
  | ok b =>
  cases h3 : starmapScores o runs mu "modularity pruning ground truth K" gs with
  | error x =>
    refine Or.inl ⟨x, ?_⟩
    rw [experimentLoop, if_neg h, Script.bind_of_ok hg, h1, Script.bind_of_ok (Script.lift_eq _ _)]
    simp only [Script.now_nil, List.nil_append]
    rw [h2, Script.bind_of_ok (Script.lift_eq _ _)]
    simp only [Script.now_nil, List.nil_append]
    rw [h3, Script.bind_of_error (Script.lift_eq _ _), List.append_nil]
  | ok c =>
  cases h4 : starmapScores o runs mu "ground truth gamma" gs with
  | error x =>
    refine Or.inl ⟨x, ?_⟩
    rw [experimentLoop, if_neg h, Script.bind_of_ok hg, h1, Script.bind_of_ok (Script.lift_eq _ _)]
    simp only [Script.now_nil, List.nil_append]
    rw [h2, Script.bind_of_ok (Script.lift_eq _ _)]
    simp only [Script.now_nil, List.nil_append]
    rw [h3, Script.bind_of_ok (Script.lift_eq _ _)]
    simp only [Script.now_nil, List.nil_append]
    rw [h4, Script.bind_of_error (Script.lift_eq _ _), List.append_nil]
  | ok e => exact Or.inr ⟨t, gs, a, b, c, e, rfl, h1, h2, h3, h4⟩

theorem experiment_torn (mus : List ℝ) (h : d.partialResults = .torn) :
    runExperiment fmt o runs num mus d = ([], .error .unpickling) := by
  unfold runExperiment
  rw [Script.bind_of_ok (Script.files_eq d)]
  simp only [Script.now_nil, List.nil_append]
  rw [h]
  simp only
  rw [Script.bind_of_error (Script.lift_eq _ _)]

theorem experiment_loaded {P : Plots R} (mus : List ℝ) (h : Loaded d P) :
    runExperiment fmt o runs num mus d =
      match experimentLoop fmt o runs num mus P d with
      | (t, .error x) => (t, .error x)
      | (t, .ok P') =>
        if mus.length = 0 then (t, .error (.task .zeroDivisionError))
        else (t ++ [{ Script.now d t with results := .torn }, { Script.now d t with results := .full P' }], .ok ()) := by
  have key : runExperiment fmt o runs num mus d =
      (do
        let P ← experimentLoop fmt o runs num mus P
        if mus.length = 0 then Script.lift (.error (.task .zeroDivisionError))
        else dumpResults P : Script (Disk Gr R) Unit) d := by
    unfold runExperiment
    rw [Script.bind_of_ok (Script.files_eq d)]
    simp only [Script.now_nil, List.nil_append]
    rcases h with h | ⟨h, rfl⟩ <;> · rw [h]; rfl
  rw [key]
  rcases hl : experimentLoop fmt o runs num mus P d with ⟨t, x | P'⟩
  · rw [Script.bind_of_error hl]
  · rw [Script.bind_of_ok hl]
    simp only
    split
    · simp
    · rfl

theorem loaded_exists (h : d.partialResults ≠ .torn) : ∃ P, Loaded d P := by
  cases hd : d.partialResults with
  | absent => exact ⟨_, Or.inr ⟨hd, rfl⟩⟩
  | torn => exact absurd hd h
  | full P => exact ⟨P, Or.inl hd⟩

end

end Verif
