import Verif.Spec.Iterate
import Verif.Props.Prune

/-!
# Lemmas for the iterative algorithms
-/

namespace Verif
open Spec

theorem Prog.bind_eq {α β : Type} (x : Prog α) (f : α → Prog β) (w : World) :
    (x >>= f) w = match x w with
      | (.ok a, w') => f a w'
      | (.error e, w') => (.error e, w') := rfl

theorem Prog.pure_eq {α : Type} (a : α) (w : World) : (pure a : Prog α) w = (.ok a, w) := rfl

theorem Prog.lift_ok {α β : Type} (a : α) (f : α → Prog β) (w : World) :
    ((Prog.lift (.ok a) : Prog α) >>= f) w = f a w := rfl

theorem Prog.lift_error {α β : Type} (e : PyErr) (f : α → Prog β) (w : World) :
    ((Prog.lift (.error e) : Prog α) >>= f) w = (.error e, w) := rfl

theorem near_iff (tol : ℝ) (a b : Fl ℝ) : Fl.lt (Fl.abs (Fl.sub a b)) (.fin tol) = true ↔ Within tol a b := by
  constructor
  · intro h
    rcases a with x | _ | _ | _ <;> rcases b with y | _ | _ | _ <;>
      simp [Fl.sub, Fl.add, Fl.abs, Fl.lt] at h
    exact ⟨x, y, rfl, rfl, by rw [sub_eq_add_neg]; exact h⟩
  · rintro ⟨x, y, rfl, rfl, h⟩
    simp [Fl.sub, Fl.add, Fl.abs, Fl.lt, ← sub_eq_add_neg, h]

variable {P C σ : Type}

theorem Visits.nil {maximise : Nat → P → Py C} {update : P → C → Py P} {near : P → P → Prop} {π₀ : P} :
    Visits maximise update near π₀ [] := ⟨by simp, by simp, by simp⟩

theorem Visits.cons {maximise : Nat → P → Py C} {update : P → C → Py P} {near : P → P → Prop} {π₀ π₁ : P} {c : C}
    {vs : List (P × C)} (h0 : maximise 0 π₀ = .ok c) (h1 : update π₀ c = .ok π₁) (hn : ¬ near π₁ π₀)
    (h : Visits (fun i => maximise (i + 1)) update near π₁ vs) : Visits maximise update near π₀ ((π₀, c) :: vs) := by
  refine ⟨?_, ?_, ?_⟩
  · intro v hv; obtain rfl := Option.some.inj hv; rfl
  · intro i v hv
    cases i with
    | zero => obtain rfl := Option.some.inj hv; exact h0
    | succ i => exact h.found i v hv
  · intro i v v' hv hv'
    cases i with
    | zero =>
      obtain rfl := Option.some.inj hv
      have : v'.1 = π₁ := h.start v' (by rw [List.head?_eq_getElem?]; exact hv')
      rw [this]; exact ⟨h1, hn⟩
    | succ i => exact h.step i v v' hv hv'

theorem Visits.single {maximise : Nat → P → Py C} {update : P → C → Py P} {near : P → P → Prop} {π₀ : P} {c : C}
    (h0 : maximise 0 π₀ = .ok c) : Visits maximise update near π₀ [(π₀, c)] := by
  refine ⟨?_, ?_, ?_⟩
  · intro v hv; obtain rfl := Option.some.inj hv; rfl
  · intro i v hv
    cases i with
    | zero => obtain rfl := Option.some.inj hv; exact h0
    | succ i => simp at hv
  · intro i v v' hv hv'
    simp at hv'

/-- What one pass through the loop body does. -/
def BodySpec (maximise : Nat → P → Py C) (update : P → C → Py P) (near : P → P → Prop) (I : σ → Prop)
    (J : World → Prop) (par : σ → P) (com : σ → World → Option C) (body : σ → Prog (σ × Bool)) : Prop :=
  ∀ s w, I s → J w → J (body s w).2 ∧ (body s w).2.calls = w.calls + 1 ∧
    match maximise w.calls (par s) with
    | .error e => (body s w).1 = .error e
    | .ok c => match update (par s) c with
      | .error e => (body s w).1 = .error e
      | .ok π => ∃ s' b, (body s w).1 = .ok (s', b) ∧ I s' ∧ par s' = π ∧ com s' (body s w).2 = some c ∧
          (b = true ↔ near π (par s))

/-- Fill in the partition found by the first pass. -/
def keepPart (c : C) : Py (P × Option C) → Py (P × Option C)
  | .ok (π, none) => .ok (π, some c)
  | r => r

theorem iteration_cons {maximise : Nat → P → Py C} {update : P → C → Py P} {near : P → P → Prop} {n : Nat} {π₀ π₁ : P}
    {c : C} {vs : List (P × C)} {k : Nat} {res : Py (P × Option C)} (h0 : maximise 0 π₀ = .ok c)
    (h1 : update π₀ c = .ok π₁) (hn : ¬ near π₁ π₀)
    (h : Iteration (fun i => maximise (i + 1)) update near n π₁ vs k res) :
    Iteration maximise update near (n + 1) π₀ ((π₀, c) :: vs) (k + 1)
      (keepPart c res) := by
  rcases res with e | ⟨π, c' | c'⟩
  · obtain ⟨hv, h⟩ := h
    refine ⟨Visits.cons h0 h1 hn hv, ?_⟩
    rcases h with ⟨hl, hk, v, hvl, hu⟩ | ⟨hl, hk, π, hm, hp⟩
    · refine Or.inl ⟨by simpa using hl, by simp [hk], v, ?_, hu⟩
      cases vs with
      | nil => simp at hvl
      | cons a l => rw [List.getLast?_cons_cons]; exact hvl
    · refine Or.inr ⟨by simpa using hl, by simp [hk], π, by simpa using hm, Or.inr ?_⟩
      rcases hp with ⟨rfl, rfl⟩ | ⟨v, hvl, hu⟩
      · exact ⟨(π₀, c), by simp, h1, hn⟩
      · refine ⟨v, ?_, hu⟩
        cases vs with
        | nil => simp at hvl
        | cons a l => rw [List.getLast?_cons_cons]; exact hvl
  · obtain ⟨rfl, rfl, rfl, rfl⟩ := h
    exact ⟨le_refl _, rfl, Visits.single h0, π₀, by simp, h1, Or.inl rfl⟩
  · obtain ⟨hl, hk, hv, π', hvl, hu, hor⟩ := h
    refine ⟨by simpa using hl, by simp [hk], Visits.cons h0 h1 hn hv, π', ?_, hu, ?_⟩
    · cases vs with
      | nil => simp at hvl
      | cons a l => rw [List.getLast?_cons_cons]; exact hvl
    · rcases hor with hor | hor
      · left; simp [hor]
      · exact Or.inr hor

/-- The loop performs an iteration. -/
theorem forRange_iteration {maximise : Nat → P → Py C} {update : P → C → Py P} {near : P → P → Prop} {I : σ → Prop}
    {J : World → Prop} {par : σ → P} {com : σ → World → Option C} {body : σ → Prog (σ × Bool)}
    (hb : BodySpec maximise update near I J par com body) (n : Nat) (s : σ) (w : World) (hs : I s) (hw : J w) :
    J (forRange body n s w).2 ∧
    (∀ r, (forRange body n s w).1 = .ok r → I r.1 ∧ (n ≠ 0 → com r.1 (forRange body n s w).2 ≠ none) ∧
      (n = 0 → r = (s, false) ∧ (forRange body n s w).2 = w)) ∧
    ∃ vs k, (forRange body n s w).2.calls = w.calls + k ∧
      Iteration (fun i => maximise (w.calls + i)) update near n (par s) vs k
        (match (forRange body n s w).1 with
         | .ok r => .ok (par r.1, if n = 0 then none else com r.1 (forRange body n s w).2)
         | .error e => .error e) := by
  induction n generalizing s w with
  | zero => exact ⟨hw, by rintro r hr; obtain rfl := Except.ok.inj hr; exact ⟨hs, by simp, by intro _; exact ⟨rfl, rfl⟩⟩, [], 0, rfl, rfl, rfl, rfl, rfl⟩
  | succ n ih =>
    obtain ⟨hJ, hc, hbody⟩ := hb s w hs hw
    have hrun : forRange body (n + 1) s w = match body s w with
        | (.ok a, w') => (if a.2 then (pure (a.1, true) : Prog (σ × Bool)) else forRange body n a.1) w'
        | (.error e, w') => (.error e, w') := by
      show (body s >>= _) w = _
      rw [Prog.bind_eq]
      rcases body s w with ⟨_ | a, w'⟩ <;> rfl
    rw [hrun]
    generalize body s w = bw at hJ hc hbody
    obtain ⟨res, w'⟩ := bw
    simp only at hJ hc hbody
    cases hm : maximise w.calls (par s) with
    | error e =>
      rw [hm] at hbody
      simp only at hbody
      subst hbody
      refine ⟨hJ, by simp, [], 1, hc, Visits.nil, Or.inr ⟨by simp, rfl, par s, by simpa using hm, Or.inl ⟨rfl, rfl⟩⟩⟩
    | ok c =>
      rw [hm] at hbody
      simp only at hbody
      have hm0 : (fun i => maximise (w.calls + i)) 0 (par s) = .ok c := hm
      cases hu : update (par s) c with
      | error e =>
        rw [hu] at hbody
        simp only at hbody
        subst hbody
        exact ⟨hJ, by simp, [(par s, c)], 1, hc, Visits.single hm0,
          Or.inl ⟨by simp, rfl, (par s, c), rfl, hu⟩⟩
      | ok π =>
        rw [hu] at hbody
        obtain ⟨s', b, rfl, hI, hp, hcom, hnear⟩ := hbody
        cases b with
        | true =>
          simp only [if_true]
          rw [Prog.pure_eq]
          refine ⟨hJ, ?_, [(par s, c)], 1, hc, ?_⟩
          · rintro r hr; obtain rfl := Except.ok.inj hr
            exact ⟨hI, by intro _; simp [hcom], by simp⟩
          · simp only [Nat.succ_ne_zero, if_false, hcom]
            exact ⟨by simp, rfl, Visits.single hm0, par s, by simp, by rw [hp]; exact hu,
              Or.inr (by rw [hp]; exact hnear.mp rfl)⟩
        | false =>
          have hnn : ¬ near π (par s) := fun h => by simpa using hnear.mpr h
          simp only [Bool.false_eq_true, if_false]
          obtain ⟨hJ', hI', vs, k, hk, hit⟩ := ih s' w' hI hJ
          refine ⟨hJ', ?_, (par s, c) :: vs, k + 1, by rw [hk, hc]; omega, ?_⟩
          · intro r hr
            obtain ⟨h1, h2, h3⟩ := hI' r hr
            refine ⟨h1, ?_, by simp⟩
            intro _
            by_cases hn : n = 0
            · obtain ⟨rfl, hw'⟩ := h3 hn
              rw [hw']; simp [hcom]
            · exact h2 hn
          · have heq : (fun i => maximise (w'.calls + i)) = fun i => (fun i => maximise (w.calls + i)) (i + 1) := by
              funext i; simp only [hc]; congr 1; omega
            rw [heq, hp] at hit
            have := iteration_cons (maximise := fun i => maximise (w.calls + i)) hm0 hu hnn hit
            convert this using 1
            cases hr : (forRange body n s' w').1 with
            | error e => rfl
            | ok r =>
              simp only [keepPart, Nat.succ_ne_zero, if_false]
              by_cases hn : n = 0
              · obtain ⟨rfl, hw'⟩ := (hI' r hr).2.2 hn
                subst hn
                rw [hw', hcom]; rfl
              · simp only [hn, if_false]
                cases hcm : com r.1 (forRange body n s' w').2 with
                | none => exact absurd hcm ((hI' r hr).2.1 hn)
                | some c' => rfl

end Verif
