import Verif.Spec.Timeout

/-!
# Property C103: the timeout of the LFR generation
-/

namespace Verif.Props
open Verif Spec

variable {ρ : Type} {lag : Nat}

/-- Straight-line code without an alarm. -/
theorem plain_free {b : Body ρ} {r : Option (Nat × Outcome ρ)} (h : Plain b r) (now : Nat) :
    b.exec lag now none = r.map fun x => (x.2, now + x.1, none) := by
  induction h generalizing now with
  | stop o => rfl
  | hang => rfl
  | later d h ih => rw [Body.exec, ih]; simp only [Option.map_some, Nat.add_assoc]
  | never d h ih => rw [Body.exec, ih]; rfl

/-- Straight-line code with an alarm in the future. -/
theorem plain_alarm {b : Body ρ} {r : Option (Nat × Outcome ρ)} (h : Plain b r) {now D : Nat} (hD : now < D) :
    b.exec lag now (some D) = match r with
      | some (n, o) => if now + n < D then some (o, now + n, some D) else some (.timeout, D, none)
      | none => some (.timeout, D, none) := by
  induction h generalizing now with
  | stop o => rw [Body.exec]; dsimp only; rw [Nat.add_zero, if_pos hD]
  | hang => rw [Body.exec]; dsimp only; rw [max_eq_right hD.le]
  | @later d b n o h ih =>
    rw [Body.exec]
    dsimp only
    by_cases hd : D ≤ now + d
    · rw [if_pos hd, if_neg (by omega), max_eq_right hD.le]
    · rw [if_neg hd, ih (by omega)]
      dsimp only
      rw [Nat.add_assoc]
  | never d h ih =>
    rw [Body.exec]
    dsimp only
    by_cases hd : D ≤ now + d
    · rw [if_pos hd, max_eq_right hD.le]
    · rw [if_neg hd, ih (by omega)]

/-- **C103.** A decorated function that would end after `n` ticks: if that (and cancelling the alarm) takes less than the limit,
the caller gets its outcome, as if there were no timeout; otherwise `TimeoutError`, when the limit is reached (plus the time it takes
to cancel the alarm). No alarm is left, and an alarm set before the call has no influence. -/
theorem c103_limit {b : Body ρ} {n s : Nat} {o : Outcome ρ} (h : Plain b (some (n, o))) (hs : 0 < s) (handler : Outcome ρ → Body ρ)
    (now : Nat) (alarm : Option Nat) :
    (n + lag < s → (Body.timed s b handler).exec lag now alarm = (handler o).exec lag (now + n + lag) none) ∧
    (s ≤ n + lag → ∃ t, now + s ≤ t ∧ t ≤ now + s + lag ∧
      (Body.timed s b handler).exec lag now alarm = (handler .timeout).exec lag t none) := by
  rw [Body.exec, if_neg (by omega), plain_alarm h (by omega)]
  dsimp only
  by_cases hn : now + n < now + s
  · rw [if_pos hn]
    dsimp only
    refine ⟨fun hl => by rw [if_neg (by omega)], fun hl => ⟨now + s, le_refl _, by omega, ?_⟩⟩
    rw [if_pos (by omega), max_eq_right hn.le]
  · rw [if_neg hn]
    exact ⟨fun hl => by omega, fun hl => ⟨now + s + lag, by omega, le_refl _, rfl⟩⟩

/-- **C103.** A decorated function that would never end raises `TimeoutError` at the limit. -/
theorem c103_hang {b : Body ρ} {s : Nat} (h : Plain b none) (hs : 0 < s) (handler : Outcome ρ → Body ρ) (now : Nat)
    (alarm : Option Nat) :
    (Body.timed s b handler).exec lag now alarm = (handler .timeout).exec lag (now + s + lag) none := by
  rw [Body.exec, if_neg (by omega), plain_alarm h (by omega)]

/-- **C103.** Whatever the decorated function does – other decorated calls, handlers –, no alarm is pending once the call has ended. -/
theorem c103_alarm_cleared {s : Nat} {b : Body ρ} {now t : Nat} {alarm alarm' : Option Nat} {o : Outcome ρ}
    (h : (Body.timed s b .stop).exec lag now alarm = some (o, t, alarm')) : alarm' = none := by
  rw [Body.exec] at h
  split at h
  · cases h
  · rename_i o' t' a hin
    cases a with
    | none => cases h; rfl
    | some D =>
      dsimp only at h
      split at h <;> · cases h; rfl

/-- **C103 (limit).** `@timeout(0)` is no timeout. -/
theorem c103_zero {b : Body ρ} {r : Option (Nat × Outcome ρ)} (h : Plain b r) (handler : Outcome ρ → Body ρ) (now : Nat)
    (alarm : Option Nat) :
    (Body.timed 0 b handler).exec lag now alarm = match r with
      | some (n, o) => (handler o).exec lag (now + n + lag) none
      | none => none := by
  rw [Body.exec, if_pos rfl, plain_free h]
  cases r with
  | none => rfl
  | some x => rfl

/-- **C103 (limit).** Decorated functions must not call each other: the end of the inner call cancels the alarm of the outer one, so
a function with any limit that makes such a call and then hangs never ends. -/
theorem c103_nested {s s' n : Nat} {b : Body ρ} {o : Outcome ρ} (h : Plain b (some (n, o))) (handler : Outcome ρ → Body ρ)
    (now : Nat) (alarm : Option Nat) :
    (Body.timed s (.timed s' b fun _ => .hang) handler).exec lag now alarm = none := by
  have : ∀ a, (Body.timed s' b fun _ => (.hang : Body ρ)).exec lag now a = none := by
    intro a
    rcases Nat.eq_zero_or_pos s' with rfl | hs'
    · rw [c103_zero h]; rfl
    · by_cases hn : n + lag < s'
      · rw [(c103_limit h hs' _ _ _).1 hn]; rfl
      · obtain ⟨t, -, -, ht⟩ := (c103_limit (lag := lag) h hs' (fun _ => (.hang : Body ρ)) now a).2 (by omega)
        rw [ht]; rfl
  rw [Body.exec, this]

/-- **C103 (limit).** The alarm goes off once: code inside that catches the `TimeoutError` (it is an `OSError`) and then hangs is not
stopped. -/
theorem c103_swallowed {s : Nat} {b : Body ρ} (h : Plain b none) (handler : Outcome ρ → Body ρ) (now : Nat) (alarm : Option Nat) :
    (Body.timed s (.attempt b fun _ => .hang) handler).exec lag now alarm = none := by
  rw [Body.exec, Body.exec]
  rcases Nat.eq_zero_or_pos s with rfl | hs
  · rw [if_pos rfl, plain_free h]; rfl
  · rw [if_neg (by omega), plain_alarm h (by omega)]; rfl

/-! ### Rounds of generation -/

/-- **C103.** A worker process with `k` generations to try is done after at most `k` times the limit (plus the lags), whatever the
generations do; the outcome of a generation that ends in time is its own, of any other `TimeoutError`. -/
theorem c103_worker {limit : Nat} (hl : 0 < limit) (gens : List (Body ρ × Option (Nat × Outcome ρ)))
    (hp : ∀ g ∈ gens, Plain g.1 g.2) (now : Nat) (alarm : Option Nat) :
    ∃ t, t ≤ now + gens.length * (limit + lag) ∧
      workerRun lag limit (gens.map Prod.fst) now alarm = some (gens.map fun g => match g.2 with
        | some (n, o) => if n + lag < limit then o else .timeout
        | none => .timeout, t) := by
  induction gens generalizing now alarm with
  | nil => exact ⟨now, by simp, rfl⟩
  | cons g gs ih =>
    have key : ∃ t, t ≤ now + (limit + lag) ∧ (trialBody limit g.1).exec lag now alarm = some ((match g.2 with
        | some (n, o) => if n + lag < limit then o else .timeout
        | none => .timeout), t, none) := by
      have hg := hp g (by simp)
      unfold trialBody
      rcases hr : g.2 with _ | ⟨n, o⟩
      · rw [hr] at hg
        exact ⟨now + limit + lag, by omega, by rw [c103_hang hg hl]; rfl⟩
      · rw [hr] at hg
        by_cases hn : n + lag < limit
        · exact ⟨now + n + lag, by omega, by rw [(c103_limit hg hl _ _ _).1 hn]; simp only [if_pos hn]; rfl⟩
        · obtain ⟨t, h1, h2, h3⟩ := (c103_limit (lag := lag) hg hl (.stop) now alarm).2 (by omega)
          exact ⟨t, by omega, by rw [h3]; simp only [if_neg hn]; rfl⟩
    obtain ⟨t, h1, h2⟩ := key
    obtain ⟨t', h3, h4⟩ := ih (fun g hg => hp g (by simp [hg])) t none
    refine ⟨t', by rw [List.length_cons, Nat.succ_mul]; omega, ?_⟩
    rw [List.map_cons, workerRun, h2]
    dsimp only
    rw [h4]
    rfl

/-- **C103 (a timeout discards the round).** The loop gets the graphs of a round iff no generation of the round timed out: one
timeout discards what all the other workers generated. -/
theorem c103_round {Gr : Type} (os : List (Outcome (Option Gr))) :
    (∀ rs, roundOutcome os = some rs ↔ os = rs.map fun r => .done (.ok r)) ∧ (.timeout ∈ os → roundOutcome os = none) := by
  have h : ∀ rs, roundOutcome os = some rs ↔ os = rs.map fun r => .done (.ok r) := by
    unfold roundOutcome
    induction os with
    | nil =>
      intro rs
      cases rs <;> simp
    | cons o os ih =>
      intro rs
      rw [List.mapM_cons]
      rcases o with r | _
      · rcases r with e | v
        · cases rs <;> simp
        · cases rs with
          | nil => simp [Option.bind_eq_some_iff]
          | cons r rs =>
            simp only [Option.bind_eq_bind, Option.bind_some, Option.bind_eq_some_iff, Option.pure_def, Option.some.injEq,
              List.cons.injEq, List.map_cons, Outcome.done.injEq, Except.ok.injEq]
            constructor
            · rintro ⟨a, h1, rfl, rfl⟩
              exact ⟨rfl, (ih a).mp h1⟩
            · rintro ⟨rfl, h⟩
              exact ⟨rs, (ih rs).mpr h, rfl, rfl⟩
      · cases rs <;> simp
  refine ⟨h, fun ht => ?_⟩
  cases hr : roundOutcome os with
  | none => rfl
  | some rs =>
    rw [(h rs).mp hr] at ht
    simp at ht

/-- **C103 (no progress).** If in every round some generation hangs, the loop that collects the graphs never has any. -/
theorem c103_starves {Gr : Type} {num : Nat} (hn : 0 < num) (rounds : List (List (Outcome (Option Gr))))
    (h : ∀ os ∈ rounds, .timeout ∈ os) : collectGraphs num (rounds.map roundOutcome) [] = .error .waiting := by
  induction rounds with
  | nil => simp [collectGraphs, hn]
  | cons os rounds ih =>
    have ih := ih fun os hos => h os (by simp [hos])
    rw [List.map_cons, (c103_round os).2 (h os (by simp))]
    simp only [collectGraphs, List.length_nil, hn, if_true]
    exact ih

/-! ### Concrete instances -/

/-- A generation of 3 ticks under a limit of 10, one of 12 ticks, and one that hangs, in one worker. -/
example : ∃ t ≤ 33, workerRun 1 10 [.work 3 (.stop (.done (.ok 7))), .work 12 (.stop (.done (.ok 8))), .work 2 .hang] 0 none =
    some ([.done (.ok 7), .timeout, .timeout], t) := by
  obtain ⟨t, h1, h2⟩ := c103_worker (lag := 1) (limit := 10) (by omega)
    [((.work 3 (.stop (.done (.ok 7))) : Body Nat), some (3, .done (.ok 7))),
      (.work 12 (.stop (.done (.ok 8))), some (12, .done (.ok 8))), (.work 2 .hang, none)]
    (by
      simp only [List.mem_cons, List.not_mem_nil, or_false]
      rintro g (rfl | rfl | rfl)
      · exact .later 3 (.stop _)
      · exact .later 12 (.stop _)
      · exact .never 2 .hang) 0 none
  exact ⟨t, by simpa using h1, h2⟩

/-- The result is lost if the alarm goes off while it is being cancelled. -/
example : (Body.timed 10 (.work 9 (.stop (.done (.ok 7)))) .stop).exec 1 0 none = some ((.timeout : Outcome Nat), 10, none) := rfl

example : roundOutcome [.done (.ok (some 1)), .timeout, .done (.ok (some 2))] = none := rfl

end Verif.Props
