import Verif.Model.LfrRuns

/-!
# The timeout of the LFR generation

`/repo/experiments/lfr_benchmark_test/lfr_benchmark_test.py:21-38,86-96,146-157`.  A process has one alarm clock
(`signal.alarm`), and the handler of the signal raises `TimeoutError` wherever the program happens to be.  Time is counted in
ticks; durations are arbitrary.
-/

namespace Verif

/-- How a call ends: it returns or raises something, or it raises the `TimeoutError` of the alarm. -/
inductive Outcome (ρ : Type) where
  | done (r : Py ρ)
  | timeout

/-- A program, as far as the alarm is concerned. -/
inductive Body (ρ : Type) where
  /-- return or raise -/
  | stop (o : Outcome ρ)
  /-- compute for `d` ticks -/
  | work (d : Nat) (next : Body ρ)
  /-- compute forever (networkx's generator occasionally does, `/repo/experiments/lfr_benchmark_test/lfr_benchmark_test.py:56-57`) -/
  | hang
  /-- `try: inner` with handlers that continue with `handler` (also the plain call of a function) -/
  | attempt (inner : Body ρ) (handler : Outcome ρ → Body ρ)
  /-- the call of a function decorated with `@timeout(s)`; `handler` is what the caller does with the outcome -/
  | timed (s : Nat) (inner : Body ρ) (handler : Outcome ρ → Body ρ)

/-- Execution from time `now` with the alarm set to go off at `alarm`: the outcome, the time and the alarm afterwards, or `none`
if it never ends.  `lag` ticks pass between the end of the decorated function and `signal.alarm(0)` taking effect.  The clauses
for `timed` are `wrapper` (`/repo/experiments/lfr_benchmark_test/lfr_benchmark_test.py:27-34`): `signal.alarm(seconds)` replaces
any alarm set before (and `signal.alarm(0)` sets none), the `finally` clause cancels whatever alarm there is, and a signal that
arrives before it does so replaces the result by `TimeoutError` (`:24-25`). -/
def Body.exec {ρ : Type} (lag : Nat) : Body ρ → Nat → Option Nat → Option (Outcome ρ × Nat × Option Nat)
  | .stop o, now, alarm => some (o, now, alarm)
  | .work d next, now, alarm =>
    match alarm with
    | some D => if D ≤ now + d then some (.timeout, max now D, none) else next.exec lag (now + d) (some D)
    | none => next.exec lag (now + d) none
  | .hang, now, alarm =>
    match alarm with
    | some D => some (.timeout, max now D, none)
    | none => none
  | .attempt inner handler, now, alarm =>
    match inner.exec lag now alarm with
    | none => none
    | some (o, t, alarm') => (handler o).exec lag t alarm'
  | .timed s inner handler, now, _ =>
    match inner.exec lag now (if s = 0 then none else some (now + s)) with
    | none => none
    | some (o, t, alarm') =>
      match alarm' with
      | some D => if D ≤ t + lag then (handler .timeout).exec lag (max t D) none else (handler o).exec lag (t + lag) none
      | none => (handler o).exec lag (t + lag) none

/-- `trial`: the generation under a limit of `limit` ticks (10 seconds) with no handler
(`/repo/experiments/lfr_benchmark_test/lfr_benchmark_test.py:88-96`). -/
def trialBody {ρ : Type} (limit : Nat) (generation : Body ρ) : Body ρ := .timed limit generation .stop

/-- A worker process that does its share of the tasks of `pool.map(trial, …)` one after the other: the outcomes and the time
afterwards (`/repo/experiments/lfr_benchmark_test/lfr_benchmark_test.py:147-149`). -/
def workerRun {ρ : Type} (lag limit : Nat) : List (Body ρ) → Nat → Option Nat → Option (List (Outcome ρ) × Nat)
  | [], now, _ => some ([], now)
  | g :: gs, now, alarm =>
    match (trialBody limit g).exec lag now alarm with
    | none => none
    | some (o, t, alarm') =>
      match workerRun lag limit gs t alarm' with
      | none => none
      | some (os, t') => some (o :: os, t')

/-- What the loop sees of a round: `pool.map` raises if a task raised, and `except TimeoutError: pass` ignores the whole round
(`/repo/experiments/lfr_benchmark_test/lfr_benchmark_test.py:148-156`).  Simplification: rounds in which a task raises something
else end the script and do not occur here. -/
def roundOutcome {Gr : Type} (os : List (Outcome (Option Gr))) : Option (List (Option Gr)) :=
  os.mapM fun o => match o with
    | .done (.ok r) => some r
    | _ => none

end Verif
