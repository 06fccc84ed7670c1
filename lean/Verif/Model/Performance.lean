import Verif.Model.Drivers
import Verif.Model.Snap
import Verif.Model.Champ

/-!
# The parallel performance tests

`tests/test_parallel_leiden_performance.py`.  What the clock and `psutil` report is arbitrary.
-/

namespace Verif

/-- The state of the test module: the cached result of `determine_target_parallelization_speedup`
(`functools.lru_cache(maxsize=1)`, always called without arguments) and `PERFORMANCE_TARGET_RELATIVE_TO_PERFECT_SCALING`
(`/repo/tests/test_parallel_leiden_performance.py:21,29`). -/
structure PerfState where
  target : Option ℝ
  threshold : ℝ

/-- The module after import (`/repo/tests/test_parallel_leiden_performance.py:21`). -/
noncomputable def PerfState.fresh : PerfState := ⟨none, 75 / 100⟩

/-- What one measurement of the machine would report: `psutil.cpu_percent`, the duration of the calculations one after the other,
and in the pool (`/repo/tests/test_parallel_leiden_performance.py:43,49-51,57-59`). -/
structure MockTiming where
  utilization : ℝ
  base : ℝ
  pool : ℝ

open Classical in
/-- `determine_target_parallelization_speedup()` (`/repo/tests/test_parallel_leiden_performance.py:29-61`). -/
noncomputable def determineTarget (cpu : Nat) (t : MockTiming) (s : PerfState) : Py ℝ × PerfState :=
  match s.target with
  | some v => (.ok v, s)
  | none =>
    let s := if t.utilization > 20 then { s with threshold := 1 / 2 } else s
    let n := 32 * cpu
    match pyDiv ((n : ℝ) / 32 * t.base) t.pool with
    | .ok v => (.ok v, { s with target := some v })
    | .error e => (.error e, s)

/-- `run_singlelayer_graph_parallelization` after the target is known (`/repo/tests/test_parallel_leiden_performance.py:70-81`);
`duration` and `poolDuration` are what the clock reports for the two sweeps. -/
noncomputable def singlelayerParallelization (env : LeidenEnv) (cpu : Nat) (workers : Nat → World) (order : List Nat) (G : Graph ℝ)
    (gammas : List ℝ) (duration poolDuration : ℝ) (w : World) (target : ℝ) : Py ℝ := do
  let serial ← (repeatedLeiden env G (gammas.map Fl.fin) w).1
  let lo ← pyMin gammas
  let hi ← pyMax gammas
  let poolGammas := linspace lo hi (gammas.length * cpu)
  let _ ← repeatedParallelLeiden env cpu workers order serial.2 (poolGammas.map Fl.fin)
  let ratio ← pyDiv (poolGammas.length : ℝ) (gammas.length : ℝ)
  let speedup ← pyDiv (ratio * duration) poolDuration
  pyDiv speedup target

/-- `int(len(values) * np.sqrt(cpu_count()))` (`/repo/tests/test_parallel_leiden_performance.py:91-92`).  Simplification: exact. -/
noncomputable def poolLength (len cpu : Nat) : Nat := ⌊(len : ℝ) * Real.sqrt cpu⌋₊

/-- `run_multilayer_graph_parallelization` after the target is known (`/repo/tests/test_parallel_leiden_performance.py:86-100`). -/
noncomputable def multilayerParallelization (env : LeidenEnv) (cpu : Nat) (workers : Nat → World) (objs : Nat → Nat)
    (order : List Nat) (obj : Nat) (Gi Gx : Graph ℝ) (layers : List Nat) (gammas omegas : List ℝ) (duration poolDuration : ℝ) (w : World)
    (target : ℝ) : Py ℝ := do
  let serial ← (repeatedMultilayerLeiden env obj Gi Gx layers (gammas.map Fl.fin) omegas w).1
  let lo ← pyMin gammas
  let hi ← pyMax gammas
  let poolGammas := linspace lo hi (poolLength gammas.length cpu)
  let lo' ← pyMin omegas
  let hi' ← pyMax omegas
  let poolOmegas := linspace lo' hi' (poolLength omegas.length cpu)
  let _ ← repeatedParallelMultilayerLeiden env cpu workers objs order serial.2.1 serial.2.2 layers (poolGammas.map Fl.fin) poolOmegas
  let r ← pyDiv ((poolGammas.length : ℝ) * poolOmegas.length) (gammas.length : ℝ)
  let ratio ← pyDiv r (omegas.length : ℝ)
  let speedup ← pyDiv (ratio * duration) poolDuration
  pyDiv speedup target

open Classical in
/-- One test: `parallelization = self.run_…(…)`, then
`self.assertGreater(parallelization, PERFORMANCE_TARGET_RELATIVE_TO_PERFECT_SCALING)`
(`/repo/tests/test_parallel_leiden_performance.py:102-144`); `measure` computes the parallelisation for a target. -/
noncomputable def performanceTest (cpu : Nat) (t : MockTiming) (measure : ℝ → Py ℝ) (s : PerfState) : Py Unit × PerfState :=
  match determineTarget cpu t s with
  | (.error e, s) => (.error e, s)
  | (.ok target, s) =>
    (do
      let p ← measure target
      if p > s.threshold then .ok () else .error .assertionError, s)

/-- The tests of the module one after the other, in any order and number (unittest goes on after a failure); for each the timing
the machine would report if it were measured at that moment. -/
noncomputable def performanceSuite (cpu : Nat) : List (MockTiming × (ℝ → Py ℝ)) → PerfState → List (Py Unit)
  | [], _ => []
  | (t, measure) :: rest, s =>
    let r := performanceTest cpu t measure s
    r.1 :: performanceSuite cpu rest r.2

end Verif
