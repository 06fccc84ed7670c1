import Mathlib.Data.Real.Basic
import Verif.Model.Base

/-!
# Files of the LFR benchmark (`experiments/lfr_benchmark_test/lfr_benchmark_test.py:141-235`)

A script changes files one step at a time and may stop after any step.  What the worker processes compute – generated graphs
and scores – comes from an arbitrary `Workers`.  Printing is not modelled.
-/

namespace Verif

/-- A file: `torn` after `open(name, "wb")` and until the last byte has been written. -/
inductive File (α : Type) where
  | absent
  | torn
  | full (content : α)

/-- The four dictionaries `plot1_data, …, plot4_data`: mixing parameter to list of results, in order of insertion
(`/repo/experiments/lfr_benchmark_test/lfr_benchmark_test.py:171-174`). -/
structure Plots (R : Type) where
  plot1 : List (ℝ × List R)
  plot2 : List (ℝ × List R)
  plot3 : List (ℝ × List R)
  plot4 : List (ℝ × List R)

/-- The working directory: `LFR_num_graphs={num_graphs}_mu={mu:.3f}.p` by the two parts of the name,
`lfr_benchmark_results_partial.p` and `lfr_benchmark_results.p`
(`/repo/experiments/lfr_benchmark_test/lfr_benchmark_test.py:142,176,214,217`). -/
structure Disk (Gr R : Type) where
  graphs : Nat × String → File (List Gr)
  partialResults : File (Plots R)
  results : File (Plots R)

/-- Why a script ends early: unpickling an incomplete file, a file that does not exist, a failed assertion, an exception of a
task or of the progress bar, or it is still waiting for graphs. -/
inductive Stop where
  | notFound
  | unpickling
  | assertion
  | task (e : PyErr)
  | waiting

/-- A script: from the files at its start, the files after each change, in order, and the outcome. -/
abbrev Script (D α : Type) := D → List D × Except Stop α

namespace Script
variable {D α β : Type}

/-- The files after the changes `t`. -/
def now (d : D) (t : List D) : D := t.getLastD d

/-- Return a value. -/
def ret (a : α) : Script D α := fun _ => ([], .ok a)

/-- One script after the other. -/
def andThen (x : Script D α) (f : α → Script D β) : Script D β := fun d =>
  match x d with
  | (t, .error e) => (t, .error e)
  | (t, .ok a) => let r := f a (now d t); (t ++ r.1, r.2)

instance : Monad (Script D) where
  pure := ret
  bind := andThen

/-- Look at the files. -/
def files : Script D D := fun d => ([], .ok d)

/-- Change the files. -/
def put (d' : D) : Script D Unit := fun _ => ([d'], .ok ())

/-- A computation that does not touch the files. -/
def lift (r : Except Stop α) : Script D α := fun _ => ([], r)

end Script

/-- What the worker processes of a run of the script deliver: for a mixing parameter, the outcomes of the successive
`pool.map(trial, …)` (`none` for `TimeoutError`, and `none` for a graph that was not generated); and the outcome of
`run_method` for the number of runs, mixing parameter, method, position and graph. -/
structure Workers (Gr R : Type) where
  batches : ℝ → List (Option (List (Option Gr)))
  score : Nat → ℝ → String → Nat → Gr → Py R

section
variable {Gr R : Type}

/-- `while len(LFR_graphs) < num_graphs` (`/repo/experiments/lfr_benchmark_test/lfr_benchmark_test.py:145-158`). -/
def collectGraphs (num : Nat) : List (Option (List (Option Gr))) → List Gr → Except Stop (List Gr)
  | [], acc => if acc.length < num then .error .waiting else .ok acc
  | b :: bs, acc =>
    if acc.length < num then
      match b with
      | none => collectGraphs num bs acc
      | some rs => collectGraphs num bs (acc ++ rs.filterMap id)
    else .ok acc

/-- `pickle.dump(LFR_graphs, open(filename, "wb"))` (`/repo/experiments/lfr_benchmark_test/lfr_benchmark_test.py:163`). -/
def dumpGraphs (key : Nat × String) (gs : List Gr) : Script (Disk Gr R) Unit := do
  let d ← Script.files
  Script.put { d with graphs := Function.update d.graphs key .torn }
  Script.put { d with graphs := Function.update d.graphs key (.full gs) }

/-- `generate_LFR_graphs(num_graphs, mu)` (`/repo/experiments/lfr_benchmark_test/lfr_benchmark_test.py:141-165`); `fmt mu` is
`f"{mu:.3f}"`. -/
def generateGraphs (fmt : ℝ → String) (o : Workers Gr R) (num : Nat) (mu : ℝ) : Script (Disk Gr R) (List Gr) := do
  let d ← Script.files
  match d.graphs (num, fmt mu) with
  | .absent => do
    let gs ← Script.lift (collectGraphs num (o.batches mu) [])
    let gs := gs.take num
    if gs.length = num then dumpGraphs (num, fmt mu) gs else Script.lift (.error .assertion)
  | _ => pure ()
  let d ← Script.files
  match d.graphs (num, fmt mu) with
  | .full gs => pure gs
  | _ => Script.lift (.error .unpickling)

/-- `pool.starmap(run_method, [(G, ground_truth_communities, num_louvain_runs, method) for … in LFR_graphs])`
(`/repo/experiments/lfr_benchmark_test/lfr_benchmark_test.py:192-210`): the results in the order of the graphs, or the
exception of a task. -/
def starmapScores (o : Workers Gr R) (runs : Nat) (mu : ℝ) (method : String) (gs : List Gr) : Except Stop (List R) :=
  match (gs.zipIdx.mapM fun Gi => o.score runs mu method Gi.2 Gi.1) with
  | .ok rs => .ok rs
  | .error e => .error (.task e)

open Classical in
/-- `d[k] = v` on a dictionary (`/repo/experiments/lfr_benchmark_test/lfr_benchmark_test.py:184-187`). -/
noncomputable def dictSet {ν : Type} : List (ℝ × ν) → ℝ → ν → List (ℝ × ν)
  | [], k, v => [(k, v)]
  | (k', v') :: d, k, v => if k' = k then (k, v) :: d else (k', v') :: dictSet d k v

/-- `pickle.dump((plot1_data, …), open("lfr_benchmark_results_partial.p", "wb"))`
(`/repo/experiments/lfr_benchmark_test/lfr_benchmark_test.py:214`). -/
def dumpPartial (P : Plots R) : Script (Disk Gr R) Unit := do
  let d ← Script.files
  Script.put { d with partialResults := .torn }
  Script.put { d with partialResults := .full P }

/-- `pickle.dump((plot1_data, …), open("lfr_benchmark_results.p", "wb"))`
(`/repo/experiments/lfr_benchmark_test/lfr_benchmark_test.py:217`). -/
def dumpResults (P : Plots R) : Script (Disk Gr R) Unit := do
  let d ← Script.files
  Script.put { d with results := .torn }
  Script.put { d with results := .full P }

open Classical in
/-- `for mu in mus` in `run_experiment` (`/repo/experiments/lfr_benchmark_test/lfr_benchmark_test.py:179-214`).  The lists of a
mixing parameter are entered when all of them are there; before, they exist only in memory. -/
noncomputable def experimentLoop (fmt : ℝ → String) (o : Workers Gr R) (runs num : Nat) :
    List ℝ → Plots R → Script (Disk Gr R) (Plots R)
  | [], P => pure P
  | mu :: mus, P =>
    if mu ∈ P.plot1.map Prod.fst then experimentLoop fmt o runs num mus P
    else do
      let gs ← generateGraphs fmt o num mu
      let data1 ← Script.lift (starmapScores o runs mu "modularity pruning" gs)
      let data2 ← Script.lift (starmapScores o runs mu "gamma sweep" gs)
      let data3 ← Script.lift (starmapScores o runs mu "modularity pruning ground truth K" gs)
      let data4 ← Script.lift (starmapScores o runs mu "ground truth gamma" gs)
      let P : Plots R := ⟨dictSet P.plot1 mu data1, dictSet P.plot2 mu data2, dictSet P.plot3 mu data3, dictSet P.plot4 mu data4⟩
      dumpPartial P
      experimentLoop fmt o runs num mus P

/-- `run_experiment(num_louvain_runs, num_graphs_per_mu, mus)`
(`/repo/experiments/lfr_benchmark_test/lfr_benchmark_test.py:168-217`).  `progress.done()` divides by `len(mus)`. -/
noncomputable def runExperiment (fmt : ℝ → String) (o : Workers Gr R) (runs num : Nat) (mus : List ℝ) :
    Script (Disk Gr R) Unit := do
  let d ← Script.files
  let P ← match d.partialResults with
    | .absent => pure ⟨[], [], [], []⟩
    | .torn => Script.lift (.error .unpickling)
    | .full P => pure P
  let P ← experimentLoop fmt o runs num mus P
  if mus.length = 0 then Script.lift (.error (.task .zeroDivisionError))
  else dumpResults P

/-- `for mu in mus: generate_LFR_graphs(num_graphs_per_mu, mu)`
(`/repo/experiments/lfr_benchmark_test/lfr_benchmark_test.py:224-225`). -/
def generateAll (fmt : ℝ → String) (o : Workers Gr R) (num : Nat) : List ℝ → Script (Disk Gr R) Unit
  | [] => pure ()
  | mu :: mus => do
    let _ ← generateGraphs fmt o num mu
    generateAll fmt o num mus

/-- The script up to the plots (`/repo/experiments/lfr_benchmark_test/lfr_benchmark_test.py:220-235`): the data plotted. -/
noncomputable def lfrMain (fmt : ℝ → String) (o : Workers Gr R) (runs num : Nat) (mus : List ℝ) :
    Script (Disk Gr R) (Plots R) := do
  generateAll fmt o num mus
  let d ← Script.files
  match d.results with
  | .absent => runExperiment fmt o runs num mus
  | _ => pure ()
  let d ← Script.files
  match d.results with
  | .full P => pure P
  | _ => Script.lift (.error .unpickling)

end

end Verif
