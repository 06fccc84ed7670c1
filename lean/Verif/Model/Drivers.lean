import Mathlib.Data.Finset.Insert
import Verif.Model.Leiden

/-!
# Repeated Leiden runs (`utilities/leiden_utilities.py:51-53,152-154,181-255`)

Python sets of tuples are finite sets.  `sorted_tuple` is used without its cache, which is transparent (C03).
-/

namespace Verif

section
variable {σ P : Type}

/-- `{sorted_tuple(run(p)) for p in ps}` in one process: `run` may change the graphs (`σ`), which persist
(`/repo/utilities/leiden_utilities.py:181-182,213-215`). -/
def setComprehension (run : σ → P → Prog (List Nat × σ)) : σ → List P → Finset (List Nat) →
    Prog (Finset (List Nat) × σ)
  | s, [], total => pure (total, s)
  | s, p :: ps, total => do
    let r ← run s p
    let c ← Prog.lift (sortedTuple r.1)
    setComprehension run r.2 ps (insert c total)

/-- The tasks of one batch in a worker process: the graphs are unpickled once per batch, so what `run` does to them is
seen by the later tasks of the batch (CPython `multiprocessing.pool.mapstar`). -/
def workerBatch (run : σ → P → Prog (List Nat × σ)) : σ → List P → Prog (List (List Nat) × σ)
  | s, [] => pure ([], s)
  | s, p :: ps => do
    let r ← run s p
    let rs ← workerBatch run r.2 ps
    return (r.1 :: rs.1, rs.2)

/-- Consecutive slices of length `size` (the last one may be shorter): `Pool._get_tasks` of CPython, and
`points[i:i + size] for i in range(0, len(points), size)` (`/repo/utilities/louvain_utilities.py:158-160`). -/
def batches {β : Type} (size : Nat) (l : List β) : List (List β) :=
  (List.range ((l.length + size - 1) / size)).map fun i => (l.drop (i * size)).take size

/-- `pool_chunk_size = max(1, len(tasks) // (cpu_count() * 100))` (`/repo/utilities/leiden_utilities.py:198,240`);
`cpu_count()` is positive. -/
def poolChunkSize (cpu len : Nat) : Nat := max 1 (len / (cpu * 100))

/-- `for partition in pool.imap_unordered(...): total.add(sorted_tuple(partition))`
(`/repo/utilities/leiden_utilities.py:199-208,241-253`): the batches' results arrive in the order `order`; a batch in which
a task raised raises when its turn comes; the caller's graphs are copied, hence unchanged. `tqdm` does not change the
items. -/
def collectUnordered (results : List (Py (List (List Nat)))) : List Nat → Finset (List Nat) → Py (Finset (List Nat))
  | [], total => .ok total
  | i :: order, total => do
    let r ← pyGet results i
    let items ← r
    let cs ← items.mapM sortedTuple
    collectUnordered results order (cs.foldl (fun s c => insert c s) total)

/-- A parallel driver: `workers k` is the state of the process that runs the `k`-th batch when it starts it. -/
def parallelDriver (run : Nat → σ → P → Prog (List Nat × σ)) (cpu : Nat) (workers : Nat → World) (order : List Nat) (s : σ)
    (ps : List P) : Py (Finset (List Nat)) :=
  let results := (batches (poolChunkSize cpu ps.length) ps).zipIdx.map fun bk =>
    (workerBatch (run bk.2) s bk.1 (workers bk.2)).1.map Prod.fst
  collectUnordered results order ∅

end

/-- `repeated_leiden_from_gammas` (`/repo/utilities/leiden_utilities.py:181-182`); also returns the graph's content. -/
noncomputable def repeatedLeiden (env : LeidenEnv) (G : Graph ℝ) (gammas : List (Fl ℝ)) :
    Prog (Finset (List Nat) × Graph ℝ) :=
  setComprehension (singlelayerLeiden env) G gammas ∅

/-- `repeated_parallel_leiden_from_gammas` (`/repo/utilities/leiden_utilities.py:185-210`). -/
noncomputable def repeatedParallelLeiden (env : LeidenEnv) (cpu : Nat) (workers : Nat → World) (order : List Nat)
    (G : Graph ℝ) (gammas : List (Fl ℝ)) : Py (Finset (List Nat)) :=
  parallelDriver (fun _ => singlelayerLeiden env) cpu workers order G gammas

/-- `[(gamma, omega) for gamma in gammas for omega in omegas]` (`/repo/utilities/leiden_utilities.py:214-215,237`,
`/repo/utilities/louvain_utilities.py:150`). -/
def gridPoints {A B : Type} (gammas : List A) (omegas : List B) : List (A × B) :=
  gammas.flatMap fun g => omegas.map fun o => (g, o)

/-- `multilayer_leiden(G_intralayer, G_interlayer, layer_vec, gamma, omega)` as a task on the two graphs
(`/repo/utilities/leiden_utilities.py:152-154`). -/
noncomputable def multilayerTask (env : LeidenEnv) (obj : Nat) (layers : List Nat) (s : Graph ℝ × Graph ℝ)
    (p : Fl ℝ × ℝ) : Prog (List Nat × Graph ℝ × Graph ℝ) :=
  multilayerLeiden env obj s.1 s.2 layers p.1 p.2

/-- `repeated_leiden_from_gammas_omegas` (`/repo/utilities/leiden_utilities.py:213-215`); also returns both graphs. -/
noncomputable def repeatedMultilayerLeiden (env : LeidenEnv) (obj : Nat) (Gi Gx : Graph ℝ) (layers : List Nat)
    (gammas : List (Fl ℝ)) (omegas : List ℝ) : Prog (Finset (List Nat) × Graph ℝ × Graph ℝ) :=
  setComprehension (multilayerTask env obj layers) (Gi, Gx) (gridPoints gammas omegas) ∅

/-- `repeated_parallel_leiden_from_gammas_omegas` (`/repo/utilities/leiden_utilities.py:218-255`); `objs k` is the identity
of the intralayer graph unpickled for the `k`-th batch. -/
noncomputable def repeatedParallelMultilayerLeiden (env : LeidenEnv) (cpu : Nat) (workers : Nat → World) (objs : Nat → Nat)
    (order : List Nat) (Gi Gx : Graph ℝ) (layers : List Nat) (gammas : List (Fl ℝ)) (omegas : List ℝ) :
    Py (Finset (List Nat)) :=
  parallelDriver (fun k => multilayerTask env (objs k) layers) cpu workers order (Gi, Gx) (gridPoints gammas omegas)

end Verif
