import Verif.Model.Drivers
import Verif.Model.Progress
import Verif.Model.Coefficients

/-!
# The legacy Louvain functions (`utilities/louvain_utilities.py`)

Warnings and messages are not modelled.
-/

namespace Verif

/-! ## Attribute lookup in the deprecated module -/

/-- `old in s` -/
def strContains (old : List Char) (s : List Char) : Bool :=
  match s with
  | [] => old.isEmpty
  | c :: cs => old.isPrefixOf (c :: cs) || strContains old cs

/-- `s.replace(old, new)` for a non-empty `old`: from left to right, non-overlapping. -/
def strReplace (old new : List Char) (s : List Char) : List Char :=
  if old = [] then s  -- not used
  else match s with
    | [] => []
    | c :: cs =>
      if old.isPrefixOf (c :: cs) then new ++ strReplace old new (cs.drop (old.length - 1))
      else c :: strReplace old new cs
termination_by s.length
decreasing_by all_goals simp only [List.length_drop, List.length_cons]; omega

/-- The outcome of an attribute lookup: an attribute of the module itself, an attribute of `leiden_utilities`, or Python's
`None`. -/
inductive Attr where
  | own (name : List Char)
  | leiden (name : List Char)
  | none
  deriving DecidableEq, Repr

/-- `getattr(louvain_utilities, name)`: names defined in the module itself (`own`) are found without `__getattr__`
(`/repo/utilities/louvain_utilities.py:30-36`; Python's module attribute lookup); `leiden` are the names defined in
`leiden_utilities`. -/
def louvainGetattr (own leiden : List (List Char)) (name : List Char) : Py Attr :=
  if name ∈ own then .ok (.own name)
  else if strContains "louvain".toList name then
    let leidenName := strReplace "louvain".toList "leiden".toList name
    if leidenName ∈ leiden then .ok (.leiden leidenName) else .error .attributeError
  else .ok .none

/-! ## Capabilities -/

/-- What `import louvain` found (`/repo/utilities/louvain_utilities.py:20-23`). -/
inductive LouvainInstallation where
  | missing
  | plain
  | multilayer
  deriving DecidableEq, Repr

/-- `check_multilayer_louvain_capabilities` (`/repo/utilities/louvain_utilities.py:39-54`): without the package the name
`louvain` is not defined. -/
def checkCapabilities (inst : LouvainInstallation) (fatal : Bool) : Py Bool :=
  match inst with
  | .missing => .error .nameError
  | .plain => if fatal then .error .attributeError else .ok false
  | .multilayer => .ok true

/-! ## Multilayer runs -/

/-- The environment: the installation, igraph's answer to `'weight' in G.es`, and what the optimisation finds in the task
with the given number (arbitrary: the algorithm is randomised and may raise). -/
structure LouvainEnv where
  installation : LouvainInstallation
  test : Graph ℝ → Bool
  optimise : Nat → Graph ℝ → Graph ℝ → List Nat → Fl ℝ → ℝ → Py (List Nat)

/-- `multilayer_louvain` (`/repo/utilities/louvain_utilities.py:57-97`), reduced to the membership. -/
noncomputable def multilayerLouvain (env : LouvainEnv) (i : Nat) (Gi Gx : Graph ℝ) (layers : List Nat) (γ : Fl ℝ) (ω : ℝ) :
    Py (List Nat) := do
  let _ ← checkCapabilities env.installation true
  let Gi ← ensureWeight env.test Gi.ecount Gi
  let Gx ← ensureWeight env.test Gx.ecount Gx
  env.optimise i Gi Gx layers γ ω

/-- `chunk_params` and the final `chunk_size` (`/repo/utilities/louvain_utilities.py:156-164`); a point carries its position
in the grid. -/
def louvainChunks {β : Type} (numGammas : Nat) (chunkDispatch : Bool) (points : List β) : List (List β) × Nat :=
  let chunkSize := points.length / 99
  if 0 < chunkSize ∧ chunkDispatch then (batches chunkSize points, chunkSize) else ([points], numGammas)

/-- `ceil(len(points) / chunk_size)` (`/repo/utilities/louvain_utilities.py:167`).  Simplification: exact. -/
def ceilDiv (n d : Nat) : Py Nat := if d = 0 then .error .zeroDivisionError else .ok ((n + d - 1) / d)

/-- `if show_progress: progress.increment()` (`/repo/utilities/louvain_utilities.py:173-174`): the bars printed and the new
state of the progress bar. -/
def showProgress (rnd : Nat → Nat → Nat) : Option Progress → Py (List (List Char) × Option Progress)
  | none => .ok ([], none)
  | some p => (p.increment rnd).map fun bp => ([bp.1], some bp.2)

/-- The loop over the chunks (`/repo/utilities/louvain_utilities.py:169-179`): `sched k` is the completion order of the
tasks of the `k`-th chunk, `lowMemory k` tells whether the pool is replaced after it (the third component of the result
counts the pools); `progress` is `none` without progress bar; also returns the bars printed.  Outer `none`: a pool never
delivered.  Simplification: every task starts from the caller's graphs (tasks sharing a pickled copy see the weights 1
added by an earlier task, which is what they would add themselves). -/
noncomputable def louvainLoop (env : LouvainEnv) (rnd : Nat → Nat → Nat) (lowMemory : Nat → Bool) (sched : Nat → List Nat)
    (Gi Gx : Graph ℝ) (layers : List Nat) : List (List (Nat × Fl ℝ × ℝ)) → Nat → Finset (List Nat) → Option Progress → Nat →
    Option (Py (Finset (List Nat) × List (List Char) × Option Progress × Nat))
  | [], _, total, progress, pools => some (.ok (total, [], progress, pools))
  | chunk :: chunks, k, total, progress, pools =>
    match poolStarmap (fun t => multilayerLouvain env t.1 Gi Gx layers t.2.1 t.2.2) chunk (sched k) with
    | none => none
    | some (.error e) => some (.error e)
    | some (.ok found) =>
      match found.mapM sortedTuple with
      | .error e => some (.error e)
      | .ok cs =>
        let total := cs.foldl (fun s c => insert c s) total
        match showProgress rnd progress with
        | .error e => some (.error e)
        | .ok (bars, progress) =>
          (louvainLoop env rnd lowMemory sched Gi Gx layers chunks (k + 1) total progress
            (if lowMemory k then pools + 1 else pools)).map fun r => r.map fun x => (x.1, bars ++ x.2.1, x.2.2)

/-- `repeated_parallel_louvain_from_gammas_omegas` (`/repo/utilities/louvain_utilities.py:128-185`); returns the set and the
bars printed. -/
noncomputable def repeatedParallelLouvain (env : LouvainEnv) (rnd : Nat → Nat → Nat) (lowMemory : Nat → Bool)
    (sched : Nat → List Nat) (Gi Gx : Graph ℝ) (layers : List Nat) (gammas : List (Fl ℝ)) (omegas : List ℝ)
    (progressBar chunkDispatch : Bool) : Option (Py (Finset (List Nat) × List (List Char))) :=
  let points := (gridPoints gammas omegas).zipIdx.map fun pi => (pi.2, pi.1)
  let chunks := louvainChunks gammas.length chunkDispatch points
  let progress : Py (Option Progress) :=
    if progressBar then do
      let total ← ceilDiv points.length chunks.2
      let p ← Progress.new total 80
      return some p
    else .ok none
  match progress with
  | .error e => some (.error e)
  | .ok progress =>
    match louvainLoop env rnd lowMemory sched Gi Gx layers chunks.1 0 ∅ progress 1 with
    | none => none
    | some (.error e) => some (.error e)
    | some (.ok (total, bars, progress, _)) =>
      match progress with
      | none => some (.ok (total, bars))
      | some p => some ((p.done rnd).map fun bp => (total, bars ++ [bp.1]))

/-- `repeated_louvain_from_gammas_omegas` (`/repo/utilities/louvain_utilities.py:123-125`). -/
noncomputable def repeatedLouvain (env : LouvainEnv) (Gi Gx : Graph ℝ) (layers : List Nat) (gammas : List (Fl ℝ))
    (omegas : List ℝ) : Py (Finset (List Nat)) := do
  let found ← ((gridPoints gammas omegas).zipIdx).mapM fun pi => do
    let c ← multilayerLouvain env pi.2 Gi Gx layers pi.1.1 pi.1.2
    sortedTuple c
  return found.toFinset

end Verif
