import Mathlib.Analysis.Real.Sqrt
import Mathlib.Algebra.BigOperators.Fin
import Mathlib.Data.Fin.VecNotation
import Mathlib.Data.Nat.Log
import Mathlib.Analysis.SpecialFunctions.Complex.Arg
import Verif.Model.Coefficients

/-!
# `get_interior_point`, `CHAMP_2D`, `CHAMP_3D` (`utilities/champ_utilities.py`)

Numbers are exact reals.  The LP solver, the random sampler, Qhull and the process pool are parameters.
-/

namespace Verif

/-- A computation that may raise (`some (.error e)`) or never finish (`none`). -/
abbrev Run := ExceptT PyErr Option

/-- A computation of the interpreter itself, which always finishes. -/
def Run.ofPy {α : Type} (p : Py α) : Run α := ExceptT.mk (some p)

/-- A row `[normal; offset]` of a halfspace array, meaning `normal · x + offset ≤ 0`
(`/repo/utilities/champ_utilities.py:33,124-126,194-197`). -/
@[ext] structure HS (d : Nat) where
  normal : Fin d → ℝ
  offset : ℝ

namespace HS
variable {d : Nat}

/-- `np.dot(normal, x) + offset` (`/repo/utilities/champ_utilities.py:71`). -/
noncomputable def eval (h : HS d) (x : Fin d → ℝ) : ℝ := (∑ k, h.normal k * x k) + h.offset

/-- `np.linalg.norm(halfspaces, axis=1)`: norm of the *whole* row (`/repo/utilities/champ_utilities.py:129,200`). -/
noncomputable def rowNorm (h : HS d) : ℝ := Real.sqrt ((∑ k, h.normal k ^ 2) + h.offset ^ 2)

/-- `np.linalg.norm(sampled_hs[:, :-1], axis=1)`: norm of the normal only (`/repo/utilities/champ_utilities.py:52`). -/
noncomputable def normalNorm (h : HS d) : ℝ := Real.sqrt (∑ k, h.normal k ^ 2)

/-- Row normalisation (`/repo/utilities/champ_utilities.py:129,200`). -/
noncomputable def normalise (h : HS d) : HS d := ⟨fun k => h.normal k / h.rowNorm, h.offset / h.rowNorm⟩

end HS

/-- One inequality `a · x + norm * r ≤ b` of the Chebyshev-centre LP (`/repo/utilities/champ_utilities.py:51-56`). -/
structure LPRow (d : Nat) where
  a : Fin d → ℝ
  norm : ℝ
  b : ℝ

/-- `A = hstack(normals, norm_vector)`, `b = -offsets` (`/repo/utilities/champ_utilities.py:52-56`). -/
noncomputable def chebyshevRow {d : Nat} (h : HS d) : LPRow d := ⟨h.normal, h.normalNorm, -h.offset⟩

/-- The part of a scipy `OptimizeResult` the code reads: `res.success`, `res.status`, and `res.x[:-1]` (`x` is `None`
when scipy has no iterate) (`/repo/utilities/champ_utilities.py:58-73`). -/
structure LPResult (d : Nat) where
  success : Bool
  status : Nat
  x : Option (Fin d → ℝ)

/-- The environment of the CHAMP functions: everything that is not code of this repository.
* `sample k n m`: the indices `numpy.random.choice(n, m, replace=False)` returns in iteration `k`;
* `linprog k rows`: scipy's answer to the `k`-th LP (`maximise r`);
* `qhull hs x`: `zip(hs.intersections, hs.dual_facets)` of `scipy.spatial.HalfspaceIntersection(hs, x)`; an intersection
  with an infinite or NaN coordinate is `none`;
* `cpu`, `rnd`, `sched`: worker count, float chunk boundaries, and completion order of the pool. -/
structure ChampEnv where
  sample : Nat → Nat → Nat → List Nat
  linprog : (d : Nat) → Nat → List (LPRow d) → LPResult d
  qhull : (d : Nat) → List (HS d) → (Fin d → ℝ) → List (Option (Fin d → ℝ) × List Nat)
  cpu : Nat
  rnd : Nat → Nat → Nat
  sched : List Nat

/-- Number of boundary halfspaces at the end of the array (`/repo/utilities/champ_utilities.py:35-42`). -/
def numBoundaries (d : Nat) : Py Nat :=
  if d = 2 then .ok 4
  else if d = 3 then .ok 6
  else .error (.valueError "get_interior_point received unhandled dimension")

/-- Message of the "impossible" error (`/repo/utilities/champ_utilities.py:75`). -/
def msgImpossible : String := "get_interior_point problem is impossible or degenerate!"
/-- Message of the retry-limit error (`/repo/utilities/champ_utilities.py:78-79`). -/
def msgIllConditioned : String :=
  "get_interior_point is unable to find a well-conditioned solution, but the problem does not appear impossible or degenerate?"

/-- Indexing an array with an index array: `interior_hs[idx]` (`/repo/utilities/champ_utilities.py:49`). -/
def takeIndices {β : Type} (l : List β) (idx : List Nat) : List β := idx.filterMap fun i => l[i]?

open Classical in
/-- The `while True` loop of `get_interior_point` (`/repo/utilities/champ_utilities.py:46-86`); `fuel` bounds the number
of LP solves, `k` numbers them, `none` means the fuel ran out. -/
noncomputable def interiorLoop {d : Nat} (sample : Nat → Nat → Nat → List Nat)
    (linprog : Nat → List (LPRow d) → LPResult d) (interior boundaries : List (HS d)) (limit : Nat) :
    (fuel k initial retries : Nat) → Run (Fin d → ℝ)
  | 0, _, _, _ => (none : Option (Py (Fin d → ℝ)))
  | fuel + 1, k, initial, retries =>
    let sampleLen := min initial interior.length
    let sampled := takeIndices interior (sample k interior.length sampleLen) ++ boundaries
    let res := linprog k (sampled.map chebyshevRow)
    let continue_ : Run (Fin d → ℝ) :=
      if limit < retries then Run.ofPy (.error (.valueError msgIllConditioned))
      else if interior.length ≤ initial then
        interiorLoop sample linprog interior boundaries limit fuel (k + 1) initial (retries + 1)
      else interiorLoop sample linprog interior boundaries limit fuel (k + 1) (initial * 2) retries
    if res.success = true ∨ res.status = 0 ∨ res.status = 1 ∨ res.status = 4 then
      match res.x with
      | none => Run.ofPy (.error .typeError)
      | some x => if ∀ h ∈ interior ++ boundaries, h.eval x < 0 then Run.ofPy (.ok x) else continue_
    else if res.status = 2 ∨ res.status = 3 then Run.ofPy (.error (.valueError msgImpossible))
    else continue_

/-- `get_interior_point` (`/repo/utilities/champ_utilities.py:16-86`) with a bound on the number of LP solves. -/
noncomputable def getInteriorPoint {d : Nat} (sample : Nat → Nat → Nat → List Nat)
    (linprog : Nat → List (LPRow d) → LPResult d) (hs : List (HS d)) (initial limit fuel : Nat) : Run (Fin d → ℝ) := do
  let nb ← Run.ofPy (numBoundaries d)
  interiorLoop sample linprog (hs.take (hs.length - nb)) (hs.drop (hs.length - nb)) limit fuel 0 initial 0

/-- Default arguments of `get_interior_point` (`/repo/utilities/champ_utilities.py:16`). -/
def defaultInitial : Nat := 50
/-- Default arguments of `get_interior_point` (`/repo/utilities/champ_utilities.py:16`). -/
def defaultRetryLimit : Nat := 10

/-- Number of LP solves that always suffices for the default arguments (proved in C14). -/
def defaultFuel (n : Nat) : Nat := Nat.clog 2 n + defaultRetryLimit + 2

/-- `halfspaces_from_coefficients_2D` (`/repo/utilities/champ_utilities.py:283-290`); `ap = (A_hat, P_hat)`. -/
noncomputable def halfspace2D (ap : ℝ × ℝ) : HS 2 := ⟨![-ap.2, -1], ap.1⟩

/-- `halfspaces_from_coefficients_3D` (`/repo/utilities/champ_utilities.py:293-300`); `apc = (A_hat, P_hat, C_hat)`. -/
noncomputable def halfspace3D (apc : ℝ × ℝ × ℝ) : HS 3 := ⟨![-apc.2.1, apc.2.2, -1], apc.1⟩

/-- The four window rows (`/repo/utilities/champ_utilities.py:125-126`). -/
noncomputable def boundaries2D (top bottom γ₀ γf : ℝ) : List (HS 2) :=
  [⟨![0, 1], -top⟩, ⟨![0, -1], bottom⟩, ⟨![1, 0], -γf⟩, ⟨![-1, 0], γ₀⟩]

/-- The six window rows (`/repo/utilities/champ_utilities.py:195-197`). -/
noncomputable def boundaries3D (top bottom γ₀ γf ω₀ ωf : ℝ) : List (HS 3) :=
  [⟨![0, 0, 1], -top⟩, ⟨![0, 0, -1], bottom⟩, ⟨![1, 0, 0], -γf⟩, ⟨![-1, 0, 0], γ₀⟩,
   ⟨![0, 1, 0], -ωf⟩, ⟨![0, -1, 0], ω₀⟩]

/-- Python's `max`/`min` of a non-empty sequence. -/
noncomputable def pyMax (l : List ℝ) : Py ℝ :=
  match l.max? with | some x => .ok x | none => .error (.valueError "max() arg is an empty sequence")
/-- Python's `max`/`min` of a non-empty sequence. -/
noncomputable def pyMin (l : List ℝ) : Py ℝ :=
  match l.min? with | some x => .ok x | none => .error (.valueError "min() arg is an empty sequence")

/-- Rejection of non-finite coefficients: with NaN or infinite `P_hat`s the rows for `top`/`bottom` are NaN after
normalisation, they are always part of the LP, and scipy's `linprog` refuses such input with `ValueError`
(`/repo/utilities/champ_utilities.py:122-132,58`). Simplification: raised before, instead of inside, the first LP. -/
def requireFinite (P : List (Fl ℝ)) : Py (List ℝ) :=
  P.mapM fun | .fin x => .ok x | _ => .error (.valueError "linprog: A_ub must not contain values inf, nan, or None")

/-- The halfspace array of `CHAMP_2D` before the interior point is sought (`/repo/utilities/champ_utilities.py:121-129`). -/
noncomputable def champ2DHalfspaces (A P : List ℝ) (γ₀ γf : ℝ) : Py (List (HS 2)) := do
  let top ← pyMax ((A.zip P).map fun ap => ap.1 - ap.2 * γ₀)
  let bottom ← pyMin ((A.zip P).map fun ap => ap.1 - ap.2 * γf)
  return ((A.zip P).map halfspace2D ++ boundaries2D top bottom γ₀ γf).map HS.normalise

/-- The halfspace array of `CHAMP_3D` (`/repo/utilities/champ_utilities.py:191-200`). -/
noncomputable def champ3DHalfspaces (A P C : List ℝ) (γ₀ γf ω₀ ωf : ℝ) : Py (List (HS 3)) := do
  let top ← pyMax ((A.zip (P.zip C)).map fun apc => apc.1 - apc.2.1 * γ₀ + apc.2.2 * ωf)
  let bottom ← pyMin ((A.zip (P.zip C)).map fun apc => apc.1 - apc.2.1 * γf + apc.2.2 * ω₀)
  return ((A.zip (P.zip C)).map halfspace3D ++ boundaries3D top bottom γ₀ γf ω₀ ωf).map HS.normalise

/-- `assert np.isfinite(v).all()` for every intersection (`/repo/utilities/champ_utilities.py:138,209`). -/
def requireFinitePoints {d : Nat} (out : List (Option (Fin d → ℝ) × List Nat)) : Py (List ((Fin d → ℝ) × List Nat)) :=
  out.mapM fun vi => match vi.1 with
    | some v => .ok (v, vi.2)
    | none => .error .assertionError

/-- `facets_by_halfspace` (`/repo/utilities/champ_utilities.py:135-141,206-212`). -/
def facetsByHalfspace {d : Nat} (numPartitions : Nat) (out : List ((Fin d → ℝ) × List Nat)) :
    List (Nat × List (Fin d → ℝ)) :=
  (out.flatMap fun vi => (vi.2.filter fun i => decide (i < numPartitions)).map fun i => (i, vi.1)).foldl
    (fun D iv => dictAppend D iv.1 iv.2) []

open Classical in
/-- One entry of `ranges` (`/repo/utilities/champ_utilities.py:144-148`). -/
noncomputable def rangeOf {α : Type} (parts : List (List α)) (f : Nat × List (Fin 2 → ℝ)) :
    Py (ℝ × ℝ × List α) := do
  let v₁ ← pyGet f.2 0
  let v₂ ← pyGet f.2 1
  let part ← pyGet parts f.1
  return if v₁ 0 > v₂ 0 then (v₂ 0, v₁ 0, part) else (v₁ 0, v₂ 0, part)

/-- `CHAMP_2D` (`/repo/utilities/champ_utilities.py:89-150`). -/
noncomputable def champ2D {α : Type} [DecidableEq α] (env : ChampEnv) (G : Graph ℝ) (parts : List (List α))
    (γ₀ γf : ℝ) (singleThreaded : Bool) : Run (List (ℝ × ℝ × List α)) := do
  if parts.length = 0 then return []
  let AP ← (ExceptT.mk (partitionCoefficients2D env.rnd env.cpu env.sched G parts singleThreaded) : Run _)
  let P ← Run.ofPy (requireFinite AP.2)
  let hs ← Run.ofPy (champ2DHalfspaces AP.1 P γ₀ γf)
  let x ← getInteriorPoint env.sample (env.linprog 2) hs defaultInitial defaultRetryLimit (defaultFuel hs.length)
  let out ← Run.ofPy (requireFinitePoints (env.qhull 2 hs x))
  let ranges ← Run.ofPy ((facetsByHalfspace parts.length out).mapM (rangeOf parts))
  return pySortedBy (fun r => r.1) ranges

/-- `np.mean(points, axis=0)` (`/repo/utilities/champ_utilities.py:219`). -/
noncomputable def centroid (pts : List (ℝ × ℝ)) : ℝ × ℝ :=
  ((pts.map Prod.fst).sum / pts.length, (pts.map Prod.snd).sum / pts.length)

/-- `np.arctan2(a, b)` (the angle of the point with abscissa `b` and ordinate `a`). -/
noncomputable def arctan2 (a b : ℝ) : ℝ := Complex.arg ⟨b, a⟩

/-- Projection and angular sort of one domain (`/repo/utilities/champ_utilities.py:216-220`). -/
noncomputable def sortDomain (pts : List (Fin 3 → ℝ)) : List (ℝ × ℝ) :=
  let proj := pts.map fun v => (v 0, v 1)
  let c := centroid proj
  pySortedBy (fun x => arctan2 (x.1 - c.1) (x.2 - c.2)) proj

/-- `CHAMP_3D` (`/repo/utilities/champ_utilities.py:153-223`). -/
noncomputable def champ3D {α : Type} [DecidableEq α] (env : ChampEnv) (Gi Gx : Graph ℝ) (layerVec : List Nat)
    (parts : List (List α)) (γ₀ γf ω₀ ωf : ℝ) : Run (List (List (ℝ × ℝ) × List α)) := do
  if parts.length = 0 then return []
  let APC ← (ExceptT.mk (partitionCoefficients3D env.rnd env.cpu env.sched Gi Gx layerVec parts) : Run _)
  let P ← Run.ofPy (requireFinite APC.2.1)
  let hs ← Run.ofPy (champ3DHalfspaces APC.1 P APC.2.2 γ₀ γf ω₀ ωf)
  let x ← getInteriorPoint env.sample (env.linprog 3) hs defaultInitial defaultRetryLimit (defaultFuel hs.length)
  let out ← Run.ofPy (requireFinitePoints (env.qhull 3 hs x))
  Run.ofPy ((facetsByHalfspace parts.length out).mapM fun f => do
    let part ← pyGet parts f.1
    return (sortDomain f.2, part))

end Verif
