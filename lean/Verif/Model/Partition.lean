import Mathlib.Data.List.Dedup
import Mathlib.Data.List.Sort
import Verif.Model.Base

/-!
# `utilities/partition_utilities.py` and `sorted_tuple`
-/

namespace Verif

/-- `membership_to_communities` (`/repo/utilities/partition_utilities.py:26-30`): `enumerate` the membership and append
each vertex to the list of its community. -/
def membershipToCommunities {α : Type _} [DecidableEq α] (membership : List α) : List (α × List Nat) :=
  membership.zipIdx.foldl (fun d cv => dictAppend d cv.1 cv.2) []

/-- `membership_to_layered_communities` (`/repo/utilities/partition_utilities.py:33-37`); raises `IndexError` when a
vertex has no layer. -/
def membershipToLayeredCommunities {α β : Type _} [DecidableEq α] [DecidableEq β]
    (membership : List α) (layers : List β) : Py (List ((α × β) × List Nat)) :=
  membership.zipIdx.foldlM (fun d cv => do
    let l ← pyGet layers cv.2
    return dictAppend d (cv.1, l) cv.2) []

/-- `num_communities` (`/repo/utilities/partition_utilities.py:40-43`): `len(set(membership))`, asserted to equal
`max(membership) + 1`; `max` of an empty sequence raises `ValueError`. -/
def numCommunities (membership : List Int) : Py Nat :=
  match membership.max? with
  | none => .error (.valueError "max() arg is an empty sequence")
  | some M =>
    if (membership.dedup.length : Int) = M + 1 then .ok membership.dedup.length else .error .assertionError

/-- `np.unique(t, return_index=True)`, zipped: the distinct values in increasing order, each with the index of its first
occurrence (numpy; called at `/repo/utilities/leiden_utilities.py:23`). -/
def npUnique {α : Type _} [LinearOrder α] (t : List α) : List (α × Nat) :=
  (pySortedBy id t.dedup).map fun x => (x, t.idxOf x)

/-- `sort_map = {x[0]: i for i, x in enumerate(sorted(zip(*np.unique(...)), key=lambda x: x[1]))}`
(`/repo/utilities/leiden_utilities.py:23`). -/
def sortMap {α : Type _} [LinearOrder α] (t : List α) : List (α × Nat) :=
  (pySortedBy Prod.snd (npUnique t)).zipIdx.map fun xi => (xi.1.1, xi.2)

/-- `sorted_tuple` without its cache (`/repo/utilities/leiden_utilities.py:13-24`):
`tuple(sort_map[x] for x in t)`; a missing key raises `KeyError`. -/
def sortedTuple {α : Type _} [LinearOrder α] (t : List α) : Py (List Nat) :=
  t.mapM fun x =>
    match (sortMap t).lookup x with
    | some i => .ok i
    | none => .error .keyError

/-! ## `functools.lru_cache` -/

/-- State of a `functools.lru_cache(maxsize=cap)` wrapper: entries, most recently used first
(`/repo/utilities/leiden_utilities.py:12,87`). -/
structure LRU (κ ν : Type _) where
  cap : Nat
  entries : List (κ × ν)

/-- The empty cache. -/
def LRU.empty {κ ν : Type _} (cap : Nat) : LRU κ ν := ⟨cap, []⟩

/-- One call of an `lru_cache`-wrapped function with key `k`, where evaluating the wrapped function *now* would produce
`fresh` (CPython `functools.lru_cache`, applied at `/repo/utilities/leiden_utilities.py:12,87`).  A hit returns the
stored value and moves the entry to the front; a miss evaluates, stores the value in front and drops the least recently
used entry if the capacity is exceeded; exceptions are not cached. -/
def LRU.call {κ ν : Type _} [DecidableEq κ] (c : LRU κ ν) (k : κ) (fresh : Py ν) : LRU κ ν × Py ν :=
  match c.entries.lookup k with
  | some v => ({ c with entries := (k, v) :: c.entries.filter (fun e => decide (e.1 ≠ k)) }, .ok v)
  | none =>
    match fresh with
    | .ok v => ({ c with entries := ((k, v) :: c.entries).take c.cap }, .ok v)
    | .error e => (c, .error e)

/-- A history of calls; returns the final cache and the outcomes in order. -/
def LRU.run {κ ν : Type _} [DecidableEq κ] (c : LRU κ ν) : List (κ × Py ν) → LRU κ ν × List (Py ν)
  | [] => (c, [])
  | (k, fresh) :: rest =>
    let r := c.call k fresh
    let s := LRU.run r.1 rest
    (s.1, r.2 :: s.2)

end Verif
