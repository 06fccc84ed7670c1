import Mathlib.Data.List.Sort

/-!
# Python basics: exceptions as values, list indexing, association-list dictionaries

Models the Python runtime conventions used by every function of `/repo/utilities`.
-/

namespace Verif

/-- The Python exceptions that the modelled code can raise (CPython built-in exceptions; used by all of
`/repo/utilities/*.py`).  Messages are kept only where the code itself builds them. -/
inductive PyErr where
  | indexError
  | zeroDivisionError
  | valueError (msg : String)
  | typeError
  | attributeError
  | keyError
  | nameError
  | notImplementedError
  | assertionError
  deriving DecidableEq, Repr

/-- A Python computation: a value or a raised exception. -/
abbrev Py := Except PyErr

/-- `l[i]` for a non-negative index (Python list/tuple subscription, e.g. `membership[u]` in
`/repo/utilities/champ_utilities.py:235`).  Negative indices never occur: all indices are vertex ids, layers or
community labels. -/
def pyGet {α : Type _} (l : List α) (i : Nat) : Py α :=
  match l[i]? with
  | some x => .ok x
  | none => .error .indexError

/-- `d[k].append(v)` on a `collections.defaultdict(list)`; Python dictionaries iterate in insertion order, so a
dictionary is an association list ordered by first insertion
(`/repo/utilities/partition_utilities.py:29,36`, `/repo/utilities/champ_utilities.py:141,212`). -/
def dictAppend {κ ν : Type _} [DecidableEq κ] : List (κ × List ν) → κ → ν → List (κ × List ν)
  | [], k, v => [(k, [v])]
  | (k', vs) :: d, k, v => if k' = k then (k', vs ++ [v]) :: d else (k', vs) :: dictAppend d k v

/-- `l[i] += x` on a Python list, raising `IndexError` when `i` is out of range
(`/repo/utilities/parameter_estimation_utilities.py:38-39,89,94,102,107-108,250`). -/
def pyAddAt {F : Type _} [Add F] (l : List F) (i : Nat) (x : F) : Py (List F) :=
  match l[i]? with
  | some y => .ok (l.set i (y + x))
  | none => .error .indexError

/-- `sorted(l, key=key)` / `l.sort(key=key)`: Python's sort is stable; insertion sort computes the same list
(`/repo/utilities/leiden_utilities.py:23`, `/repo/utilities/champ_utilities.py:150,220`). -/
def pySortedBy {α κ : Type _} [LinearOrder κ] (key : α → κ) (l : List α) : List α :=
  l.insertionSort fun a b => key a ≤ key b

end Verif
