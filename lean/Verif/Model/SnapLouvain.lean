import Verif.Model.Snap

/-!
# The Louvain partitions of the SNAP networks (`experiments/social_networks/SNAP_boxplot.py:87-113`)
-/

namespace Verif

/-- The loop of `run_louvain` (`/repo/experiments/social_networks/SNAP_boxplot.py:92-99`); `find k γ` is the membership that the
`k`-th call of `louvain.find_partition` returns, an arbitrary function. -/
def louvainSweep (find : Nat → ℝ → List Nat) : Nat → List ℝ → Py (List (List Nat))
  | _, [] => .ok []
  | k, γ :: γs => do
    let K ← numCommunities ((find k γ).map Int.ofNat)
    if 100 < K then return []
    else
      let rest ← louvainSweep find (k + 1) γs
      return find k γ :: rest

/-- `run_louvain` (`/repo/experiments/social_networks/SNAP_boxplot.py:87-104`): the message divides by the number of partitions; the
result is the set of canonical tuples. -/
noncomputable def snapRunLouvain (find : Nat → ℝ → List Nat) : Py (Finset (List Nat)) := do
  let parts ← louvainSweep find 0 (linspace 0 10 1000)
  if parts.length = 0 then .error .zeroDivisionError
  else
    let cs ← parts.mapM sortedTuple
    return cs.toFinset

/-- `run_louvain_if_necessary` (`/repo/experiments/social_networks/SNAP_boxplot.py:107-113`) for `n` graphs, without the writing of the
files (C97): the pairs `(graphnum, parts)`; `find i` are the Louvain runs on graph `i`.  Simplification: if several workers fail,
the exception is that of the first graph. -/
noncomputable def snapLouvainMissing (present : Nat → Bool) (n : Nat) (find : Nat → Nat → ℝ → List Nat) :
    Py (List (Nat × Finset (List Nat))) :=
  ((List.range n).filter fun i => !present i).mapM fun i => do
    let S ← snapRunLouvain (find i)
    return (i, S)

end Verif
