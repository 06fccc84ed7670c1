import Verif.Model.Champ
import Verif.Model.Partition

/-!
# Number of communities along the ranges of optimality (`experiments/modularity_nonmonotonic_K`)
-/

namespace Verif

/-- `Ks` (`/repo/experiments/modularity_nonmonotonic_K/modularity_nonmonotonic_K.py:79`). -/
def rangeKs (ranges : List (ℝ × ℝ × List Int)) : Py (List Nat) := ranges.mapM fun r => numCommunities r.2.2

/-- The loop over neighbouring entries of `Ks`: is some `Ks[i + 1] < Ks[i]`?
(`/repo/experiments/modularity_nonmonotonic_K/modularity_nonmonotonic_K.py:81-92`; the script plots and exits at the first
such entry.) -/
def dropsAt : List Nat → Bool
  | a :: b :: l => decide (b < a) || dropsAt (b :: l)
  | _ => false

/-- One trial of the search after `CHAMP_2D` has returned
(`/repo/experiments/modularity_nonmonotonic_K/modularity_nonmonotonic_K.py:79-92`). -/
def nonMonotonicK (ranges : List (ℝ × ℝ × List Int)) : Py Bool := do
  let Ks ← rangeKs ranges
  return dropsAt Ks

end Verif
