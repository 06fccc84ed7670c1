import Mathlib.Algebra.BigOperators.Group.Finset.Basic
import Mathlib.Algebra.Order.Ring.Rat
import Verif.Spec.SBM
import Verif.Model.Studies

/-!
# Simulation studies (specification)
-/

namespace Verif.Spec
open Verif

/-- The passes number `start, …, stop - 1` of a study end without an exception, those that are not skipped have the results `fl`,
there are `n` of them, and `stop` is as small as possible. -/
def FirstAccepted {R : Type} (trial : Nat → Run (Option R)) (start n stop : Nat) (fl : List R) : Prop :=
  ∃ os : List (Option R), stop = start + os.length ∧ (∀ k (h : k < os.length), trial (start + k) = pure os[k]) ∧
    os.reduceOption = fl ∧ fl.length = n ∧ ∀ k < os.length, (os.take k).reduceOption.length < n

/-- The share of the elements of `l` for which `P` is true. -/
noncomputable def share {R : Type} (l : List R) (P : R → Bool) : ℝ := (l.countP P : ℝ) / (l.length : ℝ)

open Classical in
/-- The number of partitions with `K` communities in a list. -/
noncomputable def withK (l : List (List Nat)) (K : Nat) : Nat := l.countP fun p => decide (Contiguous p K)

open Classical in
/-- The share of the first `n` graphs that have a stable partition with `K` communities. -/
noncomputable def shareWithK (stable : Nat → List (List Nat)) (n K : Nat) : ℝ :=
  (((List.range n).countP fun i => decide (∃ p ∈ stable i, Contiguous p K) : ℕ) : ℝ) / (n : ℝ)

end Verif.Spec
