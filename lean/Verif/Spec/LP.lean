import Verif.Model.Champ

/-!
# Contracts of the LP solver and of the random sampler
-/

namespace Verif.Spec
open Verif
variable {d : Nat}

/-- The inequality of one LP row at `(x, r)`. -/
def RowHolds (row : LPRow d) (x : Fin d → ℝ) (r : ℝ) : Prop := (∑ k, row.a k * x k) + row.norm * r ≤ row.b

/-- `(x, r)` satisfies all rows. -/
def LPFeasible (rows : List (LPRow d)) (x : Fin d → ℝ) (r : ℝ) : Prop := ∀ row ∈ rows, RowHolds row x r

/-- An exact solver for `maximise r subject to rows` (scipy's status codes): status 0 with an optimal point, 2 if
infeasible, 3 if unbounded. -/
def ExactLP (linprog : Nat → List (LPRow d) → LPResult d) : Prop :=
  ∀ k rows,
    ((linprog k rows).status = 0 ∧ ∃ x r, (linprog k rows).x = some x ∧ LPFeasible rows x r ∧
        ∀ x' r', LPFeasible rows x' r' → r' ≤ r) ∨
    ((linprog k rows).status = 2 ∧ (linprog k rows).success = false ∧ ∀ x r, ¬ LPFeasible rows x r) ∨
    ((linprog k rows).status = 3 ∧ (linprog k rows).success = false ∧ ∀ R, ∃ x r, LPFeasible rows x r ∧ R < r)

/-- Sampling without replacement: `m` distinct indices below `n`. -/
def SamplesWithoutReplacement (sample : Nat → Nat → Nat → List Nat) : Prop :=
  ∀ k n m, m ≤ n → (sample k n m).length = m ∧ (sample k n m).Nodup ∧ ∀ i ∈ sample k n m, i < n

end Verif.Spec
