import Verif.Model.Checks
import Verif.Spec.Leidenalg
import Verif.Spec.Iterate

/-!
# The correctness checks (specification)
-/

namespace Verif.Spec
open Verif

/-- The quality functions are those leidenalg documents (with some count of the possible edges inside a community). -/
def LeidenalgQuality (q : QualityFn) : Prop := ∃ possible : Bool → Nat → ℝ, ∀ p c, q p c = quality possible c p

/-- The two numbers agree up to the tolerance of the checks. -/
def Close (x y : ℝ) : Prop := |x - y| ≤ 5 / 10 ^ 11

/-- The coefficient is a number and agrees with `y` up to the tolerance of the checks. -/
def CloseFl (x : Fl ℝ) (y : ℝ) : Prop := ∃ r, x = .fin r ∧ Close r y

/-- `y` is the largest of the values `f` takes on `l`. -/
def IsBest {β : Type} (l : List β) (f : β → ℝ) (y : ℝ) : Prop := (∃ x ∈ l, f x = y) ∧ ∀ x ∈ l, f x ≤ y

end Verif.Spec
