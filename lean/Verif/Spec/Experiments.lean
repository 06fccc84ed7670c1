import Mathlib.Analysis.SpecialFunctions.Exp
import Verif.Spec.SBM

/-!
# Specification vocabulary for the analytic formulas
-/

namespace Verif.Spec
open Real

/-- What scipy documents about `lambertw` on `[-1/e, 0)`: both real branches solve `w e^w = z`; branch 0 lies above `-1`,
branch `-1` below. -/
def SoundLambertW (lambertw : Int → ℝ → ℝ) : Prop :=
  ∀ z : ℝ, -exp (-1) ≤ z → z < 0 →
    lambertw 0 z * exp (lambertw 0 z) = z ∧ -1 ≤ lambertw 0 z ∧
    lambertw (-1) z * exp (lambertw (-1) z) = z ∧ lambertw (-1) z ≤ -1

/-- All `K` communities have the same strength. -/
def Balanced {F : Type} [Field F] (es : List ((Nat × Nat) × F)) (c : List Nat) (K : Nat) : Prop :=
  ∀ r < K, ∀ s < K, wStrength es c r = wStrength es c s

end Verif.Spec
