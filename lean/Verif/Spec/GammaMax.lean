import Mathlib.Order.Bounds.Basic
import Verif.Model.GammaMax

/-!
# The largest expected gamma estimate (specification)
-/

namespace Verif.Spec
open Verif

/-- What an exact version of scipy's `minimize_scalar` does: for a function without exceptions that is bounded below, `fun` is its
greatest lower bound on the real line. -/
def ExactMinimizer (minimize : (ℝ → Py ℝ) → ℝ → ℝ → Py ℝ) : Prop :=
  ∀ (f : ℝ → Py ℝ) (g : ℝ → ℝ) (a b : ℝ), (∀ x, f x = .ok (g x)) → BddBelow (Set.range g) →
    ∃ v, minimize f a b = .ok v ∧ IsGLB (Set.range g) v

/-- The gamma estimates expected for `K` balanced assortative communities: `p_out / p_in = x` between 0 and 1. -/
def expectedGammas (K : Nat) : Set ℝ := {g | ∃ x, 0 < x ∧ x < 1 ∧ expectedGamma K x = .ok g}

end Verif.Spec
