import Mathlib.Data.Real.Basic
import Mathlib.Algebra.Order.Group.Unbundled.Abs
import Verif.Spec.Modularity

/-! # Coefficients with errors -/

namespace Verif.Spec
open Verif

/-- Rounding with relative error at most `u` (the standard model of floating-point arithmetic; for doubles `u = 2⁻⁵³`). -/
def RoundsWithin (u : ℝ) (fl : ℝ → ℝ) : Prop := ∀ x, |fl x - x| ≤ u * |x|

/-- `A` and `P` are the coefficients of the partitions up to errors of `δ` times the total of the adjacency matrix; no `P` is
negative. -/
def CloseCoefs {α : Type} [DecidableEq α] (δ : ℝ) (G : Graph ℝ) (parts : List (List α)) (A P : List ℝ) : Prop :=
  A.length = parts.length ∧ P.length = parts.length ∧
    ∀ (i : Nat) (c : List α) (a p : ℝ), parts[i]? = some c → A[i]? = some a → P[i]? = some p →
      |a - withinAdj G c| ≤ δ * total G ∧ |p - withinNull G c| ≤ δ * total G ∧ 0 ≤ p

/-- twice the largest error of the modularity at `γ` that errors `δ` in the coefficients can cause -/
noncomputable def slack (δ : ℝ) (G : Graph ℝ) (γ : ℝ) : ℝ := 2 * (δ * (1 + |γ|) * total G)

/-- `A`, `P` and `C` are the multilayer coefficients of the partitions up to errors of `δ` times the total of the adjacency
matrix concerned; no `P` or `C` is negative. -/
def CloseCoefs3D {α : Type} [DecidableEq α] (δ : ℝ) (Gi Gx : Graph ℝ) (layer : List Nat) (parts : List (List α))
    (A P C : List ℝ) : Prop :=
  A.length = parts.length ∧ P.length = parts.length ∧ C.length = parts.length ∧
    ∀ (i : Nat) (c : List α) (a p x : ℝ), parts[i]? = some c → A[i]? = some a → P[i]? = some p → C[i]? = some x →
      |a - withinAdj Gi c| ≤ δ * total Gi ∧ |p - withinNullLayered Gi layer c| ≤ δ * total Gi ∧ 0 ≤ p ∧
      |x - withinAdj Gx c| ≤ δ * total Gx ∧ 0 ≤ x

/-- twice the largest error of the multilayer modularity at `(γ, ω)` that errors `δ` in the coefficients can cause -/
noncomputable def slack3D (δ : ℝ) (Gi Gx : Graph ℝ) (γ ω : ℝ) : ℝ := 2 * (δ * ((1 + |γ|) * total Gi + |ω| * total Gx))

/-- The margin within which rounding can matter at resolution `γ`: relative errors `u` of the coefficients and `v` of the estimate, as a
fraction of the total of the adjacency matrix. -/
noncomputable def margin (u v γ : ℝ) : ℝ := 2 * u * (1 + (1 + v) * |γ|) + v * |γ|

/-- The margin within which rounding can matter at `(γ, ω)`, `ω` being an estimate that is cut off at `top`: relative errors `u` of the
coefficients and `v` of the estimates. -/
noncomputable def margin3D (u v : ℝ) (Gi Gx : Graph ℝ) (γ ω top : ℝ) : ℝ :=
  2 * u * ((1 + (1 + v) * |γ|) * total Gi + (|min ω top| + v * |ω|) * total Gx) + v * (|γ| * total Gi + |ω| * total Gx)

end Verif.Spec
