import Verif.Spec.Modularity
import Verif.Model.ChampExample

/-!
# What figure 3.1 should show
-/

namespace Verif.Spec
open Verif

/-- louvain's quality of a membership of the graph at a resolution is its modularity. -/
def ModularityQuality (G : Graph ℝ) (q : List Nat → ℝ → ℝ) : Prop :=
  ∀ c γ, c.length = G.vcount → q c γ = modularity G γ c

/-- `c` is strictly better at `γ` than every other of the memberships. -/
def StrictlyBestAt (G : Graph ℝ) (cs : List (List Nat)) (γ : ℝ) (c : List Nat) : Prop :=
  c ∈ cs ∧ ∀ c' ∈ cs, c' ≠ c → modularity G γ c' < modularity G γ c

/-- `y` is the largest modularity, divided by `2m`, that any of the memberships reaches at `γ`. -/
def OnEnvelope (G : Graph ℝ) (cs : List (List Nat)) (γ y : ℝ) : Prop :=
  (∃ c ∈ cs, y = modularity G γ c / (2 * G.ecount)) ∧ ∀ c ∈ cs, modularity G γ c / (2 * G.ecount) ≤ y

/-- `(x, y)` is on the straight line drawn between two points. -/
def OnSegment (s : List ℝ × List ℝ) (x y : ℝ) : Prop :=
  ∃ x₀ x₁ y₀ y₁ t : ℝ, s = ([x₀, x₁], [y₀, y₁]) ∧ 0 ≤ t ∧ t ≤ 1 ∧ x = x₀ + t * (x₁ - x₀) ∧ y = y₀ + t * (y₁ - y₀)

end Verif.Spec
