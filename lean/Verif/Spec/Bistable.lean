import Verif.Spec.Likelihood
import Verif.Model.Bistable

/-!
# The expected network of a block model
-/

namespace Verif.Spec
open Verif Finset

/-- All unordered pairs of different vertices below `n`. -/
def allPairs (n : Nat) : List (Nat × Nat) := (List.range n).flatMap fun i => (List.range i).map fun j => (j, i)

/-- Entry of a matrix given by rows. -/
def entry (M : List (List ℝ)) (r s : Nat) : ℝ := (M.getD r []).getD s 0

/-- The expected network of the block model with preference matrix `pref` and `q` blocks of `B` consecutive vertices: a
complete graph, every pair of vertices weighted by the probability of the edge. -/
noncomputable def expectedNetwork (q : Nat) (pref : List (List ℝ)) (B : Nat) : Graph ℝ :=
  ⟨q * B, false, allPairs (q * B), some ((allPairs (q * B)).map fun e => entry pref (e.1 / B) (e.2 / B))⟩

/-- The `q` blocks as a membership: `i // B`. -/
def blocksOf (q B : Nat) : List Nat := (List.range (q * B)).map fun i => i / B

/-- Weighted modularity at resolution `γ`: `∑_ij (A_ij - γ k_i k_j / 2m) δ(c_i, c_j)`. -/
noncomputable def wModularity (n : Nat) (es : List ((Nat × Nat) × ℝ)) (c : List Nat) (γ : ℝ) : ℝ :=
  ∑ i ∈ range n, ∑ j ∈ range n, if c[i]? = c[j]? then
    wAdj es i j - γ * (wDegree n es i * wDegree n es j / wTwoM n es) else 0

/-- The weighted edges of a graph with weights. -/
def weightedEdgesOf (G : Graph ℝ) : List ((Nat × Nat) × ℝ) := G.edges.zip (G.weight.getD [])

end Verif.Spec
