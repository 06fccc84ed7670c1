import Mathlib.Analysis.SpecialFunctions.Log.Basic
import Verif.Spec.Modularity

/-!
# The degree-corrected planted-partition model (Newman, Phys. Rev. E 94, 052315)

The number (or weight) of edges between vertices `i` and `j` is Poisson with mean `k_i k_j / 2m` times `ω_in` when `i`, `j`
are in the same community and times `ω_out` otherwise.  Terms that depend neither on the partition nor on the two
parameters are left out.
-/

namespace Verif.Spec
open Verif Finset

variable {α : Type _} [DecidableEq α]

/-- Weighted adjacency matrix of an undirected multigraph given by weighted edges, self-loops counted twice. -/
def wAdj (es : List ((Nat × Nat) × ℝ)) (i j : Nat) : ℝ :=
  (es.map fun e => (if e.1 = (i, j) then e.2 else 0) + (if e.1 = (j, i) then e.2 else 0)).sum

/-- Strength of vertex `i` among `n` vertices. -/
def wDegree (n : Nat) (es : List ((Nat × Nat) × ℝ)) (i : Nat) : ℝ := ∑ j ∈ range n, wAdj es i j

/-- `2m` -/
def wTwoM (n : Nat) (es : List ((Nat × Nat) × ℝ)) : ℝ := ∑ i ∈ range n, ∑ j ∈ range n, wAdj es i j

/-- Log-likelihood `½ ∑_ij (A_ij log ω_ij - (k_i k_j / 2m) ω_ij)` of the communities `c` and the parameters
`(ω_in, ω_out) = (a, b)`. -/
noncomputable def logLikelihood (n : Nat) (es : List ((Nat × Nat) × ℝ)) (c : List α) (a b : ℝ) : ℝ :=
  1 / 2 * ∑ i ∈ range n, ∑ j ∈ range n,
    (wAdj es i j * Real.log (if c[i]? = c[j]? then a else b) -
      wDegree n es i * wDegree n es j / wTwoM n es * (if c[i]? = c[j]? then a else b))

/-- `(a, b)` are the maximum-likelihood parameters for the communities `c`: positive, and more likely than all other
positive parameters. -/
def MaximumLikelihood (n : Nat) (es : List ((Nat × Nat) × ℝ)) (c : List α) (a b : ℝ) : Prop :=
  0 < a ∧ 0 < b ∧ ∀ a' b' : ℝ, 0 < a' → 0 < b' → (a', b') ≠ (a, b) →
    logLikelihood n es c a' b' < logLikelihood n es c a b

/-- The weighted edges of an unweighted graph. -/
def unitEdges (G : Graph ℝ) : List ((Nat × Nat) × ℝ) := G.edges.map fun e => (e, 1)

/-! ### Temporal networks (Pamfil et al., SIAM J. Math. Data Sci. 1, 667)

Every layer is a planted-partition graph with its own degrees, all with the same `θ_in`, `θ_out`; along a coupling edge the
label is copied with probability `p` and drawn uniformly from the `K` labels otherwise. -/

/-- Log-likelihood of the intralayer edges: `½ ∑ (A_ij log θ_ij - (k_i k_j / 2m_t) θ_ij)` over the pairs in one layer. -/
noncomputable def layeredLogLikelihood (G : Graph ℝ) (layer : List Nat) (c : List α) (a b : ℝ) : ℝ :=
  1 / 2 * ∑ i ∈ range G.vcount, ∑ j ∈ range G.vcount,
    if layer[i]? = layer[j]? then
      (adj G i j : ℝ) * Real.log (if c[i]? = c[j]? then a else b) -
        (rowSum G i : ℝ) * (rowSum G j : ℝ) / (layerTotal G layer (layer[i]?.getD 0) : ℝ) * (if c[i]? = c[j]? then a else b)
    else 0

/-- Log-probability of the labels along the coupling edges: the target keeps the label of the source with probability
`p + (1 - p)/K` and has any given other label with probability `(1 - p)/K`. -/
noncomputable def couplingLogProbability (Gx : Graph ℝ) (c : List α) (K : Nat) (p : ℝ) : ℝ :=
  (Gx.edges.map fun e => if c[e.1]? = c[e.2]? then Real.log (p + (1 - p) / K) else Real.log ((1 - p) / K)).sum

/-- Log-posterior of the labels (up to a constant). -/
noncomputable def temporalLogPosterior (Gi Gx : Graph ℝ) (layer : List Nat) (c : List α) (K : Nat) (a b p : ℝ) : ℝ :=
  layeredLogLikelihood Gi layer c a b + couplingLogProbability Gx c K p

/-- `(a, b)` are the maximum-likelihood intralayer parameters for the labels `c`. -/
def LayeredMaximumLikelihood (G : Graph ℝ) (layer : List Nat) (c : List α) (a b : ℝ) : Prop :=
  0 < a ∧ 0 < b ∧ ∀ a' b' : ℝ, 0 < a' → 0 < b' → (a', b') ≠ (a, b) →
    layeredLogLikelihood G layer c a' b' < layeredLogLikelihood G layer c a b

/-- `p` is the maximum-likelihood copying probability below 1 for the labels `c`. -/
def CouplingMaximumLikelihood (Gx : Graph ℝ) (c : List α) (K : Nat) (p : ℝ) : Prop :=
  0 ≤ p ∧ p < 1 ∧ ∀ p' : ℝ, 0 ≤ p' → p' < 1 → p' ≠ p →
    couplingLogProbability Gx c K p' < couplingLogProbability Gx c K p

end Verif.Spec
