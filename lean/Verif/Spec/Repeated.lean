import Verif.Spec.Modularity

/-!
# Weighted modularity, and weights as repeated edges (specification)
-/

namespace Verif.Spec
open Verif Finset
variable {F : Type _} [Field F] {α : Type _} [DecidableEq α]

/-- The total weight of the edges listed as `(i, j)`. -/
def weightAlong (G : Graph F) (i j : Nat) : F :=
  ((G.edges.zip (G.weight.getD [])).map fun e => if e.1 = (i, j) then e.2 else 0).sum

/-- Weighted adjacency matrix: directed, the weight of the edges `i → j`; undirected, the weight of the edges between `i` and
`j`, loops twice. -/
def weightedAdj (G : Graph F) (i j : Nat) : F :=
  if G.directed then weightAlong G i j else weightAlong G i j + weightAlong G j i

/-- Weighted modularity (not normalised) at resolution `γ`: `∑_ij (A_ij - γ k_i^in k_j^out / ∑ A) δ(c_i, c_j)` with the
weighted adjacency matrix and its column and row sums. -/
def weightedModularity (G : Graph F) (γ : F) (c : List α) : F :=
  ∑ i ∈ range G.vcount, ∑ j ∈ range G.vcount,
    if c[i]? = c[j]? then
      weightedAdj G i j - γ * ((∑ v ∈ range G.vcount, weightedAdj G v i) * (∑ v ∈ range G.vcount, weightedAdj G j v) /
        ∑ u ∈ range G.vcount, ∑ v ∈ range G.vcount, weightedAdj G u v)
    else 0

/-- Weighted multilayer modularity: the null model of a layer uses the total weight of its rows; the coupling counts edges. -/
def weightedMultilayerModularity (Gi Gx : Graph F) (layer : List Nat) (γ ω : F) (c : List α) : F :=
  (∑ i ∈ range Gi.vcount, ∑ j ∈ range Gi.vcount, if c[i]? = c[j]? then weightedAdj Gi i j else 0) -
    γ * (∑ i ∈ range Gi.vcount, ∑ j ∈ range Gi.vcount,
      if c[i]? = c[j]? ∧ layer[i]? = layer[j]? then
        (∑ v ∈ range Gi.vcount, weightedAdj Gi v i) * (∑ v ∈ range Gi.vcount, weightedAdj Gi j v) /
          ∑ u ∈ range Gi.vcount, ∑ v ∈ range Gi.vcount, if layer[u]? = layer[i]? then weightedAdj Gi u v else 0
      else 0) + ω * withinAdj Gx c

/-- The graph with the given whole numbers as weights. -/
def wholeWeights (G : Graph F) (ks : List Nat) : Graph F := { G with weight := some (ks.map fun (k : Nat) => (k : F)) }

/-- The graph without weights in which every edge is repeated as often as its number says. -/
def repeated (G : Graph F) (ks : List Nat) : Graph F :=
  ⟨G.vcount, G.directed, (G.edges.zip ks).flatMap fun e => List.replicate e.2 e.1, none⟩

end Verif.Spec
