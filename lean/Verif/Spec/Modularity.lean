import Mathlib.Algebra.BigOperators.Group.Finset.Basic
import Mathlib.Algebra.Order.Field.Basic
import Verif.Model.Graph

/-!
# Specification of modularity

Matrix definitions, independent of how the code computes its coefficients: sums over *all ordered pairs of vertices*.
A membership `c : List α` gives vertex `i` the community `c[i]?`.
-/

namespace Verif.Spec
open Verif Finset

variable {F : Type _} [Field F] {α : Type _} [DecidableEq α]

/-- Adjacency matrix of a multigraph: directed `A_ij` counts edges `i → j`; undirected `A_ij` counts edges between `i`
and `j`, self-loops twice. -/
def adj (G : Graph F) (i j : Nat) : Nat :=
  if G.directed then G.edges.count (i, j) else G.edges.count (i, j) + G.edges.count (j, i)

/-- Row sum `k_i^out` (equal to the degree when undirected). -/
def rowSum (G : Graph F) (i : Nat) : Nat := ∑ j ∈ range G.vcount, adj G i j

/-- Column sum `k_j^in` (equal to the degree when undirected). -/
def colSum (G : Graph F) (j : Nat) : Nat := ∑ i ∈ range G.vcount, adj G i j

/-- Total of the adjacency matrix: `m` if directed, `2m` if undirected. -/
def total (G : Graph F) : Nat := ∑ i ∈ range G.vcount, ∑ j ∈ range G.vcount, adj G i j

/-- `∑_ij A_ij δ(c_i, c_j)` -/
def withinAdj (G : Graph F) (c : List α) : F :=
  ∑ i ∈ range G.vcount, ∑ j ∈ range G.vcount, if c[i]? = c[j]? then (adj G i j : F) else 0

/-- `∑_ij k_i^in k_j^out / (total) δ(c_i, c_j)`: the configuration/Leicht–Newman null model. -/
def withinNull (G : Graph F) (c : List α) : F :=
  ∑ i ∈ range G.vcount, ∑ j ∈ range G.vcount,
    if c[i]? = c[j]? then (colSum G i : F) * (rowSum G j : F) / (total G : F) else 0

/-- Modularity (not normalised) at resolution `γ`: `∑_ij (A_ij - γ P_ij) δ(c_i, c_j)`. -/
def modularity (G : Graph F) (γ : F) (c : List α) : F :=
  ∑ i ∈ range G.vcount, ∑ j ∈ range G.vcount,
    if c[i]? = c[j]? then (adj G i j : F) - γ * ((colSum G i : F) * (rowSum G j : F) / (total G : F)) else 0

/-- Total of the adjacency entries in rows of layer `t`. -/
def layerTotal (G : Graph F) (layer : List Nat) (t : Nat) : Nat :=
  ∑ i ∈ range G.vcount, ∑ j ∈ range G.vcount,
    if layer[i]? = some t then adj G i j else 0

/-- Per-layer null model: pairs in the same community *and* the same layer `t`, weighted by `1 / m_t` where
`m_t = ∑ of the adjacency rows of layer t`. -/
def withinNullLayered (G : Graph F) (layer : List Nat) (c : List α) : F :=
  ∑ i ∈ range G.vcount, ∑ j ∈ range G.vcount,
    if c[i]? = c[j]? ∧ layer[i]? = layer[j]? then
      (colSum G i : F) * (rowSum G j : F) / (layerTotal G layer (layer[i]?.getD 0) : F) else 0

/-- Multilayer modularity at `(γ, ω)`. -/
def multilayerModularity (Gintra Ginter : Graph F) (layer : List Nat) (γ ω : F) (c : List α) : F :=
  withinAdj Gintra c - γ * withinNullLayered Gintra layer c + ω * withinAdj Ginter c

end Verif.Spec
