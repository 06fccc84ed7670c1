import Mathlib.Algebra.BigOperators.Group.Finset.Basic
import Mathlib.Algebra.Order.Field.Basic
import Verif.Model.Graph

/-!
# Specification vocabulary for the SBM estimates

Weighted edges are `((source, target), weight)`; a membership `c` gives vertex `v` the community `c[v]?`.
-/

namespace Verif.Spec
open Finset
variable {F : Type _} [Field F]

/-- Total edge weight `m`. -/
def wTotal (es : List ((Nat × Nat) × F)) : F := (es.map fun e => e.2).sum

/-- Weight of the edges inside communities `m_in`. -/
def wInside (es : List ((Nat × Nat) × F)) (c : List Nat) : F :=
  (es.map fun e => if c[e.1.1]? = c[e.1.2]? then e.2 else 0).sum

/-- Strength of community `r`: every edge counts once per end in the community. -/
def wStrength (es : List ((Nat × Nat) × F)) (c : List Nat) (r : Nat) : F :=
  (es.map fun e => (if c[e.1.1]? = some r then e.2 else 0) + (if c[e.1.2]? = some r then e.2 else 0)).sum

/-- The edges whose source is in layer `t`. -/
def layerOf (es : List ((Nat × Nat) × F)) (layer : List Nat) (t : Nat) : List ((Nat × Nat) × F) :=
  es.filter fun e => decide (layer[e.1.1]? = some t)

/-- All labels used by `c` are below `K`, and all labels below `K` are used: "labels `0, …, K-1`". -/
def Contiguous (c : List Nat) (K : Nat) : Prop := ∀ k : Nat, k ∈ c ↔ k < K

/-- The graph is unweighted: every edge has weight 1. -/
def UnitWeights (G : Graph F) : Prop := G.weight = some (List.replicate G.edges.length 1)

end Verif.Spec
