import Mathlib.Logic.Equiv.Defs
import Mathlib.Data.List.Forall2
import Verif.Model.Graph

/-!
# Renumbering the vertices of a graph (specification)
-/

namespace Verif.Spec
open Verif
variable {F : Type _}

/-- The edges of a graph with their weights, if it has any. -/
def edgeData (G : Graph F) : List ((Nat × Nat) × Option F) :=
  match G.weight with
  | none => G.edges.map fun e => (e, none)
  | some ws => (G.edges.zip ws).map fun e => (e.1, some e.2)

/-- The edge list `es'` is `es` with every end `v` renamed `σ v`, listed in any order and, in an undirected graph, with the
two ends of an edge written in either order. -/
def RenumberedEdges {W : Type _} (σ : Equiv.Perm Nat) (directed : Bool) (es es' : List ((Nat × Nat) × W)) : Prop :=
  ∃ l, es'.Perm l ∧ List.Forall₂ (fun e e' => e'.2 = e.2 ∧
    (e'.1 = (σ e.1.1, σ e.1.2) ∨ directed = false ∧ e'.1 = (σ e.1.2, σ e.1.1))) es l

/-- `G'` is `G` with vertex `v` renumbered `σ v`; edges keep their weights and may be listed in another order. -/
structure Renumbered (σ : Equiv.Perm Nat) (G G' : Graph F) : Prop where
  vertices : ∀ v, σ v < G.vcount ↔ v < G.vcount
  vcount : G'.vcount = G.vcount
  directed : G'.directed = G.directed
  weighted : G'.weight.isSome = G.weight.isSome
  edges : RenumberedEdges σ G.directed (edgeData G) (edgeData G')

/-- `p'` gives vertex `σ v` what `p` gives vertex `v`. -/
def Moved {α : Type _} (σ : Equiv.Perm Nat) (p p' : List α) : Prop :=
  p'.length = p.length ∧ ∀ v, p'[σ v]? = p[v]?

/-- The collection `parts'` consists of the renumbered members of `parts`, in any order and multiplicity. -/
def MovedParts {α : Type} (σ : Equiv.Perm Nat) (parts parts' : List (List α)) : Prop :=
  (∀ p ∈ parts, ∃ p' ∈ parts', Moved σ p p') ∧ ∀ p' ∈ parts', ∃ p ∈ parts, Moved σ p p'

end Verif.Spec
