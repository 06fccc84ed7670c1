import Verif.Spec.Modularity

/-! # Different graphs describing the same network -/

namespace Verif.Spec
open Verif

/-- `G` with all edges reversed -/
def reversed {F : Type} (G : Graph F) : Graph F := { G with edges := G.edges.map fun e => (e.2, e.1) }

/-- `G` with every edge repeated `k` times (and its weights dropped) -/
def copied {F : Type} (G : Graph F) (k : Nat) : Graph F :=
  { G with edges := (List.replicate k G.edges).flatten, weight := none }

/-- the directed graph with both directions of every edge of `G` -/
def bothDirections {F : Type} (G : Graph F) : Graph F :=
  { G with directed := true, edges := G.edges ++ G.edges.map fun e => (e.2, e.1), weight := none }

/-- In `G'` every pair of vertices has `k` times as many edges as in `G` (in the same direction, or all in the opposite one). -/
def SameNetwork {F : Type} (k : Nat) (G G' : Graph F) : Prop :=
  G'.vcount = G.vcount ∧ ((∀ i j, adj G' i j = k * adj G i j) ∨ ∀ i j, adj G' i j = k * adj G j i)

/-- `G` with directions forgotten (every directed edge becomes an undirected one) -/
def undirected {F : Type} (G : Graph F) : Graph F := { G with directed := false }

end Verif.Spec
