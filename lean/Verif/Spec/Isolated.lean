import Verif.Spec.Modularity

/-! # Vertices without edges -/

namespace Verif.Spec
open Verif

/-- vertex `v` is an end of some edge of `G` -/
def HasEdge {F : Type} (G : Graph F) (v : Nat) : Prop := ∃ e ∈ G.edges, e.1 = v ∨ e.2 = v

/-- `p` and `q` group the vertices that satisfy `S` in the same way (the labels may differ) -/
def AgreeOn {α β : Type} (S : Nat → Prop) (p : List α) (q : List β) : Prop :=
  ∀ i j, S i → S j → (p[i]? = p[j]? ↔ q[i]? = q[j]?)

/-- `G` with `k` more vertices, without edges -/
def withIsolated {F : Type} (G : Graph F) (k : Nat) : Graph F := { G with vcount := G.vcount + k }

/-- every edge of `G` stays inside a community of `p` -/
def NoEdgeBetween {F α : Type} (G : Graph F) (p : List α) : Prop := ∀ e ∈ G.edges, p[e.1]? = p[e.2]?

/-- apart from isolated vertices, `G` is connected (directions ignored) -/
def ConnectedUpToIsolated {F : Type} (G : Graph F) : Prop :=
  ∀ u v, HasEdge G u → HasEdge G v → Relation.ReflTransGen (fun a b => (a, b) ∈ G.edges ∨ (b, a) ∈ G.edges) u v

end Verif.Spec
