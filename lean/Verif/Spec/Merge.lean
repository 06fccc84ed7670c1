import Verif.Spec.Modularity
import Verif.Spec.Tradeoff

/-! # Merging two communities -/

namespace Verif.Spec
open Verif Finset

variable {F : Type _} [Field F] {α : Type _} [DecidableEq α]

/-- `d` is the partition `c` with its communities `a` and `b` joined (whatever the labels of `d`). -/
def MergedFrom (d c : List α) (a b : α) : Prop :=
  a ≠ b ∧ d.length = c.length ∧ ∀ i j, i < c.length → j < c.length →
    (d[i]? = d[j]? ↔ c[i]? = c[j]? ∨ (c[i]? = some a ∧ c[j]? = some b) ∨ (c[i]? = some b ∧ c[j]? = some a))

/-- The number of edges with one end in community `a` and the other in community `b`. -/
def edgesBetween (G : Graph F) (c : List α) (a b : α) : Nat :=
  (G.edges.filter fun e => decide ((c[e.1]? = some a ∧ c[e.2]? = some b) ∨ (c[e.1]? = some b ∧ c[e.2]? = some a))).length

/-- The sum of the out-degrees (degrees, if undirected) of the vertices in community `a`. -/
def outDegreeOf (G : Graph F) (c : List α) (a : α) : Nat := ∑ i ∈ range G.vcount, if c[i]? = some a then rowSum G i else 0

/-- The sum of the in-degrees (degrees, if undirected) of the vertices in community `a`. -/
def inDegreeOf (G : Graph F) (c : List α) (a : α) : Nat := ∑ i ∈ range G.vcount, if c[i]? = some a then colSum G i else 0

/-- The number of edges expected between communities `a` and `b` under the null model, in both directions. -/
def expectedBetween (G : Graph F) (c : List α) (a b : α) : F :=
  ((inDegreeOf G c a : F) * outDegreeOf G c b + (inDegreeOf G c b : F) * outDegreeOf G c a) / total G

/-- The same with the null model of each layer separately. -/
def expectedBetweenLayered (G : Graph F) (layer : List Nat) (c : List α) (a b : α) : F :=
  ∑ i ∈ range G.vcount, ∑ j ∈ range G.vcount,
    if ((c[i]? = some a ∧ c[j]? = some b) ∨ (c[i]? = some b ∧ c[j]? = some a)) ∧ layer[i]? = layer[j]? then
      (colSum G i : F) * (rowSum G j : F) / (layerTotal G layer (layer[i]?.getD 0) : F) else 0

end Verif.Spec
