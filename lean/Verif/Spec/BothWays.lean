import Verif.Model.Graph

/-!
# The directed version of an undirected graph (specification)

igraph's `Graph.to_directed()`, as used by the tests of the project: every edge becomes two arcs, one in each direction,
with the attributes of the edge.  igraph lists the arcs along the edges first, the opposite ones after them.
-/

namespace Verif.Spec
open Verif
variable {F : Type _}

/-- `G.to_directed()` for an undirected graph. -/
def bothWays (G : Graph F) : Graph F :=
  ⟨G.vcount, true, G.edges ++ G.edges.map Prod.swap, G.weight.map fun ws => ws ++ ws⟩

/-- igraph's answer to `'weight' in G.es` is the same for a graph and its directed version. -/
def SameAnswer (test : Graph F → Bool) (G : Graph F) : Prop := test (bothWays G) = test G

end Verif.Spec
