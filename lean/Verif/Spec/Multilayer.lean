import Verif.Spec.Modularity

/-!
# Well-formed multilayer inputs
-/

namespace Verif.Spec
open Verif
variable {F : Type _} [Field F]

/-- Intralayer and interlayer graphs on the same vertices, one layer label per vertex, and (undirected case) no
intralayer edge between different layers. -/
structure Multilayer (Gi Gx : Graph F) (layer : List Nat) : Prop where
  intra : Gi.WF
  inter : Gx.WF
  vcount : Gx.vcount = Gi.vcount
  layers : layer.length = Gi.vcount
  noCross : Gi.directed = true ∨ ∀ e ∈ Gi.edges, layer[e.1]? = layer[e.2]?

end Verif.Spec
