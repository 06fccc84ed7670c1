import Verif.Model.Graph

/-! # Edges within communities -/

namespace Verif.Spec
open Verif

/-- The number of edges of `G` (with multiplicity, loops once) whose two ends are in the same community of `c`. -/
def edgesWithin {F α : Type _} [DecidableEq α] (G : Graph F) (c : List α) : Nat :=
  (G.edges.filter fun e => decide (c[e.1]? = c[e.2]?)).length

end Verif.Spec
