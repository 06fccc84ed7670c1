import Verif.Model.Lazega
import Verif.Spec.Modularity

/-!
# The Lazega law firm network: vocabulary
-/

namespace Verif.Spec
open Verif Finset

/-- How many of the `N` vertices are in the same community in layers `s` and `t`. -/
def agreeing (N : Nat) (c : List Nat) (s t : Nat) : Nat := #{i ∈ range N | c[N * s + i]? = c[N * t + i]?}

/-- The persistence of a multiplex network in which every vertex is coupled to its copies in all other layers: the share of the
ordered pairs of different layers, over all vertices, with equal communities. -/
noncomputable def categorical (N T : Nat) (c : List Nat) : ℝ :=
  (∑ s ∈ range T, ∑ t ∈ range T, if s = t then 0 else (agreeing N c s t : ℝ)) / (N * T * (T - 1))

/-- The entry in row `i` and column `j` of the matrix of layer `t` is 1. -/
def Marked (mats : List (List (List Int))) (t i j : Nat) : Prop :=
  ∃ adj row, mats[t]? = some adj ∧ adj[i]? = some row ∧ row[j]? = some 1

end Verif.Spec
