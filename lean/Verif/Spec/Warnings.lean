import Verif.Model.Warnings

/-!
# Vocabulary for the warnings of the pruning pipelines
-/

namespace Verif.Spec
open Verif

/-- The edge does not lead out of the set (in either direction, for undirected graphs). -/
def StaysIn (directed : Bool) (S : Set Nat) (e : Nat × Nat) : Prop :=
  (e.1 ∈ S → e.2 ∈ S) ∧ (directed = false → e.2 ∈ S → e.1 ∈ S)

/-- The `n` vertices fall into two non-empty sets such that no edge leads from the first to the second. -/
def Splits (n : Nat) (directed : Bool) (edges : List (Nat × Nat)) : Prop :=
  ∃ S : Set Nat, (∃ u < n, u ∈ S) ∧ (∃ v < n, v ∉ S) ∧ ∀ e ∈ edges, StaysIn directed S e

/-- Some edge weight is given and differs from 1. -/
def HasUnusualWeight (G : Graph ℝ) : Prop := ∃ ws, G.weight = some ws ∧ ∃ w ∈ ws, w ≠ 1

end Verif.Spec
