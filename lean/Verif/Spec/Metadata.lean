import Verif.Spec.Scores
import Verif.Spec.DataFiles

/-!
# Specification of the comparison with attributes
-/

namespace Verif.Spec

/-- Everything has the same label. -/
def AllSame {α : Type} (p : List α) : Prop := ∀ x ∈ p, ∀ y ∈ p, x = y

/-- `r` is the normalised mutual information of two labellings of the same things: 1 if both have one label only, otherwise the mutual
information divided by the mean entropy. -/
def IsNMI {α β : Type} [DecidableEq α] [DecidableEq β] (p : List α) (q : List β) (r : ℝ) : Prop :=
  p.length = q.length ∧ ((AllSame p ∧ AllSame q ∧ r = 1) ∨
    (¬ (AllSame p ∧ AllSame q) ∧ r = mutualInformation p q / ((entropy p + entropy q) / 2)))

/-- The attribute of the nodes of a multiplex network with 3 layers of `N` persons each: node `v` stands for person `v mod N`. -/
def attributeOfNodes {α : Type} (N : Nat) (attr : Nat → α) : List α := (List.range (3 * N)).map fun v => attr (v % N)

end Verif.Spec
