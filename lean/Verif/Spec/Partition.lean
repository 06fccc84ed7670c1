/-!
# Specification vocabulary for partitions

Independent of the model: a membership list assigns a label to each position.
-/

namespace Verif.Spec

/-- Two membership lists describe the same partition of the positions: equal lengths, and two positions carry equal
labels in one iff they carry equal labels in the other. -/
def SamePartition {α β : Type _} (s : List α) (t : List β) : Prop :=
  s.length = t.length ∧
    ∀ i j : Nat, i < s.length → j < s.length → (s[i]? = s[j]? ↔ t[i]? = t[j]?)

/-- Labels are natural numbers used in order of first appearance: whenever label `t[i]` is used, every smaller label
has already been used earlier. -/
def FirstAppearanceOrder (t : List Nat) : Prop :=
  ∀ i x : Nat, t[i]? = some x → ∀ k < x, ∃ j < i, t[j]? = some k

end Verif.Spec
