import Verif.Spec.Partition

/-! # Nested partitions -/

namespace Verif.Spec

/-- Every community of `c` lies in a community of `d`. -/
def Finer {α β : Type _} (c : List α) (d : List β) : Prop :=
  c.length = d.length ∧ ∀ i j : Nat, i < c.length → j < c.length → c[i]? = c[j]? → d[i]? = d[j]?

/-- The labels are the integers `0, …, K-1` for some `K`, all used. -/
def ContiguousLabels (c : List Int) : Prop := ∃ K : Nat, ∀ x : Int, x ∈ c ↔ 0 ≤ x ∧ x < K

end Verif.Spec
