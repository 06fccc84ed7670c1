import Verif.Spec.Partition
import Mathlib.Data.List.Dedup

/-!
# What the test of the documented multilayer example demands
-/

namespace Verif.Spec

/-- `k` is the most common of the labels, the smallest one if several are equally common. -/
def MostCommon (labels : List Nat) (k : Nat) : Prop :=
  (∀ j, labels.count j ≤ labels.count k) ∧ ∀ j < k, labels.count j < labels.count k

/-- The labels of the `i`-th block of `s` consecutive vertices. -/
def blockOf (s i : Nat) (c : List Nat) : List Nat := (c.drop (s * i)).take s

/-- The labels of the last `n` vertices. -/
def lastOf (n : Nat) (c : List Nat) : List Nat := c.drop (c.length - n)

/-- The demands on the stable partitions: in those with three communities, neighbouring blocks among the first three have
different most common communities; some partition has more than 90% of the last layer in one community, and in some partition
every community has less than half of it. -/
structure DocAccepted (s n : Nat) (stable : List (List Nat)) : Prop where
  blocks : ∀ c ∈ stable, c.dedup.length = 3 → ∀ k0 k1 k2, MostCommon (blockOf s 0 c) k0 → MostCommon (blockOf s 1 c) k1 →
    MostCommon (blockOf s 2 c) k2 → k0 ≠ k1 ∧ k1 ≠ k2
  unified : ∃ c ∈ stable, ∃ k, 9 * n < 10 * (lastOf n c).count k
  split : ∃ c ∈ stable, ∀ k, 2 * (lastOf n c).count k < n

end Verif.Spec
