import Mathlib.Data.List.Infix

/-!
# Replacing in strings
-/

namespace Verif.Spec

/-- `pieces` joined with `sep` in between. -/
def joined (sep : List Char) : List (List Char) → List Char
  | [] => []
  | [p] => p
  | p :: q :: rest => p ++ sep ++ joined sep (q :: rest)

/-- `b` is `a` with every occurrence of `old` replaced by `new`: the parts of `a` between the occurrences of `old` do not
contain `old`, and `b` is made of the same parts with `new` in between. -/
def ReplacedAll (old new a b : List Char) : Prop :=
  ∃ pieces : List (List Char), pieces ≠ [] ∧ (∀ p ∈ pieces, ¬ old <:+: p) ∧ a = joined old pieces ∧ b = joined new pieces

end Verif.Spec
