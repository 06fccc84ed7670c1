import Mathlib.Data.List.Nodup

/-!
# Calling a Python function with positional and keyword arguments
-/

namespace Verif.Spec

/-- A parameter: its name, and its default value if it has one. -/
structure Param (α : Type) where
  name : String
  default : Option α

/-- The call with the positional arguments `pos` and the keyword arguments `kws` of a function with the parameters `sig` is legal and
gives the parameters the values `vals`: at most one positional argument per parameter; every keyword is used once and names a parameter
that no positional argument filled; the value of a parameter is its positional argument, or the keyword argument of its name, or else
its default, which then must exist. -/
structure Binds {α : Type} (sig : List (Param α)) (pos : List α) (kws : List (String × α)) (vals : List α) : Prop where
  notTooMany : pos.length ≤ sig.length
  distinct : (kws.map Prod.fst).Nodup
  known : ∀ k ∈ kws.map Prod.fst, ∃ (i : Nat) (p : Param α), pos.length ≤ i ∧ sig[i]? = some p ∧ p.name = k
  length : vals.length = sig.length
  value : ∀ (i : Nat) (p : Param α), sig[i]? = some p →
    (i < pos.length ∧ vals[i]? = pos[i]?) ∨
    (pos.length ≤ i ∧ ∃ v, (p.name, v) ∈ kws ∧ vals[i]? = some v) ∨
    (pos.length ≤ i ∧ p.name ∉ kws.map Prod.fst ∧ ∃ d, p.default = some d ∧ vals[i]? = some d)

end Verif.Spec
