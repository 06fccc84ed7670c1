import Verif.Spec.GammaMax

/-!
# Sampling the largest expected gamma estimates (specification)
-/

namespace Verif.Spec
open Verif

/-- The estimates expected for `K` balanced communities at `n` evenly spaced ratios from `1e-9` to `1 - 1e-9`. -/
def sampledGammas (n K : Nat) : Set ℝ :=
  {g | ∃ i < n, expectedGamma K (1 / 10 ^ 9 + i * ((1 - 2 / 10 ^ 9) / ((n : ℝ) - 1))) = .ok g}

/-- A table of 20 values, of which entry `K = 2, …, 19` is the largest of the `n` samples for `K` communities (entries 0 and 1
are unused zeros). -/
def SampleTable (n : Nat) (table : List ℝ) : Prop :=
  table.length = 20 ∧ table[0]? = some 0 ∧ table[1]? = some 0 ∧
    ∀ (K : Nat), 2 ≤ K → K < 20 → ∃ v, table[K]? = some v ∧ IsGreatest (sampledGammas n K) v

/-- Two tables differ by less than `1e-6` in every entry. -/
def WithinTolerance (s t : List ℝ) : Prop := ∀ (i : Nat) a b, s[i]? = some a → t[i]? = some b → |a - b| < 1 / 10 ^ 6

/-- A point of the plane lies in the area filled between two polylines with common abscissas (`fill_between`). -/
def InFilled (area : List (ℝ × ℝ × ℝ)) (x y : ℝ) : Prop :=
  ∃ (i : Nat), ∃ p q, area[i]? = some p ∧ area[i + 1]? = some q ∧ ∃ t, 0 ≤ t ∧ t ≤ 1 ∧ x = p.1 + t * (q.1 - p.1) ∧
    min (p.2.1 + t * (q.2.1 - p.2.1)) (p.2.2 + t * (q.2.2 - p.2.2)) ≤ y ∧
    y ≤ max (p.2.1 + t * (q.2.1 - p.2.1)) (p.2.2 + t * (q.2.2 - p.2.2))

end Verif.Spec
