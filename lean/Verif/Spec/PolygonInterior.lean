import Verif.Spec.Polygon

namespace Verif.Spec

/-- As `Clockwise`, with all other vertices strictly on the left of every edge. -/
def CounterClockwise (l : List (ℝ × ℝ)) : Prop :=
  ∀ i j (hi : i < l.length) (hj : j < l.length), j = (i + 1) % l.length →
    ∀ r ∈ l, r ≠ l[i] → r ≠ l[j] → 0 < orient l[i] l[j] r

/-- A strictly convex polygon given by at least three different vertices in boundary order (either direction). -/
def ConvexPolygon (l : List (ℝ × ℝ)) : Prop := 3 ≤ l.length ∧ l.Nodup ∧ (Clockwise l ∨ CounterClockwise l)

end Verif.Spec
