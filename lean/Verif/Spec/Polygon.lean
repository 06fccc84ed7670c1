import Mathlib.Data.Real.Basic

/-!
# Polygons given by a vertex list
-/

namespace Verif.Spec

/-- twice the signed area of the triangle `p q r`: negative iff `r` is strictly to the right of the line `p → q` -/
def orient (p q r : ℝ × ℝ) : ℝ := (q.1 - p.1) * (r.2 - p.2) - (q.2 - p.2) * (r.1 - p.1)

/-- The vertices are in clockwise boundary order of a strictly convex polygon: of every edge (also the closing one), all
other vertices lie strictly on the right. -/
def Clockwise (l : List (ℝ × ℝ)) : Prop :=
  ∀ i j (hi : i < l.length) (hj : j < l.length), j = (i + 1) % l.length →
    ∀ r ∈ l, r ≠ l[i] → r ≠ l[j] → orient l[i] l[j] r < 0

end Verif.Spec
