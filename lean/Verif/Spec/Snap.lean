import Verif.Model.Estimation

/-!
# What the maxima, means and columns of the SNAP figure are
-/

namespace Verif.Spec
open Verif Real

/-- The logarithmic means of the points `(x, y)`, `y > 0`, `x ≠ y`, of the `n × n` grid over `[1, K] × [0, K/(K-1)]` that lie
in the triangle `x + (K - 1) y ≤ K`, row by row. -/
noncomputable def gridEstimates (K n : Nat) : List ℝ :=
  (List.range n).flatMap fun (i : Nat) => (List.range n).filterMap fun (j : Nat) =>
    let x : ℝ := 1 + (K - 1) * i / (n - 1)
    let y : ℝ := K / (K - 1) * j / (n - 1)
    open Classical in
    if 0 < y ∧ x ≠ y ∧ x + (K - 1) * y ≤ K then some ((x - y) / (log x - log y)) else none

/-- The entry of the figure for a partition `p` of `G`: number of communities and gamma estimate, if the number is between
2 and 70 and the estimate is a real number. -/
noncomputable def boxplotEntry (test : Graph ℝ → Bool) (G : Graph ℝ) (p : List Nat) : Option (Nat × ℝ) :=
  match gammaEstimate test G p with
  | .ok (some (.fin g), _) => if 2 ≤ p.dedup.length ∧ p.dedup.length ≤ 70 then some (p.dedup.length, g) else none
  | _ => none

/-- The gamma estimate of `p` is NaN. -/
def NanEstimate (test : Graph ℝ → Bool) (G : Graph ℝ) (p : List Nat) : Prop :=
  ∃ G', gammaEstimate test G p = .ok (some .nan, G')

end Verif.Spec
