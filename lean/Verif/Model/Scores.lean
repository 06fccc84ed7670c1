import Mathlib.Analysis.SpecialFunctions.Log.Basic
import Mathlib.Analysis.Real.Sqrt
import Verif.Model.Graph

/-!
# `ami` and `nmi` (`utilities/partition_utilities.py:6-11`)

The two functions call scikit-learn.  `normalized_mutual_info_score` is transcribed from scikit-learn
(`sklearn/metrics/cluster/_supervised.py`) with exact numbers; `adjusted_mutual_info_score` is a parameter.
-/

namespace Verif
open Real
variable {α β : Type} [DecidableEq α] [DecidableEq β]

/-- scikit-learn's `entropy(labels)`: 1 for no labels, 0 for one cluster, otherwise
`-∑ (pi / n) * (log pi - log n)` over the cluster sizes (called by `nmi`, `/repo/utilities/partition_utilities.py:11`). -/
noncomputable def skEntropy (p : List α) : ℝ :=
  if p = [] then 1
  else if p.dedup.length = 1 then 0
  else -(p.dedup.map fun x => ((p.count x : ℝ) / p.length) * (log (p.count x) - log p.length)).sum

/-- scikit-learn's `mutual_info_score`: sum over the nonzero cells of the contingency table, 0 if one side has a single
cluster, clipped below at 0 (called by `nmi`, `/repo/utilities/partition_utilities.py:11`).  The rounding of tiny terms to
0 is not modelled. -/
noncomputable def skMutualInfo (p : List α) (q : List β) : ℝ :=
  if p.dedup.length = 1 ∨ q.dedup.length = 1 then 0
  else max 0 (((p.zip q).dedup.map fun xy =>
    ((p.zip q).count xy : ℝ) / p.length * (log ((p.zip q).count xy) - log p.length) +
    ((p.zip q).count xy : ℝ) / p.length *
      (-log ((p.count xy.1 : ℝ) * q.count xy.2) + log p.length + log q.length)).sum)

/-- scikit-learn's `_generalized_average` (called by `nmi`, `/repo/utilities/partition_utilities.py:11`). -/
noncomputable def skAverage (u v : ℝ) (method : String) : Py ℝ :=
  if method = "min" then .ok (min u v)
  else if method = "geometric" then .ok (sqrt (u * v))
  else if method = "arithmetic" then .ok ((u + v) / 2)
  else if method = "max" then .ok (max u v)
  else .error (.valueError "'average_method' must be 'min', 'geometric', 'arithmetic', or 'max'")

/-- scikit-learn's `normalized_mutual_info_score(p, q, average_method=method)`
(called at `/repo/utilities/partition_utilities.py:11`). -/
noncomputable def skNormalizedMutualInfo (p : List α) (q : List β) (method : String) : Py (Fl ℝ) :=
  if p.length ≠ q.length then .error (.valueError "Found input variables with inconsistent numbers of samples")
  else if (p.dedup.length = 1 ∧ q.dedup.length = 1) ∨ (p.dedup.length = 0 ∧ q.dedup.length = 0) then .ok (.fin 1)
  else if skMutualInfo p q = 0 then .ok (.fin 0)
  else do
    let normalizer ← skAverage (skEntropy p) (skEntropy q) method
    return npDiv (skMutualInfo p q) normalizer

/-- `nmi` (`/repo/utilities/partition_utilities.py:10-11`). -/
noncomputable def nmi (p : List α) (q : List β) : Py (Fl ℝ) := skNormalizedMutualInfo p q "arithmetic"

/-- `ami` (`/repo/utilities/partition_utilities.py:6-7`): scikit-learn's `adjusted_mutual_info_score` with its default
average, a parameter. -/
def ami (adjusted : List α → List β → Py (Fl ℝ)) (p : List α) (q : List β) : Py (Fl ℝ) := adjusted p q

end Verif
