import Mathlib.Analysis.SpecialFunctions.Log.Basic

/-!
# The parameters the convergence tests aim at
-/

namespace Verif.Spec
open Real

/-- The gamma of a planted partition with connection probabilities `pIn`, `pOut` in `T` layers with together `N` vertices and `m`
edges: the logarithmic mean of the probabilities, relative to `2 m T / N²`. -/
noncomputable def plantedGamma (pIn pOut : ℝ) (N m T : ℕ) : ℝ :=
  (pIn - pOut) / log (pIn / pOut) * (N ^ 2 / (2 * m * T))

/-- The omega of a planted partition with copying probability `c` and `K` communities; `s` is 2 for temporal networks and the
number of layers for multiplex ones.  The network does not matter. -/
noncomputable def plantedOmega (s c : ℝ) (K : ℕ) (pIn pOut : ℝ) : ℝ := log (1 + c * K / (1 - c)) / (s * log (pIn / pOut))

end Verif.Spec
