import Verif.Spec.Multilayer
import Verif.Spec.SBM
import Verif.Spec.Prune

/-!
# Vocabulary for explicit estimates on unweighted temporal networks
-/

namespace Verif.Spec
open Verif

/-- An undirected intralayer graph with an edge in each of its `T ≥ 2` layers, `N ≥ 1` vertices per layer on average
(rounded down), and directed coupling edges. -/
structure TemporalNetwork (Gi Gx : Graph ℝ) (layer : List Nat) (T N : Nat) : Prop extends Multilayer Gi Gx layer where
  undirected : Gi.directed = false
  ordered : Gx.directed = true
  layersBelow : Contiguous layer T
  twoLayers : 2 ≤ T
  perLayer : Gi.vcount / T = N
  nonempty : 0 < N
  edgeInLayer : ∀ t < T, ∃ e ∈ Gi.edges, layer[e.1]? = some t

/-- The copying probability of a partition with `K` communities of which `C` coupling edges stay inside a community, out of
`N (T - 1)`: chance agreement `1/K` is mapped to 0, full agreement to 1. -/
noncomputable def copying (K : Nat) (C N T : ℝ) : ℝ :=
  if C < N * (T - 1) ∧ 1 < K then max ((K * (C / (N * (T - 1))) - 1) / (K - 1)) 0 else 1

/-- `(θ_in, θ_out)` for `A` = twice the number of inner edges, `P` its expectation, `W` = twice the number of edges. -/
noncomputable def affinities (A P W : ℝ) : ℝ × ℝ := (A / P, if W = P then 0 else (W - A) / (W - P))

end Verif.Spec
