import Verif.Model.Synthetic
import Verif.Spec.SBM

/-!
# Synthetic multilayer networks: vocabulary
-/

namespace Verif.Spec
open Verif

/-- Python's random numbers: `random()` is in `[0, 1)`, `randint(0, K - 1)` is one of `0, …, K - 1`. -/
structure RandomDraws (d : Draws) (K : Nat) : Prop where
  copy : ∀ l v, 0 ≤ d.copy l v ∧ d.copy l v < 1
  label : ∀ l v, d.label l v < K
  edge : ∀ v u, 0 ≤ d.edge v u ∧ d.edge v u < 1

/-- Vertex `v` of layer `l` has the label `k` in a vector of labels of a network with `n` vertices per layer. -/
def LabelAt (n : Nat) (comm : List Nat) (l v k : Nat) : Prop := comm[n * l + v]? = some k

/-- The intralayer edges of an attempt of the benchmark: mean degree about 32 in the script's network of 150 vertices per layer
and 2 communities, `p_out = ε p_in`. -/
noncomputable def benchmarkEdges (n T K : Nat) (eta ε : ℝ) (d : Draws) : List (Nat × Nat) :=
  blockEdges (layerVector n T) (labelVector d eta (balancedLabels n K) T) (32 / (1 + ε) / 75) (ε * (32 / (1 + ε) / 75)) d.edge

end Verif.Spec
