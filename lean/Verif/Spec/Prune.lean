import Verif.Spec.Env
import Verif.Model.Prune

/-!
# Specification vocabulary for the pruning pipelines
-/

namespace Verif.Spec
open Verif

/-- As `SoundEnv`; moreover iterating over a Python set visits every element once, in any order. -/
structure SoundPruneEnv (env : PruneEnv) : Prop extends SoundEnv env.toChampEnv where
  setNodup : ∀ l, (env.setOrder l).Nodup
  setMem : ∀ l x, x ∈ env.setOrder l ↔ x ∈ l

/-- `p` is one of the partitions that take part in pruning: an input with the requested number of communities
(distinct labels). -/
def Candidate {α : Type} [DecidableEq α] (parts : List (List α)) (restrict : Option Nat) (p : List α) : Prop :=
  p ∈ parts ∧ ∀ K, restrict = some K → p.dedup.length = K

/-- Same modularity at every resolution ("same coefficients"). -/
def SameModularity {α β : Type} [DecidableEq α] [DecidableEq β] (G : Graph ℝ) (p : List α) (q : List β) : Prop :=
  ∀ γ, modularity G γ p = modularity G γ q

/-- The gamma estimate of the partition `p` (written with canonical labels) is the real number `γ`. -/
def HasEstimate {α : Type} [LinearOrder α] (test : Graph ℝ → Bool) (G : Graph ℝ) (p : List α) (γ : ℝ) : Prop :=
  ∃ c G', sortedTuple p = .ok c ∧ gammaEstimate test G c = .ok (some (.fin γ), G')

/-- `p` is a stable partition among the competitors `cand` in the window `[γ₀, γf]`: somewhere inside the window it beats
every competitor of different modularity, and no competitor beats it at its own gamma estimate, which lies in the
window. -/
structure Stable {α β : Type} [LinearOrder α] [DecidableEq β] (test : Graph ℝ → Bool) (G : Graph ℝ)
    (cand : List β → Prop) (γ₀ γf : ℝ) (p : List α) : Prop where
  somewhereBest : ∃ g, γ₀ < g ∧ g < γf ∧ ∀ q, cand q → ¬ SameModularity G q p → modularity G g q < modularity G g p
  bestAtEstimate : ∃ γ, HasEstimate test G p γ ∧ γ₀ ≤ γ ∧ γ ≤ γf ∧ ∀ q, cand q → modularity G γ q ≤ modularity G γ p

/-- Same multilayer modularity for all parameters. -/
def SameMultilayer {α β : Type} [DecidableEq α] [DecidableEq β] (Gi Gx : Graph ℝ) (layer : List Nat) (p : List α)
    (q : List β) : Prop :=
  ∀ γ ω, multilayerModularity Gi Gx layer γ ω p = multilayerModularity Gi Gx layer γ ω q

/-- The gamma estimate of the partition `p` (written with canonical labels) is the real number `γ`, its omega estimate is
`ω`. -/
def HasEstimates {α : Type} [LinearOrder α] (test : Graph ℝ → Bool) (fsolve : (ℝ → ℝ) → ℝ → ℝ) (Gi Gx : Graph ℝ)
    (layer : List Nat) (model : String) (p : List α) (γ ω : ℝ) : Prop :=
  ∃ c G', sortedTuple p = .ok c ∧
    gammaOmegaEstimate test fsolve Gi Gx layer c defaultOmegaMax model = .ok ((some (.fin γ), ω), G')

/-- The gamma estimate of `p` is NaN. -/
def HasNanEstimate {α : Type} [LinearOrder α] (test : Graph ℝ → Bool) (fsolve : (ℝ → ℝ) → ℝ → ℝ) (Gi Gx : Graph ℝ)
    (layer : List Nat) (model : String) (p : List α) : Prop :=
  ∃ c ω G', sortedTuple p = .ok c ∧
    gammaOmegaEstimate test fsolve Gi Gx layer c defaultOmegaMax model = .ok ((some .nan, ω), G')

/-- A window of the `(γ, ω)` plane. -/
structure Window where
  γ₀ : ℝ
  γf : ℝ
  ω₀ : ℝ
  ωf : ℝ

/-- `(γ, ω)` is strictly inside the window and `p` is strictly better there than every competitor of different
modularity. -/
def BestInside {α β : Type} [DecidableEq α] [DecidableEq β] (Gi Gx : Graph ℝ) (layer : List Nat) (cand : List β → Prop)
    (W : Window) (p : List α) (γ ω : ℝ) : Prop :=
  ((W.γ₀ < γ ∧ γ < W.γf) ∧ W.ω₀ < ω ∧ ω < W.ωf) ∧
    ∀ q, cand q → ¬ SameMultilayer Gi Gx layer q p →
      multilayerModularity Gi Gx layer γ ω q < multilayerModularity Gi Gx layer γ ω p

/-- `p` is best inside the window at its own estimate, the omega estimate being cut off at `omega_end - 0.001`. -/
def StableMultilayer {α β : Type} [LinearOrder α] [DecidableEq β] (test : Graph ℝ → Bool) (fsolve : (ℝ → ℝ) → ℝ → ℝ)
    (Gi Gx : Graph ℝ) (layer : List Nat) (model : String) (cand : List β → Prop) (W : Window) (p : List α) : Prop :=
  ∃ γ ω, HasEstimates test fsolve Gi Gx layer model p γ ω ∧
    BestInside Gi Gx layer cand W p γ (min ω (W.ωf - 1 / 1000))

/-- `p` has a NaN gamma estimate and is best at some point inside the window. -/
def NanMultilayer {α β : Type} [LinearOrder α] [DecidableEq β] (test : Graph ℝ → Bool) (fsolve : (ℝ → ℝ) → ℝ → ℝ)
    (Gi Gx : Graph ℝ) (layer : List Nat) (model : String) (cand : List β → Prop) (W : Window) (p : List α) : Prop :=
  HasNanEstimate test fsolve Gi Gx layer model p ∧ ∃ γ ω, BestInside Gi Gx layer cand W p γ ω

end Verif.Spec
