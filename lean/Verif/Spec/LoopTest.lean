import Verif.Model.LoopTest
import Verif.Spec.Leidenalg
import Verif.Spec.Prune

/-!
# Loops in the gamma estimates (specification)
-/

namespace Verif.Spec
open Verif
variable {α : Type}

/-- The estimate of the entry `e` is a real number, and `e'` is the first entry whose range contains it. -/
def Leads (ests : List (RangeEstimate α)) (e e' : RangeEstimate α) : Prop :=
  ∃ g : ℝ, e.2.2.2 = some (.fin g) ∧ ∃ before after, ests = before ++ e' :: after ∧ (e'.1 ≤ g ∧ g ≤ e'.2.1) ∧
    ∀ x ∈ before, ¬ (x.1 ≤ g ∧ g ≤ x.2.1)

/-- Following the estimates from some range, one comes back to it after visiting a different partition at every step. -/
def EstimationLoop (ests : List (RangeEstimate α)) : Prop :=
  ∃ (walk : Nat → RangeEstimate α) (period : Nat), 2 ≤ period ∧
    ∀ k, Leads ests (walk k) (walk (k + 1)) ∧ (walk (k + 1)).2.2.1 ≠ (walk k).2.2.1 ∧ walk (k + period) = walk k

/-- `quality` is leidenalg's quality of a partition object built without weights. -/
def LeidenQuality (quality : Graph ℝ → List Nat → ℝ → ℝ) : Prop :=
  ∀ G c γ, quality G c γ = rbQuality { G with weight := some (List.replicate G.ecount (1 : ℝ)) } γ c

/-- `p1` and `p2` have real gamma estimates, and at the estimate of either one the other one has larger modularity. -/
def SendEachOther (test : Graph ℝ → Bool) (G : Graph ℝ) (p1 p2 : List Nat) (g1 g2 : ℝ) : Prop :=
  (∃ H, gammaEstimate test G p1 = .ok (some (.fin g1), H)) ∧ (∃ H, gammaEstimate test G p2 = .ok (some (.fin g2), H)) ∧
    modularity G g2 p2 < modularity G g2 p1 ∧ modularity G g1 p1 < modularity G g1 p2

/-- A cycle of different partitions out of `parts`: the estimate of each is a real number in the window, and the next one has
the largest modularity there. -/
def PartitionCycle (test : Graph ℝ → Bool) (G : Graph ℝ) (parts : List (List Nat)) (lo hi : ℝ) (walk : Nat → List Nat)
    (γ : Nat → ℝ) (period : Nat) : Prop :=
  2 ≤ period ∧ ∀ k, walk k ∈ parts ∧ (∃ H, gammaEstimate test G (walk k) = .ok (some (.fin (γ k)), H)) ∧
    lo ≤ γ k ∧ γ k ≤ hi ∧ (∀ q ∈ parts, modularity G (γ k) q ≤ modularity G (γ k) (walk (k + 1))) ∧
    walk (k + 1) ≠ walk k ∧ walk (k + period) = walk k

end Verif.Spec
