import Verif.Spec.Prune

/-!
# Specification vocabulary for C120: partitions processed in batches
-/

namespace Verif.Spec
open Verif

/-- `parts` (in any order, with or without repetitions) was cut into batches, possibly overlapping, `CHAMP_2D` was run on
every batch – each run with its own solver, schedule and threading – and `kept` are the partitions it returned. -/
def Batched2D {α : Type} [DecidableEq α] (G : Graph ℝ) (γ₀ γf : ℝ) (parts kept : List (List α)) : Prop :=
  ∃ (batches : List (List (List α))) (results : List (List (ℝ × ℝ × List α))),
    List.Forall₂ (fun b rs => ∃ env st, SoundEnv env ∧ champ2D env G b γ₀ γf st = (some (.ok rs) : Option _)) batches results ∧
    (∀ p, p ∈ parts ↔ ∃ b ∈ batches, p ∈ b) ∧
    ∀ p, p ∈ kept ↔ ∃ rs ∈ results, ∃ r ∈ rs, r.2.2 = p

/-- the same for `CHAMP_3D` -/
def Batched3D {α : Type} [DecidableEq α] (Gi Gx : Graph ℝ) (layer : List Nat) (W : Window) (parts kept : List (List α)) :
    Prop :=
  ∃ (batches : List (List (List α))) (results : List (List (List (ℝ × ℝ) × List α))),
    List.Forall₂ (fun b ds => ∃ env, SoundEnv env ∧
      champ3D env Gi Gx layer b W.γ₀ W.γf W.ω₀ W.ωf = (some (.ok ds) : Option _)) batches results ∧
    (∀ p, p ∈ parts ↔ ∃ b ∈ batches, p ∈ b) ∧
    ∀ p, p ∈ kept ↔ ∃ ds ∈ results, ∃ d ∈ ds, d.2 = p

/-- `parts` was cut into batches, `prune_to_stable_partitions` was run on every batch, and `kept` are the partitions it
returned; whether igraph reports weights (`test`) is the same in all runs. -/
def PrunedInBatches {α : Type} [LinearOrder α] (test : Graph ℝ → Bool) (G : Graph ℝ) (γ₀ γf : ℝ) (restrict : Option Nat)
    (parts : List (List α)) (kept : List (List Nat)) : Prop :=
  ∃ (batches : List (List (List α))) (results : List (List (List Nat))),
    List.Forall₂ (fun b o => ∃ env st G', SoundPruneEnv env ∧ env.test = test ∧
      pruneToStable env G (.memberships b) γ₀ γf restrict st = (some (.ok (o, G')) : Option _)) batches results ∧
    (∀ p, p ∈ parts ↔ ∃ b ∈ batches, p ∈ b) ∧
    ∀ c, c ∈ kept ↔ ∃ o ∈ results, c ∈ o

end Verif.Spec
