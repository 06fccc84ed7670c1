import Verif.Model.Lfr
import Verif.Spec.Drivers
import Verif.Spec.Partition
import Verif.Spec.Prune
import Verif.Spec.SBM

/-!
# The LFR benchmark (specification)
-/

namespace Verif.Spec
open Verif

/-- `iteration` is a way of going through the set of the nodes' communities: every community once, every member once. -/
def IterationOf (community : List (Finset Nat)) (iteration : List (List Nat)) : Prop :=
  (iteration.map List.toFinset).Perm community.dedup ∧ ∀ c ∈ iteration, c.Nodup

/-- The nodes `u` and `v` belong to a common community. -/
def Together (G : NxLfr) (u v : Nat) : Prop := ∃ C ∈ G.community, u ∈ C ∧ v ∈ C

/-- What networkx promises about the communities: every node belongs to its own community, and all members of a community
have that community. -/
def Planted (G : NxLfr) : Prop :=
  G.community.length = G.nodes ∧ ∀ (v : Nat) (C : Finset Nat), G.community[v]? = some C → v ∈ C ∧ ∀ u ∈ C, G.community[u]? = some C

/-- The `i`-th resolution of a sweep over `[lo, hi]` with `runs` runs. -/
noncomputable def sweepGamma (lo hi : ℝ) (runs i : Nat) : ℝ := lo + (i : ℝ) / ((runs : ℝ) - 1) * (hi - lo)

/-- `found` are the partitions found by Leiden at the resolutions `gamma 0, …, gamma (runs - 1)`, on the graph with weight 1
unless igraph reports weights. -/
def FoundAt (env : LeidenEnv) (G : Graph ℝ) (w : World) (runs : Nat) (gamma : Nat → Fl ℝ) (found : List (List Nat)) : Prop :=
  found.length = runs ∧ ∀ (i : Nat) (c : List Nat), found[i]? = some c → env.findPartition (w.calls + i) (defaulted env.test G) (gamma i) = .ok c

/-- `ps` has exactly one canonical tuple for each partition in `found`, and nothing else, in some order. -/
def Distinct (ps found : List (List Nat)) : Prop :=
  ps.Nodup ∧ (∀ c ∈ found, ∃ p ∈ ps, SamePartition p c) ∧ ∀ p ∈ ps, FirstAppearanceOrder p ∧ ∃ c ∈ found, SamePartition p c

/-- `p` has a real gamma estimate in `[lo, hi]`, and no member of `ps` has larger modularity there. -/
def StableAmong (test : Graph ℝ → Bool) (G : Graph ℝ) (lo hi : ℝ) (ps : List (List Nat)) (p : List Nat) : Prop :=
  ∃ γ H, gammaEstimate test G p = .ok (some (.fin γ), H) ∧ lo ≤ γ ∧ γ ≤ hi ∧ ∀ q ∈ ps, modularity G γ q ≤ modularity G γ p

/-- `scores` are the `nmi`s of `ps` with the ground truth, in order: real numbers between 0 and 1, and 1 exactly for the
ground truth's partition. -/
def ScoresOf (truth : List Nat) (ps : List (List Nat)) (scores : List (Fl ℝ)) : Prop :=
  List.Forall₂ (fun p s => nmi truth p = .ok s ∧ ∃ r : ℝ, s = .fin r ∧ 0 ≤ r ∧ r ≤ 1 ∧ (r = 1 ↔ SamePartition truth p)) ps scores

end Verif.Spec
