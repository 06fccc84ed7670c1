import Mathlib.Data.Finset.Insert
import Verif.Spec.Partition
import Verif.Model.Leiden
import Verif.Spec.Iterate

/-!
# What repeated runs should return
-/

namespace Verif.Spec
open Verif

/-- `S` consists of exactly one canonical tuple for each of the partitions in `found`, and of nothing else. -/
def CanonicalSetOf (S : Finset (List Nat)) (found : List (List Nat)) : Prop :=
  (∀ c ∈ found, ∃ x ∈ S, SamePartition x c) ∧
  ∀ x ∈ S, FirstAppearanceOrder x ∧ ∃ c ∈ found, SamePartition x c

/-- The `j`-th of the tasks `ps` found the `j`-th of the partitions `found`, where `outcome j p` is what running the
`j`-th task with the parameter `p` does. -/
def AllFound {P : Type} (outcome : Nat → P → Py (List Nat)) (ps : List P) (found : List (List Nat)) : Prop :=
  found.length = ps.length ∧ ∀ j p c, ps[j]? = some p → found[j]? = some c → outcome j p = .ok c

/-- What the optimiser of a multilayer network finds in the `i`-th optimisation of a process, given the layers of the
intralayer graph as it is. -/
noncomputable def multilayerOutcome (env : LeidenEnv) (Gi Gx : Graph ℝ) (layers : List Nat) (i : Nat) (p : Fl ℝ × ℝ) :
    Py (List Nat) :=
  match splitLayers Gi.vcount Gi.edges Gi.weight Gi.directed layers with
  | .ok Gs => multiMaximiser env Gs Gx i p
  | .error e => .error e

/-- The optimisers' results do not depend on how many optimisations were made before (no randomness). -/
def Deterministic (env : LeidenEnv) : Prop :=
  (∀ i i' G γ, env.findPartition i G γ = env.findPartition i' G γ) ∧
  ∀ i i' parts ws, env.optimiseMultiplex i parts ws = env.optimiseMultiplex i' parts ws

end Verif.Spec
