import Verif.Model.Workflow
import Verif.Spec.Drivers
import Verif.Spec.Prune

/-!
# What is assumed about an execution of the documented workflow
-/

namespace Verif.Spec
open Verif

/-- Leiden returns one community per vertex; every batch of the `n` tasks is delivered exactly once; iterating over a set
visits its elements; pruning has exact halfspace intersection; igraph's answer about weights is the same in both steps. -/
structure SoundExecution (x : Execution) (n : Nat) : Prop where
  produces : ProducesPartitions x.leiden
  order : x.order.Perm (List.range ((n + poolChunkSize x.cpu n - 1) / poolChunkSize x.cpu n))
  iterate : ∀ S c, c ∈ x.iterate S ↔ c ∈ S
  prune : SoundPruneEnv x.prune
  test : x.prune.test = x.leiden.test

/-- `found` are the partitions that the runs of this execution found, one for each gamma. -/
def RunsFound (x : Execution) (G : Graph ℝ) (gammas : List (Fl ℝ)) (found : List (List Nat)) : Prop :=
  AllFound (fun j γ => x.leiden.findPartition ((x.workers (j / poolChunkSize x.cpu gammas.length)).calls +
    j % poolChunkSize x.cpu gammas.length) (defaulted x.leiden.test G) γ) gammas found

/-- `found` are the partitions that the runs of this execution found, one for each point of the grid. -/
def RunsFoundMultilayer (x : Execution) (Gi Gx : Graph ℝ) (layers : List Nat) (gammas : List (Fl ℝ)) (omegas : List ℝ)
    (found : List (List Nat)) : Prop :=
  AllFound (fun j p => multilayerOutcome x.leiden (defaulted x.leiden.test Gi) (defaulted x.leiden.test Gx) layers
    ((x.workers (j / poolChunkSize x.cpu (gammas.length * omegas.length))).calls +
      j % poolChunkSize x.cpu (gammas.length * omegas.length)) p) (gridPoints gammas omegas) found

/-- The worker processes have only run Leiden-based functions, on graph objects that kept their contents `heaps k`; the
intralayer graph unpickled for the `k`-th batch has the content `Gi`. -/
structure HealthyWorkers (x : Execution) (Gi : Graph ℝ) (heaps : Nat → Nat → Graph ℝ) : Prop where
  contents : ∀ k o, (heaps k o).WF ∧ SaneTest x.leiden.test (heaps k o)
  reachable : ∀ k, Reachable x.leiden (heaps k) (x.workers k)
  graph : ∀ k, heaps k (x.objs k) = Gi

/-- Every number of the interval lies between two numbers of the grid that are at most `h` apart. -/
def CoversInterval (grid : List ℝ) (lo hi h : ℝ) : Prop :=
  ∀ γ, lo ≤ γ → γ ≤ hi → ∃ a ∈ grid, ∃ b ∈ grid, a ≤ γ ∧ γ ≤ b ∧ b - a ≤ h

/-- An ideal optimiser: at every real resolution it finds a partition of the vertices that no partition of the vertices
beats. -/
def IdealLeiden (env : LeidenEnv) (G : Graph ℝ) : Prop :=
  ∀ i γ c, env.findPartition i (defaulted env.test G) (.fin γ) = .ok c →
    ∀ q : List Nat, q.length = G.vcount → modularity G γ q ≤ modularity G γ c

/-- An ideal optimiser of multilayer modularity. -/
def IdealMultilayerLeiden (env : LeidenEnv) (Gi Gx : Graph ℝ) (layers : List Nat) : Prop :=
  ∀ i γ ω c, multilayerOutcome env (defaulted env.test Gi) (defaulted env.test Gx) layers i (.fin γ, ω) = .ok c →
    ∀ q : List Nat, q.length = Gi.vcount → multilayerModularity Gi Gx layers γ ω q ≤ multilayerModularity Gi Gx layers γ ω c

/-- Better at resolution `g` than every partition of the vertices with different modularity. -/
def StrictlyBest (G : Graph ℝ) (g : ℝ) (p : List Nat) : Prop :=
  ∀ q : List Nat, q.length = G.vcount → ¬ SameModularity G q p → modularity G g q < modularity G g p

end Verif.Spec
