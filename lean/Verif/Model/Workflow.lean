import Verif.Model.Drivers
import Verif.Model.Prune

/-!
# The documented workflow: find partitions, then prune them

`docs/source/basic_example.rst:12-26`, `docs/source/basic_multilayer_example.rst:51-70` and the tests that run these
examples (`tests/test_documentation_examples.py`).
-/

namespace Verif

/-- Everything that may differ from one execution of the workflow to the next: the optimiser and its randomness, the pool of
processes of the first step (number of processors, state of the worker that runs the `k`-th batch, identity of the graph
unpickled for it, completion order of the batches), the order in which the resulting Python set is iterated, and the
environment of pruning. -/
structure Execution where
  leiden : LeidenEnv
  cpu : Nat
  workers : Nat → World
  objs : Nat → Nat
  order : List Nat
  iterate : Finset (List Nat) → List (List Nat)
  prune : PruneEnv

/-- `partitions = repeated_parallel_leiden_from_gammas(G, gammas)` followed by
`prune_to_stable_partitions(G, partitions, gamma_start, gamma_end, …)` (`/repo/docs/source/basic_example.rst:20-24`).  The
first step works on copies of the graph. -/
noncomputable def findAndPrune (x : Execution) (G : Graph ℝ) (gammas : List (Fl ℝ)) (γ₀ γf : ℝ) (restrict : Option Nat)
    (singleThreaded : Bool) : Run (List (List Nat) × Graph ℝ) := do
  let partitions ← Run.ofPy (repeatedParallelLeiden x.leiden x.cpu x.workers x.order G gammas)
  pruneToStable x.prune G (.memberships (x.iterate partitions)) γ₀ γf restrict singleThreaded

/-- `parts = repeated_parallel_leiden_from_gammas_omegas(G_intralayer, G_interlayer, layer_vec, gammas, omegas)` followed by
`prune_to_multilayer_stable_partitions(G_intralayer, G_interlayer, layer_vec, model, parts, …)`
(`/repo/docs/source/basic_multilayer_example.rst:57-70`). -/
noncomputable def findAndPruneMultilayer (x : Execution) (Gi Gx : Graph ℝ) (layers : List Nat) (model : String)
    (gammas : List (Fl ℝ)) (omegas : List ℝ) (γ₀ γf ω₀ ωf : ℝ) (restrict : Option Nat) :
    Run (List (List Nat) × Graph ℝ) := do
  let partitions ← Run.ofPy
    (repeatedParallelMultilayerLeiden x.leiden x.cpu x.workers x.objs x.order Gi Gx layers gammas omegas)
  pruneToMultilayerStable x.prune Gi Gx layers model (.memberships (x.iterate partitions)) γ₀ γf ω₀ ωf restrict false

end Verif
