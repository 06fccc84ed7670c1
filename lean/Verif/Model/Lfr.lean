import Mathlib.Data.Finset.Dedup
import Mathlib.Data.Finset.Basic
import Verif.Model.Drivers
import Verif.Model.Prune
import Verif.Model.Scores
import Verif.Model.Snap
import Verif.Model.Warnings

/-!
# The LFR benchmark (`experiments/lfr_benchmark_test/lfr_benchmark_test.py:41-138`)

networkx's generator of LFR graphs, its random choices and the timeout are not modelled: the graph it returns is arbitrary.
-/

namespace Verif

/-- What networkx's `LFR_benchmark_graph` returns: the nodes `0, …, nodes - 1`, the edges of an undirected graph, and the node
attribute `community` (one set per node). -/
structure NxLfr where
  nodes : Nat
  edges : List (Nat × Nat)
  community : List (Finset Nat)

/-- The loop over one community, `for v in community_set: community_vector[v] = i`
(`/repo/experiments/lfr_benchmark_test/lfr_benchmark_test.py:70-71`). -/
def assignCommunity (i : Nat) : List Nat → List (Option Nat) → Py (List (Option Nat))
  | [], vec => .ok vec
  | v :: vs, vec => if v < vec.length then assignCommunity i vs (vec.set v (some i)) else .error .indexError

/-- The first loop over the communities, from index `i` on
(`/repo/experiments/lfr_benchmark_test/lfr_benchmark_test.py:68-71`). -/
def assignCommunities : Nat → List (List Nat) → List (Option Nat) → Py (List (Option Nat))
  | _, [], vec => .ok vec
  | i, c :: cs, vec =>
    if c.length = 0 then .error .assertionError
    else do
      let vec ← assignCommunity i c vec
      assignCommunities (i + 1) cs vec

/-- The second loop over the communities (`/repo/experiments/lfr_benchmark_test/lfr_benchmark_test.py:73-75`). -/
def checkCommunities : Nat → List (List Nat) → List (Option Nat) → Py Unit
  | _, [], _ => .ok ()
  | i, c :: cs, vec =>
    if c.all fun v => vec[v]? == some (some i) then checkCommunities (i + 1) cs vec else .error .assertionError

/-- `LFR_benchmark_igraph` from the communities on (`/repo/experiments/lfr_benchmark_test/lfr_benchmark_test.py:67-83`);
`iteration` lists the members of each community in the order in which Python iterates over the set of frozensets.
The numbers of edges agree by construction. -/
noncomputable def groundTruth (G : NxLfr) (iteration : List (List Nat)) : Py (Graph ℝ × List Nat) := do
  let vec ← assignCommunities 0 iteration (List.replicate G.nodes none)
  checkCommunities 0 iteration vec
  let H := graphOfEdges G.edges
  if vec.any Option.isNone then .error .assertionError
  else if G.nodes ≠ H.vcount then .error .assertionError
  else return (H, vec.filterMap id)

open Classical in
/-- `LFR_benchmark_igraph` (`/repo/experiments/lfr_benchmark_test/lfr_benchmark_test.py:41-83`) on the outcome of networkx's
generator (`none` for `ExceededMaxIterations`); `none` is `(None, None)`.  networkx's `is_connected` raises an exception of
its own for a graph without nodes, modelled as `ValueError`. -/
noncomputable def lfrBenchmark (generated : Option NxLfr) (iteration : List (List Nat)) : Py (Option (Graph ℝ × List Nat)) :=
  match generated with
  | none => .ok none
  | some G =>
    if G.nodes = 0 then .error (.valueError "Connectivity is undefined for the null graph.")
    else if ¬ (Graph.IsConnected (⟨G.nodes, false, G.edges, none⟩ : Graph ℝ)) then .ok none
    else do
      let r ← groundTruth G iteration
      return some r

/-- The resolutions of a method (`/repo/experiments/lfr_benchmark_test/lfr_benchmark_test.py:116-121`).
`np.linspace(g, g, n)` is `n` copies of `g` (also for NaN; infinite estimates do not occur, C27). -/
noncomputable def methodGammas (method : String) (groundTruthGamma : Fl ℝ) (runs : Nat) (lo hi : ℝ) : Py (List (Fl ℝ)) :=
  if method = "modularity pruning" ∨ method = "modularity pruning ground truth K" ∨ method = "gamma sweep" then
    .ok ((linspace lo hi runs).map .fin)
  else if method = "ground truth gamma" then .ok (List.replicate runs groundTruthGamma)
  else .error (.valueError s!"Option {method} is not valid")

/-- `run_method(G, ground_truth_communities, num_louvain_runs, method, gamma_sweep_min, gamma_sweep_max)`
(`/repo/experiments/lfr_benchmark_test/lfr_benchmark_test.py:99-138`) in a process in state `w`.  `None > gamma_sweep_max`
raises `TypeError`.  `parts` is a Python set, iterated in an arbitrary order.  The message about large estimates is not
modelled. -/
noncomputable def runMethod (env : LeidenEnv) (penv : PruneEnv) (G : Graph ℝ) (truth : List Nat) (runs : Nat) (method : String)
    (lo hi : ℝ) (w : World) : Run (List (Fl ℝ)) := do
  let eG ← Run.ofPy (gammaEstimate penv.test G truth)
  match eG.1 with
  | none => Run.ofPy (.error .typeError)
  | some g =>
    let gammas ← Run.ofPy (methodGammas method g runs lo hi)
    let SG ← Run.ofPy (repeatedLeiden env eG.2 gammas w).1
    let parts := penv.setOrder SG.1.toList
    if method = "modularity pruning" then
      let first ← Run.ofPy (pyGet (linspace lo hi runs) 0)
      let last ← Run.ofPy (pyGet (linspace lo hi runs) ((linspace lo hi runs).length - 1))
      let stable ← pruneToStable penv SG.2 (.memberships parts) first last none true
      Run.ofPy (stable.1.mapM fun p => nmi truth p)
    else if method = "modularity pruning ground truth K" then
      let K ← Run.ofPy (numCommunities (truth.map Int.ofNat))
      let first ← Run.ofPy (pyGet (linspace lo hi runs) 0)
      let last ← Run.ofPy (pyGet (linspace lo hi runs) ((linspace lo hi runs).length - 1))
      let stable ← pruneToStable penv SG.2 (.memberships parts) first last (some K) true
      Run.ofPy (stable.1.mapM fun p => nmi truth p)
    else
      Run.ofPy (parts.mapM fun p => nmi truth p)

end Verif
