import Verif.Model.Synthetic
import Verif.Model.Workflow
import Verif.Model.Plotting

/-!
# The examples of the documentation and the tests that run them

`docs/source/basic_multilayer_example.rst`, `docs/source/plotting_examples.rst` and `tests/test_documentation_examples.py`.
The numbers of the example (30 vertices in each of 3 layers, 3 communities, blocks of 10 vertices) are kept symbolic.
-/

namespace Verif

/-- `comm_vec`: `comm_per_layer = [[i // (n_per_layer // K) if layer < num_layers - 1 else 0 for i in range(n_per_layer)] for
layer in range(num_layers)]`, flattened (`/repo/docs/source/basic_multilayer_example.rst:31-33`,
`/repo/tests/test_documentation_examples.py:62-64`). -/
def docLabels (n T K : Nat) : Py (List Nat) := do
  let perLayer ← (List.range T).mapM fun layer => (List.range n).mapM fun i =>
    if layer < T - 1 then do
      let size ← vcountFloorDiv n K
      vcountFloorDiv i size
    else .ok 0
  return perLayer.flatten

/-- `generate_basic_multilayer_network` (`/repo/tests/test_documentation_examples.py:43-79`,
`/repo/docs/source/basic_multilayer_example.rst:14-46`); `draw v u` is the random number drawn for the pair. -/
noncomputable def docNetwork (n T K : Nat) (pIn pOut : ℝ) (draw : Nat → Nat → ℝ) : Py (Graph ℝ × Graph ℝ × List Nat) := do
  let comm ← docLabels n T K
  return (graphOfEdges (blockEdges (layerVector n T) comm pIn pOut draw), couplingGraph n T, layerVector n T)

/-- `counts[label] += 1` (`/repo/tests/test_documentation_examples.py:115,129`). -/
def countLabel (counts : List Nat) (label : Nat) : Py (List Nat) :=
  match counts[label]? with
  | some k => .ok (counts.set label (k + 1))
  | none => .error .keyError

/-- `counts = {i: 0 for i in range(max(membership) + 1)}` and the loop `counts[label] += 1`
(`/repo/tests/test_documentation_examples.py:113-115,127-129`).  The dictionary with the keys `0, 1, …` in this order is a list. -/
def labelCounts (membership labels : List Nat) : Py (List Nat) :=
  match membership.max? with
  | none => .error (.valueError "max() arg is an empty sequence")
  | some M => labels.foldlM countLabel (List.replicate (M + 1) 0)

/-- `max(counts.items(), key=lambda x: x[1])`: the first of the entries with the largest count
(`/repo/tests/test_documentation_examples.py:116,130-131`). -/
def mostCommonEntry (counts : List Nat) : Py (Nat × Nat) :=
  match counts.zipIdx.map Prod.swap with
  | [] => .error (.valueError "max() arg is an empty sequence")
  | x :: xs => .ok (xs.foldl (fun best y => if best.2 < y.2 then y else best) x)

/-- `most_common_label`: the most common label of each of the first `chunks` chunks of `size` vertices
(`/repo/tests/test_documentation_examples.py:111-116`). -/
def chunkLabels (size chunks : Nat) (membership : List Nat) : Py (List Nat) :=
  (List.range chunks).mapM fun i => do
    let counts ← labelCounts membership ((membership.take (size * (i + 1))).drop (size * i))
    let best ← mostCommonEntry counts
    return best.1

/-- The body of the first loop of `test_basic_multilayer_example` (`/repo/tests/test_documentation_examples.py:108-121`):
partitions with three communities must have different most common labels in the first and second and in the second and third
chunk. -/
def checkChunks (size chunks : Nat) (membership : List Nat) : Py Unit := do
  let K ← numCommunities (membership.map Int.ofNat)
  if K ≠ 3 then return ()
  else do
    let labels ← chunkLabels size chunks membership
    let l0 ← pyGet labels 0
    let l1 ← pyGet labels 1
    if l0 = l1 then .error .assertionError
    else do
      let l2 ← pyGet labels 2
      if l1 = l2 then .error .assertionError else return ()

/-- The first loop of `test_basic_multilayer_example` (`/repo/tests/test_documentation_examples.py:107-121`). -/
def checkFirstLayer (size chunks : Nat) : List (List Nat) → Py Unit
  | [] => .ok ()
  | membership :: rest => do
    checkChunks size chunks membership
    checkFirstLayer size chunks rest

/-- The share of the last layer that has its most common label: `membership[-n_per_layer:]`
(`/repo/tests/test_documentation_examples.py:127-132`).  Simplification: an exact quotient.  For `n = 0` the slice would be the
whole membership, but the division fails then. -/
def finalLayerShare (n : Nat) (membership : List Nat) : Py ℚ := do
  let counts ← labelCounts membership (membership.drop (membership.length - n))
  let best ← mostCommonEntry counts
  pyDiv (best.2 : ℚ) (n : ℚ)

/-- The second loop and the last assertions (`/repo/tests/test_documentation_examples.py:124-138`): at least one partition with
more than 90% of the last layer in one community, at least one with less than half. -/
def checkFinalLayer (n : Nat) (stable : List (List Nat)) : Py Unit := do
  let shares ← stable.mapM (finalLayerShare n)
  let unified := (shares.filter fun s => decide (s > 9 / 10)).length
  let split := (shares.filter fun s => !decide (s > 9 / 10) && decide (s < 1 / 2)).length
  if ¬ unified > 0 then .error .assertionError
  else if ¬ split > 0 then .error .assertionError
  else return ()

/-- The verdict of `test_basic_multilayer_example` on the stable partitions
(`/repo/tests/test_documentation_examples.py:107-138`): nothing, or `AssertionError`. -/
def docVerdict (size chunks n : Nat) (stable : List (List Nat)) : Py Unit := do
  checkFirstLayer size chunks stable
  checkFinalLayer n stable

/-- `test_basic_multilayer_example` (`/repo/tests/test_documentation_examples.py:81-138`): the network, the sweep over a grid,
the pruning, the verdict; returns the stable partitions. -/
noncomputable def docExample (x : Execution) (n T K : Nat) (pIn pOut : ℝ) (draw : Nat → Nat → ℝ) (gammas : List (Fl ℝ))
    (omegas : List ℝ) (γ₀ γf ω₀ ωf : ℝ) (size chunks : Nat) : Run (List (List Nat)) := do
  let net ← Run.ofPy (docNetwork n T K pIn pOut draw)
  let r ← findAndPruneMultilayer x net.1 net.2.1 net.2.2 "temporal" gammas omegas γ₀ γf ω₀ ωf none
  Run.ofPy (docVerdict size chunks n r.1)
  return r.1

/-- `test_plot_estimates_example` (`/repo/tests/test_documentation_examples.py:140-158`,
`/repo/docs/source/plotting_examples.rst`): sweep, CHAMP, estimates, plot; also returns the ranges with estimates. -/
noncomputable def docPlotEstimates (x : Execution) (limits : List ((ℝ × ℝ) × Nat) → (ℝ × ℝ) × (ℝ × ℝ)) (G : Graph ℝ)
    (gammas : List (Fl ℝ)) (γ₀ γf : ℝ) : Run (List (ℝ × ℝ × List Nat × Option (Fl ℝ)) × RangePlot) := do
  let partitions ← Run.ofPy (repeatedParallelLeiden x.leiden x.cpu x.workers x.order G gammas)
  let ranges ← champ2D x.prune.toChampEnv G (x.iterate partitions) γ₀ γf false
  let estG ← Run.ofPy (rangesToGammaEstimates x.prune.test G ranges)
  let plot ← Run.ofPy (plotEstimates limits (estG.1.map fun e => (e.1, e.2.1, e.2.2.1.map Int.ofNat, e.2.2.2)))
  return (estG.1, plot)

end Verif
