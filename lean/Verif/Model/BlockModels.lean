import Verif.Model.Estimation

/-!
# Block models of the experiments (`experiments/hierarchical_SBM_test`, `experiments/miscellaneous_tests`)

The random graphs are drawn by `igraph.Graph.SBM(N, pref_matrix, block_sizes)`: every pair of vertices is joined
independently with the probability given by the blocks of its ends.  Modelled are the parameters and the ground truths.
-/

namespace Verif

/-- `p1`, `p2`, `p3` (`/repo/experiments/hierarchical_SBM_test/hierarchical_SBM_test.py:22-24`).  Exact arithmetic; `N > 0`. -/
noncomputable def hierarchicalP1 (N : Nat) : ℝ := 1 / 2 / (2 * N / 3)

@[inherit_doc hierarchicalP1] noncomputable def hierarchicalP2 (N : Nat) : ℝ := 3 / (2 * N / 9)

@[inherit_doc hierarchicalP1] noncomputable def hierarchicalP3 (N : Nat) : ℝ := 6 / (1 * N / 9)

/-- `pref_matrix` (`/repo/experiments/hierarchical_SBM_test/hierarchical_SBM_test.py:27`). -/
noncomputable def hierarchicalPref (N : Nat) : List (List ℝ) :=
  (List.range 9).map fun j => (List.range 9).map fun i =>
    if i = j then hierarchicalP3 N else if i / 3 = j / 3 then hierarchicalP2 N else hierarchicalP1 N

/-- `ground_truth9` (`/repo/experiments/hierarchical_SBM_test/hierarchical_SBM_test.py:26,37`). -/
def groundTruth9 (N : Nat) : List Nat := (List.range N).map fun i => i / (N / 9)

/-- `ground_truth3` (`/repo/experiments/hierarchical_SBM_test/hierarchical_SBM_test.py:26,38`). -/
def groundTruth3 (N : Nat) : List Nat := (List.range N).map fun i => i / (3 * (N / 9))

/-- `GAMMA_START`, `GAMMA_END` (`/repo/experiments/hierarchical_SBM_test/hierarchical_SBM_test.py:17-18`). -/
noncomputable def hierarchicalWindow : ℝ × ℝ := (0, 5 / 2)

/-- `p_in` (`/repo/experiments/miscellaneous_tests/gamma_estimation_test.py:16-17`). -/
noncomputable def newmanPIn (q : Nat) : ℝ := 16 * (250 * q) / (q * 250 * 249)

/-- `p_out` (`/repo/experiments/miscellaneous_tests/gamma_estimation_test.py:16,18`). -/
noncomputable def newmanPOut (q : Nat) : ℝ := 8 * (250 * q) / (q * (q - 1) * 250 * 250)

/-- `pref_matrix` (`/repo/experiments/miscellaneous_tests/gamma_estimation_test.py:19`). -/
noncomputable def newmanPref (q : Nat) : List (List ℝ) :=
  (List.range q).map fun i => (List.range q).map fun j => if i = j then newmanPIn q else newmanPOut q

/-- `true_gamma` for a drawn graph `G` (`/repo/experiments/miscellaneous_tests/gamma_estimation_test.py:22-25`).
Simplification: `k` is a numpy number, so a graph without edges gives NaN instead of an exception. -/
noncomputable def newmanTrueGamma (G : Graph ℝ) (q : Nat) : Py ℝ := do
  let k ← pyDiv ((G.allDegrees.map fun (d : Nat) => (d : ℝ)).sum) (G.allDegrees.length : ℝ)
  let trueIn ← pyDiv (newmanPIn q * (2 * G.ecount)) (k * k)
  let trueOut ← pyDiv (newmanPOut q * (2 * G.ecount)) (k * k)
  let a ← pyLog trueIn
  let b ← pyLog trueOut
  pyDiv (trueIn - trueOut) (a - b)

end Verif
