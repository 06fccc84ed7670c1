import Verif.Model.Prune
import Verif.Model.Warnings
import Verif.Model.Snap

/-!
# The simulation studies on block models (`experiments/bistable_SBM/bistable_SBM_test_constant_probs.py`,
`experiments/hierarchical_SBM_test/hierarchical_SBM_test.py`) and the karate club (`experiments/karate_club_test`)

The random graphs and the Louvain partitions are arbitrary; progress bars, console output and the drawing are not modelled.
-/

namespace Verif

/-- `CHAMP_2D(G, all_parts, GAMMA_START, GAMMA_END)` and `ranges_to_gamma_estimates(G, ranges)`, where `all_parts` is a set
(`/repo/experiments/bistable_SBM/bistable_SBM_test_constant_probs.py:68-69`,
`/repo/experiments/hierarchical_SBM_test/hierarchical_SBM_test.py:49-52`,
`/repo/experiments/karate_club_test/karate_club_test.py:37-38,68-69`). -/
noncomputable def studyEstimates (env : PruneEnv) (G : Graph ℝ) (parts : List (List Nat)) (γ₀ γf : ℝ) :
    Run (List (ℝ × ℝ × List Nat × Option (Fl ℝ)) × Graph ℝ) := do
  let ranges ← champ2D env.toChampEnv G (env.setOrder parts) γ₀ γf false
  Run.ofPy (rangesToGammaEstimates env.test G ranges)

/-- One round of the loop over the estimates: `(stable2, stable3)`
(`/repo/experiments/bistable_SBM/bistable_SBM_test_constant_probs.py:72-77`). -/
noncomputable def stabilityStep (s : Bool × Bool) (e : ℝ × ℝ × List Nat × Option (Fl ℝ)) : Py (Bool × Bool) :=
  match e.2.2.2 with
  | none => .ok s
  | some g =>
    if Fl.le (.fin e.1) g && Fl.le g (.fin e.2.1) then do
      let K ← numCommunities (e.2.2.1.map Int.ofNat)
      if K = 2 then .ok (true, s.2)
      else do
        let K ← numCommunities (e.2.2.1.map Int.ofNat)
        if K = 3 then .ok (s.1, true) else .ok s
    else .ok s

/-- `stable2, stable3` (`/repo/experiments/bistable_SBM/bistable_SBM_test_constant_probs.py:71-77`). -/
noncomputable def stabilityFlags (ests : List (ℝ × ℝ × List Nat × Option (Fl ℝ))) : Py (Bool × Bool) :=
  ests.foldlM stabilityStep (false, false)

/-- `ground_truth` (`/repo/experiments/bistable_SBM/bistable_SBM_test_constant_probs.py:56`), `block` = `block_sizes[0]`. -/
def blockTruth (N block : Nat) : List Nat := (List.range N).map fun i => i / block

/-- `ground_truth2` (`/repo/experiments/bistable_SBM/bistable_SBM_test_constant_probs.py:57`). -/
def blockTruth2 (N block : Nat) : List Nat := (List.range N).map fun i => min 1 (i / block)

open Classical in
/-- One pass of the `while` loop (`/repo/experiments/bistable_SBM/bistable_SBM_test_constant_probs.py:49-77`) for the random graph
`G` and the Louvain partitions `parts`: `none` if the graph is skipped, else `(stable2, stable3)`. -/
noncomputable def bistableTrial (env : PruneEnv) (N : Nat) (G : Graph ℝ) (parts : List (List Nat)) : Run (Option (Bool × Bool)) := do
  if ¬ G.IsConnected then return none
  let e3 ← Run.ofPy (gammaEstimate env.test G (blockTruth N (N / 3)))
  let e2 ← Run.ofPy (gammaEstimate env.test e3.2 (blockTruth2 N (N / 3)))
  if e3.1 = none ∨ e2.1 = none then return none
  let ests ← studyEstimates env e2.2 parts 0 2
  let flags ← Run.ofPy (stabilityFlags ests.1)
  return some flags

/-- `total, count_2stable, count_3stable, count_both_stable`
(`/repo/experiments/bistable_SBM/bistable_SBM_test_constant_probs.py:35-38`). -/
structure Tally where
  total : Nat
  two : Nat
  three : Nat
  both : Nat
  deriving DecidableEq

/-- The update of the counters (`/repo/experiments/bistable_SBM/bistable_SBM_test_constant_probs.py:79-85`). -/
def Tally.record (t : Tally) (flags : Bool × Bool) : Tally :=
  { total := t.total + 1
    two := if flags.1 then t.two + 1 else t.two
    three := if flags.2 then t.three + 1 else t.three
    both := if flags.1 && flags.2 then t.both + 1 else t.both }

/-- `while total < TRIALS_PER_DELTA` (`/repo/experiments/bistable_SBM/bistable_SBM_test_constant_probs.py:40-87`); `trial i` is the
`i`-th pass since the start of the script.  `none`: still running after `fuel` passes. -/
def bistableLoop (trials : Nat) (trial : Nat → Run (Option (Bool × Bool))) : (fuel i : Nat) → Tally → Run (Tally × Nat)
  | fuel, i, t =>
    if t.total < trials then
      match fuel with
      | 0 => ExceptT.mk none
      | fuel + 1 => do
        let r ← trial i
        match r with
        | none => bistableLoop trials trial fuel (i + 1) t
        | some flags => bistableLoop trials trial fuel (i + 1) (t.record flags)
    else return (t, i)

/-- `(c2s[j], c3s[j], cboths[j])` and the number of the next pass
(`/repo/experiments/bistable_SBM/bistable_SBM_test_constant_probs.py:34-91`). -/
noncomputable def bistablePoint (trials : Nat) (trial : Nat → Run (Option (Bool × Bool))) (fuel i : Nat) :
    Run ((ℝ × ℝ × ℝ) × Nat) := do
  let r ← bistableLoop trials trial fuel i ⟨0, 0, 0, 0⟩
  let c2 ← Run.ofPy (pyDiv (r.1.two : ℝ) (r.1.total : ℝ))
  let c3 ← Run.ofPy (pyDiv (r.1.three : ℝ) (r.1.total : ℝ))
  let cb ← Run.ofPy (pyDiv (r.1.both : ℝ) (r.1.total : ℝ))
  return ((c2, c3, cb), r.2)

/-- `p2s` (`/repo/experiments/bistable_SBM/bistable_SBM_test_constant_probs.py:23-27`). -/
noncomputable def bistableAbscissas : List ℝ :=
  linspace (1 / 100) (2 / 100) 5 ++ linspace (2 / 100) (25 / 1000) 15 ++ linspace (25 / 1000) (475 / 10000) 5 ++
    linspace (475 / 10000) (525 / 10000) 15 ++ linspace (525 / 10000) (6 / 100) 5

/-- The update of `num_stable` for one graph (`/repo/experiments/hierarchical_SBM_test/hierarchical_SBM_test.py:110-112`). -/
def tallyStable : List Nat → List (List Nat) → Py (List Nat)
  | counts, [] => .ok counts
  | counts, p :: ps => do
    let K ← numCommunities (p.map Int.ofNat)
    if ¬ K < counts.length then .error .assertionError
    else do
      let n ← pyGet counts K
      tallyStable (counts.set K (n + 1)) ps

/-- The stable partitions of one graph (`/repo/experiments/hierarchical_SBM_test/hierarchical_SBM_test.py:104-108`). -/
noncomputable def hierarchicalStable (env : PruneEnv) (G : Graph ℝ) (parts : List (List Nat)) : Run (List (List Nat)) := do
  let ests ← studyEstimates env G parts 0 (5 / 2)
  return stablePartitions2D ests.1

/-- The loop over the trials (`/repo/experiments/hierarchical_SBM_test/hierarchical_SBM_test.py:103-113`). -/
def tallyTrials (trial : Nat → Run (List (List Nat))) : (remaining i : Nat) → List Nat → Run (List Nat)
  | 0, _, counts => return counts
  | remaining + 1, i, counts => do
    let stable ← trial i
    let counts ← Run.ofPy (tallyStable counts stable)
    tallyTrials trial remaining (i + 1) counts

/-- `find_stability_probabilities(num_trials)` (`/repo/experiments/hierarchical_SBM_test/hierarchical_SBM_test.py:100-117`): the list
that is stored. -/
noncomputable def stabilityProbabilities (trials : Nat) (trial : Nat → Run (List (List Nat))) : Run (List ℝ) := do
  let counts ← tallyTrials trial trials 0 (List.replicate 20 0)
  counts.mapM fun (x : Nat) => Run.ofPy (pyDiv (x : ℝ) (trials : ℝ))

/-- The bars of the figure: numbers of communities and heights
(`/repo/experiments/hierarchical_SBM_test/hierarchical_SBM_test.py:130`). -/
def stabilityBars (probs : List ℝ) : List (Nat × ℝ) := (List.range' 3 14).zip ((probs.drop 3).take 14)

/-- The pictures of the stable partitions: the file named after the number of communities shows the partition written last
(`/repo/experiments/hierarchical_SBM_test/hierarchical_SBM_test.py:92-94`). -/
def pictures : (Nat → Option (List Nat)) → List (List Nat) → Py (Nat → Option (List Nat))
  | files, [] => .ok files
  | files, p :: ps => do
    let K ← numCommunities (p.map Int.ofNat)
    pictures (Function.update files K (some p)) ps

/-- The search loop of `find_example_with_4_stable_partitions`
(`/repo/experiments/hierarchical_SBM_test/hierarchical_SBM_test.py:73-97`); `trial i` are the stable partitions found by the first
Louvain run on the `i`-th graph.  The result is the number of that graph with the pictures.  `none`: still searching after `fuel`
graphs.  The second Louvain run only serves the plot of the estimates. -/
def exampleSearch (trial : Nat → Run (List (List Nat))) : (fuel i : Nat) → Run (Nat × (Nat → Option (List Nat)))
  | 0, _ => ExceptT.mk none
  | fuel + 1, i => do
    let stable ← trial i
    let Ks ← Run.ofPy (stable.mapM fun p => numCommunities (p.map Int.ofNat))
    if 3 < (Ks.filter fun K => K ≤ 9).length then do
      let files ← Run.ofPy (pictures (fun _ => none) stable)
      return (i, files)
    else exampleSearch trial fuel (i + 1)

/-- The stable partitions with `K` communities in `plot_stable_partitions`
(`/repo/experiments/karate_club_test/karate_club_test.py:64-75`).  The graph object keeps the weights that `gamma_estimate` gives
it. -/
noncomputable def karateStable (env : PruneEnv) (G : Graph ℝ) (parts : List (List Nat)) (K : Nat) :
    Run (List (List Nat) × Graph ℝ) := do
  let kept ← Run.ofPy (restrictParts env.setOrder (some K) (env.setOrder parts))
  if 0 < kept.length then do
    let ranges ← champ2D env.toChampEnv G kept 0 2 false
    let ests ← Run.ofPy (rangesToGammaEstimates env.test G ranges)
    return (stablePartitions2D ests.1, ests.2)
  else return ([], G)

/-- `for K in range(2, 5)` (`/repo/experiments/karate_club_test/karate_club_test.py:64-75`): the drawn partitions, by number of
communities and position. -/
noncomputable def karateDrawn (env : PruneEnv) (parts : List (List Nat)) :
    List Nat → Graph ℝ → Run (List ((Nat × Nat) × List Nat))
  | [], _ => return []
  | K :: Ks, G => do
    let r ← karateStable env G parts K
    let rest ← karateDrawn env parts Ks r.2
    return (r.1.zipIdx.map fun (p, i) => ((K, i), p)) ++ rest

end Verif
