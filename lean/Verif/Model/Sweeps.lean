import Verif.Model.Iterate
import Verif.Model.Snap
import Verif.Model.Stability

/-!
# Sweeps over starting values of the iterative estimation (`experiments/karate_club_gamma_estimates`,
`experiments/pamfil_synthetic_networks/easy_regime_generation.py`)

Progress bars and the drawing are not modelled.  The karate club and the pickled network are arbitrary graphs here.
-/

namespace Verif

/-- `try: x except ValueError: …`: `none` if a `ValueError` was caught
(`/repo/experiments/karate_club_gamma_estimates/karate_club_gamma_estimates.py:23-28,44-49`,
`/repo/experiments/karate_club_gamma_estimates/karate_club_estimates_per_community.py:15-19`,
`/repo/experiments/pamfil_synthetic_networks/easy_regime_generation.py:96-102`). -/
def Prog.tryValueError {α : Type} (x : Prog α) : Prog (Option α) := fun w =>
  match x w with
  | (.ok a, w') => (.ok (some a), w')
  | (.error (.valueError _), w') => (.ok none, w')
  | (.error e, w') => (.error e, w')

/-- The content of the graph object after a call of the iterative estimation, also if it raised: the first statement gives it
weights (`/repo/utilities/parameter_estimation.py:35-36,167-171`). -/
def graphAfter (env : LeidenEnv) (G : Graph ℝ) : Graph ℝ :=
  match ensureWeight env.test G.ecount G with
  | .ok G' => G'
  | .error _ => G

/-- `trials` calls of `iterative_monolayer_resolution_parameter_estimation(G, gamma=g0, max_iter=…, method=method)` in which
`ValueError`s are ignored: the returned gammas and the graph
(`/repo/experiments/karate_club_gamma_estimates/karate_club_gamma_estimates.py:22-28,43-49`); `tol` has its default. -/
noncomputable def estimationTrials (env : LeidenEnv) (method : String) (maxIter : Nat) (g0 : ℝ) :
    Nat → Graph ℝ → Prog (List (Fl ℝ) × Graph ℝ)
  | 0, G => pure ([], G)
  | n + 1, G => do
    let r ← Prog.tryValueError (iterateMono env G g0 (1 / 100) maxIter false method)
    let rest ← estimationTrials env method maxIter g0 n (graphAfter env G)
    match r with
    | some x => pure (x.1 :: rest.1, rest.2)
    | none => pure rest

/-- `run_estimation_until_convergence(method)` on the given starting values
(`/repo/experiments/karate_club_gamma_estimates/karate_club_gamma_estimates.py:14-32`): `(gamma_0s, gamma_fs)`. -/
noncomputable def untilConvergence (env : LeidenEnv) (method : String) :
    List ℝ → Graph ℝ → Prog (List ℝ × List (Fl ℝ))
  | [], _ => pure ([], [])
  | g0 :: g0s, G => do
    let r ← estimationTrials env method 25 g0 (if method = "louvain" then 10 else 1) G
    let rest ← untilConvergence env method g0s r.2
    pure (r.1.map (fun _ => g0) ++ rest.1, r.1 ++ rest.2)

/-- `total / count` for the gammas returned by the successful calls
(`/repo/experiments/karate_club_gamma_estimates/karate_club_gamma_estimates.py:40-51`). -/
noncomputable def averageMovement (g0 : ℝ) (es : List (Fl ℝ)) : Fl ℝ :=
  Fl.div (Fl.sum (es.map fun e => Fl.sub e (.fin g0))) (.fin (es.length : ℝ))

/-- The arrows of `plot_one_step_estimation(method)` on the given starting values
(`/repo/experiments/karate_club_gamma_estimates/karate_club_gamma_estimates.py:35-56`): `(x, y, dx)`; `dy` is 0. -/
noncomputable def oneStepArrows (env : LeidenEnv) (method : String) : List ℝ → Graph ℝ → Prog (List (ℝ × ℝ × Fl ℝ))
  | [], _ => pure []
  | g0 :: g0s, G => do
    let r ← estimationTrials env method 1 g0 (if method = "louvain" then 100 else 1) G
    let rest ← oneStepArrows env method g0s r.2
    if 0 < r.1.length then pure ((g0, g0, averageMovement g0 r.1) :: rest) else pure rest

/-- The five repetitions at a grid point in `run_pamfil_iteration`
(`/repo/experiments/pamfil_synthetic_networks/easy_regime_generation.py:95-102,111-117`): the returned `(gamma, omega)` and the
graphs; `gamma_tol`, `omega_tol`, `omega_max` and the model have their defaults. -/
noncomputable def multiTrials (env : LeidenEnv) (obj : Nat) (layers : List Nat) (g0 o0 : ℝ) :
    Nat → Graph ℝ → Graph ℝ → Prog (List (Fl ℝ × ℝ) × Graph ℝ × Graph ℝ)
  | 0, Gi, Gx => pure ([], Gi, Gx)
  | n + 1, Gi, Gx => do
    let r ← Prog.tryValueError (iterateMulti env obj Gi Gx layers g0 o0 (1 / 100) (5 / 100) 1000 1 "temporal" false)
    let rest ← multiTrials env obj layers g0 o0 n (graphAfter env Gi) (graphAfter env Gx)
    match r with
    | some x => pure ((x.1, x.2.1) :: rest.1, rest.2)
    | none => pure rest

/-- An entry `(g0, o0, gdiffs, odiffs)` of `values`. -/
abbrev GridValue := ℝ × ℝ × List (Fl ℝ) × List ℝ

/-- `run_pamfil_iteration` on the grid points in the order in which they are visited
(`/repo/experiments/pamfil_synthetic_networks/easy_regime_generation.py:109-121`). -/
noncomputable def gridIteration (env : LeidenEnv) (obj : Nat) (layers : List Nat) :
    List (ℝ × ℝ) → Graph ℝ → Graph ℝ → Prog (List GridValue)
  | [], _, _ => pure []
  | (g0, o0) :: pts, Gi, Gx => do
    let r ← multiTrials env obj layers g0 o0 5 Gi Gx
    let rest ← gridIteration env obj layers pts r.2.1 r.2.2
    pure ((g0, o0, r.1.map (fun e => Fl.sub e.1 (.fin g0)), r.1.map (fun e => e.2 - o0)) :: rest)

/-- The grid (`/repo/experiments/pamfil_synthetic_networks/easy_regime_generation.py:20-23,105-110`). -/
noncomputable def pamfilGrid : List (ℝ × ℝ) :=
  (linspace (6 / 10) (145 / 100) 15).flatMap fun g0 => (linspace (4 / 10) (16 / 10) 15).map fun o0 => (g0, o0)

/-- `np.mean` of a list of floats; NaN when empty (`/repo/experiments/pamfil_synthetic_networks/easy_regime_generation.py:145`). -/
noncomputable def flMean (l : List (Fl ℝ)) : Fl ℝ := if l = [] then .nan else Fl.div (Fl.sum l) (.fin (l.length : ℝ))

/-- The arrow `(x, y, dx, dy)` of a grid point in `plot_pamfil_iteration`
(`/repo/experiments/pamfil_synthetic_networks/easy_regime_generation.py:144-149`). -/
noncomputable def gridArrow (v : GridValue) : ℝ × ℝ × Fl ℝ × Fl ℝ :=
  (v.2.1, v.1, Fl.mul (.fin (1 / 10)) (flMean (v.2.2.2.map .fin)), Fl.mul (.fin (1 / 10)) (flMean v.2.2.1))

/-- `one_run(gamma)` (`/repo/experiments/karate_club_gamma_estimates/karate_club_estimates_per_community.py:13-19`); `method` and `tol`
have their defaults.  `part` is not `None` after an iteration. -/
noncomputable def oneRun (env : LeidenEnv) (G : Graph ℝ) (gamma : ℝ) : Prog (Option (Fl ℝ × Nat)) :=
  Prog.tryValueError do
    let r ← iterateMono env G gamma (1 / 100) 1 false "leiden"
    match r.2.1 with
    | none => Prog.lift (.error .attributeError)
    | some c => do
      let K ← Prog.lift (numCommunities (c.map Int.ofNat))
      pure (r.1, K)

/-- The pairs `(gamma, K)` kept by the study per number of communities, from the results of the calls
(`/repo/experiments/karate_club_gamma_estimates/karate_club_estimates_per_community.py:23`): unpacking `zip(*[])` raises
`ValueError`. -/
def keptRuns (results : List (Option (ℝ × Nat))) : Py (List ℝ × List Nat) :=
  let kept := results.reduceOption
  if kept = [] then .error (.valueError "not enough values to unpack (expected 2, got 0)")
  else .ok (kept.map Prod.fst, kept.map Prod.snd)

/-- `plt.hist` with weights (numpy): the sum of the weights of the values in each bin; bins contain their left end, the last one both
ends. -/
noncomputable def histogram (edges : List ℝ) (data : List (ℝ × ℝ)) : List ℝ :=
  (List.range (edges.length - 1)).map fun j =>
    ((data.filter fun x => decide (edges.getD j 0 ≤ x.1 ∧
      (x.1 < edges.getD (j + 1) 0 ∨ (j + 2 = edges.length ∧ x.1 = edges.getD (j + 1) 0)))).map Prod.snd).sum

/-- The histograms, by number of communities
(`/repo/experiments/karate_club_gamma_estimates/karate_club_estimates_per_community.py:26-35`).  The estimates are finite numbers
(C27). -/
noncomputable def perKHistograms (results : List (Option (ℝ × Nat))) : Py (List (Nat × List ℝ)) := do
  let kept ← keptRuns results
  if ¬ (∀ g ∈ kept.1, 6 / 10 < g ∧ g < 16 / 10) then .error .assertionError
  else
    return (List.range' 2 8).filterMap fun fixedK =>
      let gs := (kept.1.zip kept.2).filterMap fun x => if x.2 = fixedK then some x.1 else none
      if 0 < gs.length then some (fixedK, histogram (linspace (6 / 10) (16 / 10) 100) (gs.map fun g => (g, 1 / (gs.length : ℝ))))
      else none

end Verif
