import Verif.Model.Synthetic
import Verif.Model.Iterate
import Verif.Model.Stability
import Verif.Model.BlockModels

/-!
# The convergence tests of the iterative estimation

`tests/test_monolayer_parameter_estimation.py:16-39`, `tests/test_multiplex_parameter_estimation.py:17-57` and
`tests/test_temporal_multilevel_parameter_estimation.py:17-61`: draw a block model, compute the "ground truth" parameters from the
model's probabilities, run the iteration, compare.
-/

namespace Verif

/-- `interlayer_edges` of `generate_multiplex_SBM` (`/repo/tests/test_multiplex_parameter_estimation.py:22-26`): every vertex and
its copy in every other layer, both ways. -/
def multiplexEdges (n T : Nat) : List (Nat × Nat) :=
  (List.range T).flatMap fun s => ((List.range T).filter fun t => s ≠ t).flatMap fun t =>
    (List.range n).map fun v => (n * s + v, n * t + v)

/-- `G_interlayer` of `generate_multiplex_SBM` (`/repo/tests/test_multiplex_parameter_estimation.py:27`). -/
def multiplexGraph (n T : Nat) : Graph ℝ := { graphOfEdges (multiplexEdges n T) with directed := true }

/-- `math.log` of a float. -/
noncomputable def pyLogFl : Fl ℝ → Py (Fl ℝ)
  | .fin x => do
    let y ← pyLog x
    return .fin y
  | .pinf => .ok .pinf
  | .ninf => .error (.valueError "math domain error")
  | .nan => .ok .nan

/-- `a / b` for Python floats. -/
noncomputable def pyDivFl (a : Fl ℝ) : Fl ℝ → Py (Fl ℝ)
  | .fin y => if y = 0 then .error .zeroDivisionError else .ok (Fl.div a (.fin y))
  | b => .ok (Fl.div a b)

/-- `true_theta_in`, `true_theta_out`: `k = mean(all_degrees(G))`, `p * (2 * G.ecount()) / (k * k) / num_layers`, numpy numbers
(`/repo/tests/test_temporal_multilevel_parameter_estimation.py:37-39`,
`/repo/tests/test_multiplex_parameter_estimation.py:39-41`). -/
noncomputable def trueTheta (p : ℝ) (G : Graph ℝ) (T : Nat) : Fl ℝ :=
  let k := npMean (G.allDegrees.map fun (d : Nat) => (d : ℝ))
  Fl.div (Fl.div (.fin (p * (2 * G.ecount))) (Fl.mul k k)) (.fin (T : ℝ))

/-- `true_gamma` and `true_omega`; `scale` is 2 in the temporal test and the number of layers in the multiplex one
(`/repo/tests/test_temporal_multilevel_parameter_estimation.py:37-45`,
`/repo/tests/test_multiplex_parameter_estimation.py:39-46`). -/
noncomputable def trueValues (scale copying pIn pOut : ℝ) (K T : Nat) (G : Graph ℝ) : Py (Fl ℝ × Fl ℝ) := do
  let thetaIn := trueTheta pIn G T
  let thetaOut := trueTheta pOut G T
  let a ← pyLogFl thetaIn
  let b ← pyLogFl thetaOut
  let gamma := Fl.div (Fl.sub thetaIn thetaOut) (Fl.sub a b)
  let ratio ← pyDiv (copying * K) (1 - copying)
  let o ← pyLog (1 + ratio)
  let omega ← pyDivFl (.fin o) (Fl.mul (.fin scale) (Fl.sub a b))
  return (gamma, omega)

/-- `self.assertLess(abs(x - y), tol)` (`/repo/tests/test_temporal_multilevel_parameter_estimation.py:52-53,60-61`,
`/repo/tests/test_multiplex_parameter_estimation.py:56-57`, `/repo/tests/test_monolayer_parameter_estimation.py:39`). -/
noncomputable def assertClose (x y : Fl ℝ) (tol : ℝ) : Py Unit :=
  if Fl.lt (Fl.abs (Fl.sub x y)) (.fin tol) then .ok () else .error .assertionError

/-- `assert_temporal_SBM_correct_convergence` (`/repo/tests/test_temporal_multilevel_parameter_estimation.py:29-61`) with
`generate_temporal_SBM` (`:17-27`); `obj` is the identity of the intralayer graph object.  At least one layer is assumed. -/
noncomputable def temporalConvergence (env : LeidenEnv) (obj : Nat) (d : Draws) (first : List Nat) (copying : ℝ) (T : Nat)
    (pIn pOut : ℝ) : Prog Unit := do
  let K ← Prog.lift (numCommunities (first.map Int.ofNat))
  let net := testBlockModel d copying pIn pOut first T
  let truth ← Prog.lift (trueValues 2 copying pIn pOut K T net.1)
  let r ← iterateMulti env obj net.1 (couplingGraph first.length T) net.2 1 1 (1 / 100) (5 / 100) 1000 25 "temporal" false
  Prog.lift (assertClose truth.1 r.1 (5 / 100))
  Prog.lift (assertClose truth.2 (.fin r.2.1) (1 / 10))
  let s ← iterateMulti env obj r.2.2.2.1 r.2.2.2.2 net.2 1 1 (1 / 100) (5 / 100) 1000 25 "multilevel" false
  Prog.lift (assertClose truth.1 s.1 (5 / 100))
  Prog.lift (assertClose truth.2 (.fin s.2.1) (1 / 10))

/-- `assert_multiplex_SBM_correct_convergence` (`/repo/tests/test_multiplex_parameter_estimation.py:31-57`) with
`generate_multiplex_SBM` (`:17-29`).  At least one layer is assumed. -/
noncomputable def multiplexConvergence (env : LeidenEnv) (obj : Nat) (d : Draws) (first : List Nat) (copying : ℝ) (T : Nat)
    (pIn pOut : ℝ) : Prog Unit := do
  let K ← Prog.lift (numCommunities (first.map Int.ofNat))
  let net := testBlockModel d copying pIn pOut first T
  let truth ← Prog.lift (trueValues T copying pIn pOut K T net.1)
  let r ← iterateMulti env obj net.1 (multiplexGraph first.length T) net.2 1 (1 / 10) (1 / 100) (5 / 100) 1000 25 "multiplex" false
  Prog.lift (assertClose truth.1 r.1 (1 / 10))
  Prog.lift (assertClose truth.2 (.fin r.2.1) (2 / 10))

/-- The loop of `test_newman_synthetic_networks` (`/repo/tests/test_monolayer_parameter_estimation.py:22-39`) over the numbers of
blocks with the graphs drawn for them.  Simplification: see `newmanTrueGamma`. -/
noncomputable def newmanConvergence (env : LeidenEnv) : List (Nat × Graph ℝ) → Prog Unit
  | [] => pure ()
  | (q, G) :: rest => do
    let t ← Prog.lift (newmanTrueGamma G q)
    let r ← iterateMono env G 1 (1 / 100) 25 false "leiden"
    Prog.lift (assertClose (.fin t) r.1 (5 / 100))
    newmanConvergence env rest

end Verif
