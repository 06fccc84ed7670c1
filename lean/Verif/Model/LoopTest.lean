import Verif.Model.Prune
import Verif.Model.Iterate

/-!
# The search for loops in the gamma estimates (`experiments/estimation_loop_test`)

Plotting, printing, the random graphs and the number of trials are not modelled.
-/

namespace Verif

/-- An entry `(gamma_start, gamma_end, membership, gamma_estimate)` of `gamma_estimates`. -/
abbrev RangeEstimate (α : Type) := ℝ × ℝ × List α × Option (Fl ℝ)

/-- `gamma_to_domain` (`/repo/experiments/estimation_loop_test/estimation_loop_test.py:45-49`). -/
noncomputable def gammaToDomain {α : Type} (ests : List (RangeEstimate α)) (gamma : Fl ℝ) :
    Option (List α) × Option (Fl ℝ) :=
  match ests.find? fun e => Fl.le (.fin e.1) gamma && Fl.le gamma (.fin e.2.1) with
  | some e => (some e.2.2.1, e.2.2.2)
  | none => (none, none)

/-- `for update_iteration in range(n)` (`/repo/experiments/estimation_loop_test/estimation_loop_test.py:54-62`): whether the
loop ends without `break`, so that its `else` clause runs. -/
noncomputable def updatesRunOut {α : Type} [DecidableEq α] (ests : List (RangeEstimate α)) :
    Nat → Option (List α) × Option (Fl ℝ) → Bool
  | 0, _ => true
  | n + 1, (oldMembership, oldEstimate) =>
    match oldEstimate with
    | none => false
    | some g =>
      let new := gammaToDomain ests g
      if oldMembership = new.1 then false else updatesRunOut ests n new

/-- Whether "loop detected" is reported (`/repo/experiments/estimation_loop_test/estimation_loop_test.py:51-68`). -/
noncomputable def loopDetected {α : Type} [DecidableEq α] (ests : List (RangeEstimate α)) : Bool :=
  ests.any fun e => updatesRunOut ests 1000 (some e.2.2.1, e.2.2.2)

/-- One trial on the partitions found (`/repo/experiments/estimation_loop_test/estimation_loop_test.py:34-68`): whether a loop
is reported. -/
noncomputable def loopTrial (env : ChampEnv) (test : Graph ℝ → Bool) (G : Graph ℝ) (parts : List (List Nat)) : Run Bool := do
  let ranges ← champ2D env G parts 0 3 true
  let estG ← Run.ofPy (rangesToGammaEstimates test G ranges)
  return loopDetected estG.1

/-- The test on two partitions (`/repo/experiments/estimation_loop_test/estimation_loop_test_no_louvain.py:18-31`);
`quality G c γ` is leidenalg's `part.quality(resolution_parameter=γ)`.  Simplification: infinite estimates, which do not
occur (C27), count as failure. -/
noncomputable def loopPair (test : Graph ℝ → Bool) (quality : Graph ℝ → List Nat → ℝ → ℝ) (G : Graph ℝ) (p1 p2 : List Nat) :
    Py Bool := do
  let g1 ← gammaEstimate test G p1
  let g2 ← gammaEstimate test g1.2 p2
  match g1.1, g2.1 with
  | some (.fin g1'), some (.fin g2') =>
    let part1 ← leidenPartWithMembership g2.2 p1
    let part2 ← leidenPartWithMembership g2.2 p2
    return decide (quality g2.2 part2 g2' < quality g2.2 part1 g2') && decide (quality g2.2 part1 g1' < quality g2.2 part2 g1')
  | _, _ => return false

end Verif
