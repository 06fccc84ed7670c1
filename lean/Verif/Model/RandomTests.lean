import Verif.Model.Checks
import Verif.Model.DirectedChecks
import Verif.Model.Synthetic
import Verif.Model.Warnings

/-!
# The randomised CHAMP tests as whole programs

`tests/test_champ_coefficients_2D.py`, `tests/test_champ_usage_2D.py`, `tests/test_champ_coefficients_3D.py`,
`tests/test_champ_usage_3D.py` and the generators of `tests/shared_testing_functions.py` they use.  Random numbers are arguments.
A loop that need not end is run with `fuel`; `none` means that it is still running (or that the pool is).
-/

namespace Verif

open Classical in
/-- `generate_connected_ER` (`/repo/tests/shared_testing_functions.py:8-12`): `draws k` is the `k`-th random graph. -/
noncomputable def connectedER (draws : Nat → Graph ℝ) : Nat → Nat → Option (Graph ℝ)
  | _, 0 => none
  | k, fuel + 1 => if (draws k).IsConnected then some (draws k) else connectedER draws (k + 1) fuel

/-- `uniform(a, b)` is `a + (b - a) * random()`; `generate_random_values` (`/repo/tests/shared_testing_functions.py:26-27`). -/
noncomputable def randomValues (u : Nat → ℝ) (num : Nat) (a b : ℝ) : List ℝ := (List.range num).map fun i => a + (b - a) * u i

/-- `generate_random_partitions` (`/repo/tests/shared_testing_functions.py:37-43`): `Ks i` is the `i`-th random number of communities
and `labels i k` the `k`-th tuple drawn for the `i`-th partition. -/
def randomPartitions (Ks : Nat → Nat) (labels : Nat → Nat → List Nat) (num fuel : Nat) : Option (List (List Nat)) :=
  (List.range num).mapM fun i => randomPartition (Ks i) (labels i) 0 fuel

/-- The random choices of one test. -/
structure TestDraws where
  graphs : Nat → Graph ℝ
  Ks : Nat → Nat
  labels : Nat → Nat → List Nat
  gammas : Nat → ℝ
  omegas : Nat → ℝ

/-- `assert_partition_coefficient_correctness_unweighted_ER` (`/repo/tests/test_champ_coefficients_2D.py:30-35`). -/
noncomputable def coefficientsTest2D (q : QualityFn) (rnd : Nat → Nat → Nat) (cpu : Nat) (sched : List Nat) (d : TestDraws)
    (num fuel : Nat) : Option (Py Unit) := do
  let G ← connectedER d.graphs 0 fuel
  let parts ← randomPartitions d.Ks d.labels num fuel
  let r ← partitionCoefficients2D (F := ℝ) rnd cpu sched G parts false
  return (do
    let coefficients ← r
    checkCoefficients2D q G parts coefficients)

/-- `assert_champ_correctness_unweighted_ER` (`/repo/tests/test_champ_usage_2D.py:31-38`). -/
noncomputable def champTest2D (q : QualityFn) (env : ChampEnv) (d : TestDraws) (num numGammas : Nat) (γ₀ γf : ℝ) (fuel : Nat) :
    Option (Py Unit) := do
  let G ← connectedER d.graphs 0 fuel
  let parts ← randomPartitions d.Ks d.labels num fuel
  let gammas := randomValues d.gammas numGammas γ₀ γf
  let r ← (champ2D env G parts γ₀ γf false : Option (Py (List (ℝ × ℝ × List Nat))))
  return (do
    let ranges ← r
    checkRanges2D q G parts ranges gammas)

/-- `assert_partition_coefficient_correctness_unweighted_ER` (`/repo/tests/test_champ_coefficients_3D.py:51-59`) with
`generate_connected_multilayer_ER` (`/repo/tests/shared_testing_functions.py:15-23`), in the process state `w`; `obj` is the identity
of the intralayer graph. -/
noncomputable def coefficientsTest3D (q : QualityFn) (test : Graph ℝ → Bool) (order : List Nat) (obj : Nat) (rnd : Nat → Nat → Nat)
    (cpu : Nat) (sched : List Nat) (d : TestDraws) (n T num fuel : Nat) (w : World) : Option (Py Unit) := do
  let G ← connectedER d.graphs 0 fuel
  match splitByLayer G n T with
  | .error e => return .error e
  | .ok (Gi, Gx, layers) => do
    let parts ← randomPartitions d.Ks d.labels num fuel
    let r ← partitionCoefficients3D (F := ℝ) rnd cpu sched Gi Gx layers parts
    return (do
      let coefficients ← r
      let _ ← (checkCoefficients3D q test order obj Gi Gx layers parts coefficients w).1
      return ())

/-- `assert_champ_correctness_unweighted_ER` (`/repo/tests/test_champ_usage_3D.py:69-83`). -/
noncomputable def champTest3D (q : QualityFn) (test : Graph ℝ → Bool) (obj : Nat) (env : ChampEnv) (d : TestDraws)
    (n T num numPoints : Nat) (γ₀ γf ω₀ ωf : ℝ) (fuel : Nat) (w : World) : Option (Py Unit) := do
  let G ← connectedER d.graphs 0 fuel
  match splitByLayer G n T with
  | .error e => return .error e
  | .ok (Gi, Gx, layers) => do
    let parts ← randomPartitions d.Ks d.labels num fuel
    let gammas := randomValues d.gammas numPoints γ₀ γf
    let omegas := randomValues d.omegas numPoints ω₀ ωf
    let r ← (champ3D env Gi Gx layers parts γ₀ γf ω₀ ωf : Option (Py (List (List (ℝ × ℝ) × List Nat))))
    return (do
      let domains ← r
      (checkDomains3D q test obj Gi Gx layers parts domains (gammas.zip omegas) w).1)

/-- The body of `test_partition_coefficient_correctness_igraph_famous_leiden`
(`/repo/tests/test_champ_coefficients_2D.py:75-84`) for one graph; `leiden` and `leiden'` are the memberships
`repeated_leiden_from_gammas` returned before and after `to_directed()`, as lists. -/
noncomputable def famousCoefficientsTest (q : QualityFn) (rnd : Nat → Nat → Nat) (cpu : Nat) (sched : List Nat) (G : Graph ℝ)
    (leiden leiden' : List (List Nat)) : Option (Py Unit) := do
  let r ← partitionCoefficients2D (F := ℝ) rnd cpu sched G leiden false
  match r with
  | .error e => return .error e
  | .ok coefficients =>
    match checkCoefficients2D q G leiden coefficients with
    | .error e => return .error e
    | .ok _ => do
      let D := G.toDirected
      let r' ← partitionCoefficients2D (F := ℝ) rnd cpu sched D leiden' false
      return (do
        let coefficients' ← r'
        checkCoefficients2D q D leiden' coefficients')

/-- The body of `test_champ_correctness_igraph_famous_leiden` (`/repo/tests/test_champ_usage_2D.py:86-95`) for one graph. -/
noncomputable def famousChampTest (q : QualityFn) (env : ChampEnv) (G : Graph ℝ) (u : Nat → ℝ)
    (leiden leiden' : List (List Nat)) : Option (Py Unit) := do
  let gammas := randomValues u 100 0 5
  let r ← (champ2D env G leiden 0 5 false : Option (Py (List (ℝ × ℝ × List Nat))))
  match r with
  | .error e => return .error e
  | .ok ranges =>
    match checkRanges2D q G leiden ranges gammas with
    | .error e => return .error e
    | .ok _ => do
      let D := G.toDirected
      let r' ← (champ2D env D leiden' 0 5 false : Option (Py (List (ℝ × ℝ × List Nat))))
      return (do
        let ranges' ← r'
        checkRanges2D q D leiden' ranges' gammas)

end Verif
