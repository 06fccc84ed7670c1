import Verif.Model.Checks
import Verif.Model.Estimation

/-!
# The directed-consistency tests

`tests/test_monolayer_parameter_estimation.py:41-51`, `tests/test_multiplex_parameter_estimation.py:85-107`,
`tests/test_temporal_multilevel_parameter_estimation.py:88-121`: the estimates of a graph are compared with those of its
directed version.  The estimator is an argument, so that what the tests can notice can be stated.
-/

namespace Verif

/-- `G.to_directed()`: every edge becomes two arcs, with its attributes; igraph leaves a graph that is directed already as it is
(`/repo/tests/test_monolayer_parameter_estimation.py:48`, `/repo/tests/test_multiplex_parameter_estimation.py:102`,
`/repo/tests/test_temporal_multilevel_parameter_estimation.py:106,117`). -/
def Graph.toDirected {F : Type} (G : Graph F) : Graph F :=
  if G.directed then G
  else ⟨G.vcount, true, G.edges ++ G.edges.map Prod.swap, G.weight.map fun ws => ws ++ ws⟩

/-- `assert_almost_equal_or_both_none_or_nan` (`/repo/tests/shared_testing_functions.py:94-100`); `isnan(None)` and the
subtraction of `None` are `TypeError`s. -/
noncomputable def sameEstimate : Option (Fl ℝ) → Option (Fl ℝ) → Py Unit
  | none, none => .ok ()
  | none, some _ => .error .assertionError
  | some _, none => .error .typeError
  | some .nan, some .nan => .ok ()
  | some .nan, some _ => .error .assertionError
  | some x, some y => assertAlmostEqual x y

/-- `test_directed_consistency_igraph_famous` for one graph and one membership
(`/repo/tests/test_monolayer_parameter_estimation.py:44-51`); returns the graph as it is left. -/
noncomputable def checkDirectedGamma (est : Graph ℝ → List Nat → Py (Option (Fl ℝ) × Graph ℝ)) (G : Graph ℝ) (c : List Nat) :
    Py (Graph ℝ) := do
  let u ← est G c
  let d ← est u.2.toDirected c
  sameEstimate u.1 d.1
  return d.2

/-- An estimator of gamma and omega, which may set the weights of the graph. -/
abbrev Estimator := Graph ℝ → List Nat → Py ((Option (Fl ℝ) × ℝ) × Graph ℝ)

/-- One comparison (`/repo/tests/test_multiplex_parameter_estimation.py:99-107`,
`/repo/tests/test_temporal_multilevel_parameter_estimation.py:103-111,114-121`); returns the graph as it is left. -/
noncomputable def compareDirected (est : Estimator) (G : Graph ℝ) (c : List Nat) : Py (Graph ℝ) := do
  let u ← est G c
  let d ← est u.2.toDirected c
  sameEstimate u.1.1 d.1.1
  sameEstimate (some (.fin u.1.2)) (some (.fin d.1.2))
  return d.2

/-- `test_directed_consistency_multiplex_SBM_leiden` for given graphs and partitions
(`/repo/tests/test_multiplex_parameter_estimation.py:96-107`). -/
noncomputable def checkDirectedMultiplex (est : String → Estimator) (G : Graph ℝ) (parts : List (List Nat)) : Py (Graph ℝ) :=
  parts.foldlM (compareDirected (est "multiplex")) G

/-- `test_directed_consistency_temporal_SBM_leiden` for given graphs and partitions
(`/repo/tests/test_temporal_multilevel_parameter_estimation.py:100-121`). -/
noncomputable def checkDirectedTemporal (est : String → Estimator) (G : Graph ℝ) (parts : List (List Nat)) : Py (Graph ℝ) :=
  parts.foldlM (fun G c => do
    let G ← compareDirected (est "temporal") G c
    compareDirected (est "multilevel") G c) G

end Verif
