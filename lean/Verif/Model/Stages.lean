import Mathlib.Logic.Function.Basic
import Verif.Model.LfrRuns

/-!
# Scripts with cached intermediate results

The experiment scripts store intermediate results in files and compute a file only if it does not exist.  Modelled: the order of
the checks, reads and writes of the pickle files of seven scripts.  What is computed is arbitrary (it may also be an exception);
drawing and the files that the user provides (`EL*.dat`, the SNAP graphs) are part of the computation.
-/

namespace Verif

/-- A file name; `parts i` is `f"parts{i}.p"`. -/
inductive FileName where
  | named (s : String)
  | parts (i : Nat)
  deriving DecidableEq

/-- A cached result: the file it is stored in and the files it is computed from. -/
structure Product where
  name : FileName
  sources : List FileName
  deriving DecidableEq

/-- A script: phases, in each of which the missing products are computed, all before the first is written; then the files read for
the figures. -/
structure Plan where
  phases : List (List Product)
  reads : List FileName

/-- The directory. -/
abbrev Store (V : Type) := FileName → File V

section
variable {V : Type}

/-- `pickle.load(open(name, "rb"))`. -/
def loadFile (d : Store V) (name : FileName) : Except Stop V :=
  match d name with
  | .absent => .error .notFound
  | .torn => .error .unpickling
  | .full v => .ok v

/-- `pickle.dump(value, open(name, "wb"))`, as in `/repo/experiments/pamfil_synthetic_networks/easy_regime_generation.py:268`. -/
def dumpFile (name : FileName) (v : V) : Script (Store V) Unit := do
  let d ← Script.files
  Script.put (Function.update d name .torn)
  Script.put (Function.update d name (.full v))

/-- Write the computed values one after the other (`/repo/experiments/social_networks/SNAP_boxplot.py:110-111`). -/
def dumpFiles : List (FileName × V) → Script (Store V) Unit
  | [] => pure ()
  | nv :: rest => do
    dumpFile nv.1 nv.2
    dumpFiles rest

/-- Compute a product from its sources. -/
def produce (compute : FileName → List V → Except Stop V) (d : Store V) (p : Product) : Except Stop (FileName × V) := do
  let vs ← p.sources.mapM (loadFile d)
  let v ← compute p.name vs
  return (p.name, v)

/-- `not os.path.exists(name)`. -/
def File.isAbsent : File V → Bool
  | .absent => true
  | _ => false

/-- One phase (`/repo/experiments/pamfil_synthetic_networks/easy_regime_generation.py:265-268`, with several products
`/repo/experiments/social_networks/SNAP_boxplot.py:107-112`). -/
def runPhase (compute : FileName → List V → Except Stop V) (ps : List Product) : Script (Store V) Unit := do
  let d ← Script.files
  let vs ← Script.lift ((ps.filter fun p => (d p.name).isAbsent).mapM (produce compute d))
  dumpFiles vs

/-- The phases of a script. -/
def runPhases (compute : FileName → List V → Except Stop V) : List (List Product) → Script (Store V) Unit
  | [] => pure ()
  | ps :: rest => do
    runPhase compute ps
    runPhases compute rest

/-- A script: its phases, then the figures, which load the files in `reads`; the result is what they load. -/
def runPlan (compute : FileName → List V → Except Stop V) (plan : Plan) : Script (Store V) (List V) := do
  runPhases compute plan.phases
  let d ← Script.files
  Script.lift (plan.reads.mapM (loadFile d))

end

/-- A phase with one product. -/
def single (name : String) (sources : List String) : List Product := [⟨.named name, sources.map .named⟩]

/-- `/repo/experiments/pamfil_synthetic_networks/easy_regime_generation.py:258-304`. -/
def easyRegime : Plan :=
  ⟨[single "easy_regime_multilayer.p" [],
    single "easy_regime_test_results.p" ["easy_regime_multilayer.p"],
    single "easy_regime_50K_louvain.p" ["easy_regime_multilayer.p"],
    single "synthetic_champ_domains_with_estimates.p" ["easy_regime_multilayer.p", "easy_regime_50K_louvain.p"],
    single "synthetic_champ_2-community_domains_with_estimates.p" ["easy_regime_multilayer.p", "easy_regime_50K_louvain.p"]],
   ["easy_regime_multilayer.p", "easy_regime_test_results.p", "synthetic_champ_domains_with_estimates.p",
    "easy_regime_multilayer.p", "synthetic_champ_domains_with_estimates.p", "synthetic_champ_domains_with_estimates.p",
    "synthetic_champ_2-community_domains_with_estimates.p"].map .named⟩

/-- `/repo/experiments/pamfil_synthetic_networks/hard_regime_generation.py:8-57`. -/
def hardRegime : Plan :=
  ⟨[single "hard_regime_multilayer.p" [],
    single "hard_regime_test_results.p" ["hard_regime_multilayer.p"],
    single "hard_regime_50K_louvain.p" ["hard_regime_multilayer.p"],
    single "synthetic_champ_domains_with_estimates_hard_regime.p" ["hard_regime_multilayer.p", "hard_regime_50K_louvain.p"],
    single "synthetic_champ_2-community_domains_with_estimates_hard_regime.p"
      ["hard_regime_multilayer.p", "hard_regime_50K_louvain.p"]],
   ["hard_regime_multilayer.p", "hard_regime_test_results.p", "synthetic_champ_domains_with_estimates_hard_regime.p",
    "hard_regime_multilayer.p", "synthetic_champ_domains_with_estimates_hard_regime.p",
    "synthetic_champ_domains_with_estimates_hard_regime.p",
    "synthetic_champ_2-community_domains_with_estimates_hard_regime.p"].map .named⟩

/-- `/repo/experiments/lazega_law_firm/lazega_figures.py:332-349`, with the files loaded by the figures (`:104,154,182,212,253`). -/
def lazegaPlan : Plan :=
  ⟨[single "lazega_1M_louvain.p" [],
    single "lazega_CHAMP.p" ["lazega_1M_louvain.p"],
    single "lazega_CHAMP2.p" ["lazega_1M_louvain.p"],
    single "lazega_CHAMP3.p" ["lazega_1M_louvain.p"],
    single "lazega_CHAMP4.p" ["lazega_1M_louvain.p"],
    single "lazega_CHAMP5.p" ["lazega_1M_louvain.p"],
    single "lazega_CHAMP6.p" ["lazega_1M_louvain.p"],
    single "lazega_CHAMP7.p" ["lazega_1M_louvain.p"]],
   ["lazega_CHAMP.p", "lazega_CHAMP4.p", "lazega_CHAMP3.p", "lazega_CHAMP2.p", "lazega_CHAMP2.p", "lazega_CHAMP3.p",
    "lazega_CHAMP4.p", "lazega_CHAMP.p", "lazega_CHAMP2.p", "lazega_CHAMP3.p", "lazega_CHAMP4.p"].map .named⟩

/-- `/repo/experiments/social_networks/SNAP_boxplot.py:197-210` with `n` graphs. -/
def snapPlan (n : Nat) : Plan :=
  ⟨[(List.range n).map fun i => ⟨.parts i, []⟩,
    single "maximum_gammas.p" [],
    [⟨.named "boxplot_results.p", (List.range n).map .parts⟩]],
   ["maximum_gammas.p", "boxplot_results.p"].map .named⟩

/-- `/repo/experiments/hierarchical_SBM_test/hierarchical_SBM_test.py:124-129`. -/
def hierarchicalPlan : Plan :=
  ⟨[single "hierarchical_stability_probabilities.p" []], ["hierarchical_stability_probabilities.p"].map .named⟩

/-- `/repo/experiments/example_figures/hierarchical_sbm_plot.py:16-29`. -/
def scalesPlan : Plan := ⟨[single "community_scales_graph.p" []], ["community_scales_graph.p"].map .named⟩

/-- `/repo/experiments/miscellaneous_tests/runtime_comparison_with_louvain.py:46-50`. -/
def runtimePlan : Plan := ⟨[single "runtime_comparison_results.p" []], ["runtime_comparison_results.p"].map .named⟩

/-- The seven scripts. -/
def cachedScripts (n : Nat) : List Plan :=
  [easyRegime, hardRegime, lazegaPlan, snapPlan n, hierarchicalPlan, scalesPlan, runtimePlan]

end Verif
