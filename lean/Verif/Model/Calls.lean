import Verif.Model.LouvainPart
import Verif.Model.Studies
import Verif.Spec.Calls

/-!
# Calls through the deprecated names

The experiments call the functions of `louvain_utilities`; which function they reach and whether it takes the arguments they pass
depends on `__getattr__` (`Model/Louvain.lean`) and on the parameters of the function found.
-/

namespace Verif

open Verif.Spec

/-- One keyword argument: Python looks up the parameter and raises `TypeError` if there is none or it already has a value. -/
def bindKeyword {α : Type} (sig : List (Param α)) (slots : List (Option α)) (kv : String × α) : Py (List (Option α)) :=
  match sig.findIdx? (fun p => p.name == kv.1) with
  | none => .error .typeError
  | some i =>
    match slots[i]? with
    | some none => .ok (slots.set i (some kv.2))
    | _ => .error .typeError

/-- The value of a parameter after the arguments were assigned: its argument, else its default. -/
def bindDefault {α : Type} (ps : Param α × Option α) : Py α :=
  match ps.2 with
  | some v => .ok v
  | none => match ps.1.default with
    | some d => .ok d
    | none => .error .typeError

/-- Python's binding of the arguments of a call to the parameters of a function without `*args` and `**kwargs` (the language
reference, "Calls"; used by every call in `/repo`). -/
def bindArgs {α : Type} (sig : List (Param α)) (pos : List α) (kws : List (String × α)) : Py (List α) := do
  let slots ← kws.foldlM (bindKeyword sig) ((List.range sig.length).map fun i => pos[i]?)
  if sig.length < pos.length then .error .typeError
  else (sig.zip slots).mapM bindDefault

/-- The arguments that occur in the calls of the experiments. -/
inductive Arg where
  | graph (G : Graph ℝ)
  | number (x : ℝ)
  | numbers (xs : List ℝ)
  | labels (xs : List Nat)
  | bool (b : Bool)
  | none

/-- A parameter without default. -/
def required (name : String) : Param Arg := ⟨name, Option.none⟩

/-- A parameter with a default. -/
def optional (name : String) (d : Arg) : Param Arg := ⟨name, some d⟩

/-- The parameters of the functions of `leiden_utilities` (`/repo/utilities/leiden_utilities.py:13,27,51,56,60,68,88,106,152,157,171,
181,185,211,216-217`). -/
def leidenSignatures : List (String × List (Param Arg)) :=
  [("sorted_tuple", [required "t"]),
   ("singlelayer_leiden", [required "G", required "gamma", optional "return_partition" (.bool false)]),
   ("_wrapped_singlelayer_leiden", [required "args"]),
   ("leiden_part", [required "G"]),
   ("leiden_part_with_membership", [required "G", required "membership"]),
   ("split_intralayer_leiden_graph", [required "G_intralayer", required "layer_membership"]),
   ("_split_leiden_graph_layers_cached", [required "n", required "G_es", required "is_directed", required "layer_membership"]),
   ("multilayer_leiden", [required "G_intralayer", required "G_interlayer", required "layer_vec", required "gamma", required "omega",
     optional "optimiser" .none, optional "return_partition" (.bool false)]),
   ("_wrapped_multilayer_leiden", [required "args"]),
   ("multilayer_leiden_part", [required "G_intralayer", required "G_interlayer", required "layer_membership"]),
   ("multilayer_leiden_part_with_membership", [required "G_intralayer", required "G_interlayer", required "layer_membership",
     required "community_membership"]),
   ("repeated_leiden_from_gammas", [required "G", required "gammas"]),
   ("repeated_parallel_leiden_from_gammas", [required "G", required "gammas", optional "show_progress" (.bool true)]),
   ("repeated_leiden_from_gammas_omegas", [required "G_intralayer", required "G_interlayer", required "layer_vec", required "gammas",
     required "omegas"]),
   ("repeated_parallel_leiden_from_gammas_omegas", [required "G_intralayer", required "G_interlayer", required "layer_vec",
     required "gammas", required "omegas", optional "show_progress" (.bool true)])]

/-- The parameters of the functions that `louvain_utilities` still defines or re-exports
(`/repo/utilities/louvain_utilities.py:17,39,57,101,114,123,128-129`). -/
def louvainSignatures : List (String × List (Param Arg)) :=
  [("sorted_tuple", [required "t"]),
   ("check_multilayer_louvain_capabilities", [optional "fatal" (.bool true)]),
   ("multilayer_louvain", [required "G_intralayer", required "G_interlayer", required "layer_vec", required "gamma", required "omega",
     optional "optimiser" .none, optional "return_partition" (.bool false)]),
   ("multilayer_louvain_part", [required "G_intralayer", required "G_interlayer", required "layer_membership"]),
   ("multilayer_louvain_part_with_membership", [required "G_intralayer", required "G_interlayer", required "layer_membership",
     required "community_membership"]),
   ("repeated_louvain_from_gammas_omegas", [required "G_intralayer", required "G_interlayer", required "layer_vec", required "gammas",
     required "omegas"]),
   ("repeated_parallel_louvain_from_gammas_omegas", [required "G_intralayer", required "G_interlayer", required "layer_vec",
     required "gammas", required "omegas", optional "show_progress" (.bool true), optional "chunk_dispatch" (.bool true)])]

/-- The parameters of the function with a name; calling anything else (a module, a number, `None`) is a `TypeError`. -/
def signatureOf (sigs : List (String × List (Param Arg))) (name : List Char) : Py (List (Param Arg)) :=
  match sigs.find? (fun s => s.1.toList == name) with
  | some s => .ok s.2
  | none => .error .typeError

/-- `from modularitypruning.louvain_utilities import name` and `name(*pos, **kws)`: the function reached and the values of its
parameters (`/repo/utilities/louvain_utilities.py:30-36`). -/
def callDeprecated (inst : LouvainInstallation) (name : String) (pos : List Arg) (kws : List (String × Arg)) : Py (Attr × List Arg) := do
  let attr ← louvainGetattr (louvainOwnNames inst) leidenNames name.toList
  let sig ← match attr with
    | .own n => signatureOf louvainSignatures n
    | .leiden n => signatureOf leidenSignatures n
    | .none => .error .typeError
  let args ← bindArgs sig pos kws
  return (attr, args)

/-- A call in the experiments: the name, the positional arguments, the keyword arguments. -/
abbrev CallSite : Type := String × List Arg × List (String × Arg)

/-- The calls of the experiments through the deprecated module, with arbitrary arguments of the kinds that occur, without the two calls
of `staleCallSites`: `/repo/experiments/bistable_SBM/bistable_SBM_test_constant_probs.py:65-67`,
`lfr_benchmark_test/lfr_benchmark_test.py:123`, `karate_club_test/karate_club_test.py:22`, `lazega_law_firm/lazega_figures.py:75`,
`social_networks/SNAP_boxplot.py:104`, `estimation_loop_test/estimation_loop_test_no_louvain.py:18-19,27-28`,
`estimation_loop_test/estimation_loop_test.py:36`, `manual_CHAMP_test/manual_CHAMP.py:36,115-117`,
`pamfil_synthetic_networks/easy_regime_generation.py:129-131`, `miscellaneous_tests/simple_benchmark.py:40-41`. -/
def workingCallSites (G Gi Gx : Graph ℝ) (γ : ℝ) (γs ωs : List ℝ) (layers part : List Nat) : List CallSite :=
  [("repeated_parallel_louvain_from_gammas", [.graph G], [("gammas", .numbers γs), ("show_progress", .bool false)]),
   ("repeated_louvain_from_gammas", [.graph G, .numbers γs], []),
   ("repeated_parallel_louvain_from_gammas", [.graph G, .numbers γs], [("show_progress", .bool true)]),
   ("repeated_parallel_louvain_from_gammas_omegas", [.graph Gi, .graph Gx, .labels layers, .numbers γs, .numbers ωs], []),
   ("sorted_tuple", [.labels part], []),
   ("louvain_part_with_membership", [.graph G, .labels part], []),
   ("singlelayer_louvain", [.graph G, .number γ], []),
   ("repeated_parallel_louvain_from_gammas_omegas", [.graph Gi, .graph Gx, .labels layers],
     [("gammas", .numbers γs), ("omegas", .numbers ωs)])]

/-- The call in `run_louvain` (`/repo/experiments/hierarchical_SBM_test/hierarchical_SBM_test.py:45`) and in `generate_runtimes`
(`/repo/experiments/miscellaneous_tests/runtime_comparison_with_louvain.py:26`). -/
def staleCallSite (G : Graph ℝ) (γs : List ℝ) : CallSite :=
  ("repeated_parallel_louvain_from_gammas", [.graph G, .numbers γs], [("show_progress", .bool false), ("chunk_dispatch", .bool false)])

/-- `run_louvain(G)` (`/repo/experiments/hierarchical_SBM_test/hierarchical_SBM_test.py:43-46`); `run` is what the function reached
does with its arguments (arbitrary), `iters` is `gamma_iters`. -/
noncomputable def hierarchicalRunLouvain (inst : LouvainInstallation) (run : Attr × List Arg → Run (List (List Nat))) (G : Graph ℝ)
    (γ₀ γf : ℝ) (iters : Nat) : Run (List (List Nat)) := do
  let site := staleCallSite G (linspace γ₀ γf iters)
  let f ← Run.ofPy (callDeprecated inst site.1 site.2.1 site.2.2)
  run f

/-- The graph, its Louvain partitions and the stable ones of one trial
(`/repo/experiments/hierarchical_SBM_test/hierarchical_SBM_test.py:75-79,104-108`); `graphs i` is the `i`-th random graph. -/
noncomputable def hierarchicalTrial (env : PruneEnv) (inst : LouvainInstallation) (run : Nat → Attr × List Arg → Run (List (List Nat)))
    (graphs : Nat → Graph ℝ) (i : Nat) : Run (List (List Nat)) := do
  let parts ← hierarchicalRunLouvain inst (run i) (graphs i) 0 (5 / 2) 10000
  hierarchicalStable env (graphs i) parts

/-- `generate_runtimes(G, num_gammas)` (`/repo/experiments/miscellaneous_tests/runtime_comparison_with_louvain.py:18-37`) for a call
with the keyword arguments `kws`: the third list, `num_unique_partitions`, and the durations read from an arbitrary clock (`clock k` is
the `k`-th reading).  `run i` and `prune i` are what the function reached and `prune_to_stable_partitions` do in the `i`-th
pass (both arbitrary). -/
noncomputable def generateRuntimes (inst : LouvainInstallation) (kws : List (String × Arg))
    (run : Nat → Attr × List Arg → Run (List (List Nat))) (prune : Nat → Graph ℝ → List (List Nat) → ℝ → ℝ → Run (List (List Nat))) (clock : Nat → ℝ) (G : Graph ℝ) :
    (i : Nat) → List Nat → Run (List ℝ × List ℝ × List Nat)
  | _, [] => return ([], [], [])
  | i, n :: ns => do
    let f ← Run.ofPy (callDeprecated inst "repeated_parallel_louvain_from_gammas" [.graph G, .numbers (linspace 0 3 n)] kws)
    let parts ← run i f
    let _ ← prune i G parts 0 3
    let rest ← generateRuntimes inst kws run prune clock G (i + 1) ns
    return ((clock (4 * i + 1) - clock (4 * i)) :: rest.1, (clock (4 * i + 3) - clock (4 * i + 2)) :: rest.2.1, parts.length :: rest.2.2)

/-- The keyword arguments of the call as committed
(`/repo/experiments/miscellaneous_tests/runtime_comparison_with_louvain.py:26`). -/
def staleKeywords : List (String × Arg) := [("show_progress", .bool false), ("chunk_dispatch", .bool false)]

/-- The loop of `test` (`/repo/experiments/miscellaneous_tests/simple_benchmark.py:33-57`): `ours i` and `champs i` are the measured
durations of the `i`-th pass (arbitrary), `last` the latest CHAMP duration, `our` the latest own duration.  The result are `xs`, `ys1`
and `ys2`; `none`: still running after `fuel` passes. -/
noncomputable def benchmarkLoop (timeout : ℝ) (ours champs : Nat → ℝ) : (fuel i : Nat) → (our last : ℝ) → (iters : Nat) →
    Option (List Nat × List ℝ × List ℝ)
  | fuel, i, our, last, iters =>
    if our < timeout then
      match fuel with
      | 0 => none
      | fuel + 1 =>
        if last < timeout then
          (benchmarkLoop timeout ours champs fuel (i + 1) (ours i) (champs i) (iters + iters / 2)).map
            fun r => (iters :: r.1, ours i :: r.2.1, champs i :: r.2.2)
        else
          (benchmarkLoop timeout ours champs fuel (i + 1) (ours i) last (iters + iters / 2)).map
            fun r => (iters :: r.1, ours i :: r.2.1, r.2.2)
    else some ([], [], [])

/-- `test(louvain_iterations=…, timeout=…)` (`/repo/experiments/miscellaneous_tests/simple_benchmark.py:16-57`). -/
noncomputable def simpleBenchmark (timeout : ℝ) (ours champs : Nat → ℝ) (iters fuel : Nat) : Option (List Nat × List ℝ × List ℝ) :=
  benchmarkLoop timeout ours champs fuel 0 0 0 iters

end Verif
