import Mathlib.Logic.Relation
import Verif.Model.LfrRuns

/-!
# Interrupted and resumed runs of the LFR benchmark (specification)
-/

namespace Verif.Spec
open Verif
variable {Gr R : Type}

/-- What a user may start: `generate_LFR_graphs`, `run_experiment`, or the whole script. -/
inductive Command where
  | generate (num : Nat) (mu : ℝ)
  | experiment (runs num : Nat) (mus : List ℝ)
  | main (runs num : Nat) (mus : List ℝ)

/-- The files visited by a command. -/
noncomputable def Command.visited (fmt : ℝ → String) (o : Workers Gr R) (d : Disk Gr R) : Command → List (Disk Gr R)
  | .generate num mu => (generateGraphs fmt o num mu d).1
  | .experiment runs num mus => (runExperiment fmt o runs num mus d).1
  | .main runs num mus => (lfrMain fmt o runs num mus d).1

/-- The workers deliver graphs generated for the mixing parameter, and possible scores of the graph they are given. -/
structure SoundWorkers (Generated : ℝ → Gr → Prop) (Possible : Nat → String → Gr → R → Prop) (o : Workers Gr R) : Prop where
  graphs : ∀ mu rs, some rs ∈ o.batches mu → ∀ G, some G ∈ rs → Generated mu G
  scores : ∀ runs mu method i G r, o.score runs mu method i G = .ok r → Possible runs method G r

/-- `d'` are the files after a command was started with the files `d` and ended, raised an exception or was killed at any
moment. -/
def Interrupted (fmt : ℝ → String) (Generated : ℝ → Gr → Prop) (Possible : Nat → String → Gr → R → Prop) (d d' : Disk Gr R) : Prop :=
  ∃ (o : Workers Gr R) (c : Command), SoundWorkers Generated Possible o ∧ d' ∈ d :: c.visited fmt o d

/-- Any number of such commands, one after the other. -/
def History (fmt : ℝ → String) (Generated : ℝ → Gr → Prop) (Possible : Nat → String → Gr → R → Prop) :
    Disk Gr R → Disk Gr R → Prop := Relation.ReflTransGen (Interrupted fmt Generated Possible)

/-- No files. -/
def emptyDisk : Disk Gr R := ⟨fun _ => .absent, .absent, .absent⟩

/-- The results for one mixing parameter. -/
structure Row (R : Type) where
  mu : ℝ
  data1 : List R
  data2 : List R
  data3 : List R
  data4 : List R

/-- The four dictionaries holding the given rows. -/
def plotsOf (rows : List (Row R)) : Plots R :=
  ⟨rows.map fun r => (r.mu, r.data1), rows.map fun r => (r.mu, r.data2), rows.map fun r => (r.mu, r.data3),
    rows.map fun r => (r.mu, r.data4)⟩

/-- A finished row: the file for its mixing parameter and some number of graphs holds exactly that many graphs, and the row
has a possible result of each of the four methods for every one of these graphs, in order. -/
def FinishedRow (fmt : ℝ → String) (Possible : Nat → String → Gr → R → Prop) (d : Disk Gr R) (r : Row R) : Prop :=
  ∃ (num runs : Nat) (gs : List Gr), d.graphs (num, fmt r.mu) = .full gs ∧ gs.length = num ∧
    List.Forall₂ (Possible runs "modularity pruning") gs r.data1 ∧
    List.Forall₂ (Possible runs "gamma sweep") gs r.data2 ∧
    List.Forall₂ (Possible runs "modularity pruning ground truth K") gs r.data3 ∧
    List.Forall₂ (Possible runs "ground truth gamma") gs r.data4

/-- The dictionaries hold finished rows only, for different mixing parameters. -/
def FinishedRows (fmt : ℝ → String) (Possible : Nat → String → Gr → R → Prop) (d : Disk Gr R) (P : Plots R) : Prop :=
  ∃ rows : List (Row R), P = plotsOf rows ∧ (rows.map Row.mu).Nodup ∧ ∀ r ∈ rows, FinishedRow fmt Possible d r

/-- Every complete graph file holds the number of graphs in its name, all generated for one mixing parameter that is
formatted as in its name. -/
def GoodGraphs (fmt : ℝ → String) (Generated : ℝ → Gr → Prop) (d : Disk Gr R) : Prop :=
  ∀ k gs, d.graphs k = .full gs → gs.length = k.1 ∧ ∃ mu, fmt mu = k.2 ∧ ∀ G ∈ gs, Generated mu G

/-- The graph files of `d` are unchanged in `d'`. -/
def KeepsGraphs (d d' : Disk Gr R) : Prop := ∀ k, d.graphs k ≠ .absent → d'.graphs k = d.graphs k

/-- The graphs delivered, in order. -/
def delivered (batches : List (Option (List (Option Gr)))) : List Gr :=
  (batches.filterMap id).flatten.filterMap id

/-- `P'` has all the entries of `P`, in the same places, and possibly more after them. -/
def Extends (P P' : Plots R) : Prop :=
  P.plot1 <+: P'.plot1 ∧ P.plot2 <+: P'.plot2 ∧ P.plot3 <+: P'.plot3 ∧ P.plot4 <+: P'.plot4

/-- The mixing parameters in `mus` that are not in `done`, each once, in order of first appearance. -/
noncomputable def missing (done : List ℝ) : List ℝ → List ℝ
  | [] => []
  | mu :: mus => open Classical in if mu ∈ done then missing done mus else mu :: missing (done ++ [mu]) mus

/-- The dictionaries a run starts with: those of the partial results if there are any. -/
def Loaded (d : Disk Gr R) (P : Plots R) : Prop :=
  d.partialResults = .full P ∨ d.partialResults = .absent ∧ P = ⟨[], [], [], []⟩

end Verif.Spec
