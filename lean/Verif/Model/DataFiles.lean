import Mathlib.Data.List.DropRight
import Verif.Model.Warnings
import Verif.Model.Checks
import Verif.Model.LfrRuns
import Verif.Model.Lazega

/-!
# Reading the data files of the experiments

`read_file` and `read_graphs` of `experiments/social_networks/SNAP_boxplot.py` and the files of the Lazega network
(`experiments/lazega_law_firm/lazega_figures.py:20-44`).  A text is a list of characters, with the line ends already translated to
`'\n'` by Python.  Simplifications: only ASCII whitespace and digits are recognised (Python also knows those of other scripts), and
`int` does not accept underscores between digits.
-/

namespace Verif

/-- `c.isspace()`. -/
def isSpaceChar (c : Char) : Bool :=
  c.toNat = 32 || (9 ≤ c.toNat && c.toNat ≤ 13) || (28 ≤ c.toNat && c.toNat ≤ 31)

/-- `file.readlines()`: the lines, each with its `'\n'` (`/repo/experiments/social_networks/SNAP_boxplot.py:21-22`,
`/repo/experiments/lazega_law_firm/lazega_figures.py:40-42`). -/
def readlines : List Char → List (List Char)
  | [] => []
  | c :: cs =>
    if c = '\n' then [c] :: readlines cs
    else match readlines cs with
      | [] => [[c]]
      | l :: ls => (c :: l) :: ls

/-- The word that begins a string and the words after it. -/
def wordsAux : List Char → List Char × List (List Char)
  | [] => ([], [])
  | c :: cs =>
    let r := wordsAux cs
    if isSpaceChar c then ([], if r.1 = [] then r.2 else r.1 :: r.2) else (c :: r.1, r.2)

/-- `line.split()` (`/repo/experiments/social_networks/SNAP_boxplot.py:24`,
`/repo/experiments/lazega_law_firm/lazega_figures.py:25`). -/
def pySplit (s : List Char) : List (List Char) :=
  let r := wordsAux s
  if r.1 = [] then r.2 else r.1 :: r.2

/-- `line.split(",")` (`/repo/experiments/social_networks/SNAP_boxplot.py:28`). -/
def splitComma : List Char → List (List Char)
  | [] => [[]]
  | c :: cs =>
    if c = ',' then [] :: splitComma cs
    else match splitComma cs with
      | [] => [[c]]
      | w :: ws => (c :: w) :: ws

/-- A non-empty string of digits, as a number. -/
def digitsValue (s : List Char) : Option Nat :=
  if s ≠ [] ∧ s.all Char.isDigit then some (s.foldl (fun n c => 10 * n + (c.toNat - 48)) 0) else none

/-- `int(x)` for a string (`/repo/experiments/social_networks/SNAP_boxplot.py:24,28`,
`/repo/experiments/lazega_law_firm/lazega_figures.py:25`): surrounding whitespace, a sign, digits. -/
def pyInt (s : List Char) : Py Int :=
  let parsed : Option Int :=
    match ((s.dropWhile isSpaceChar).rdropWhile isSpaceChar) with
    | [] => none
    | c :: cs =>
      if c = '-' then (digitsValue cs).map fun (n : Nat) => -(n : Int)
      else if c = '+' then (digitsValue cs).map fun (n : Nat) => (n : Int)
      else (digitsValue (c :: cs)).map fun (n : Nat) => (n : Int)
  match parsed with
  | some i => .ok i
  | none => .error (.valueError "invalid literal for int() with base 10")

/-- What igraph does with one entry of the list of edges (`/repo/experiments/social_networks/SNAP_boxplot.py:25,29`): it has to be
a pair of non-negative integers. -/
def edgeOfTuple : List Int → Py (Nat × Nat)
  | [a, b] => if a < 0 ∨ b < 0 then .error (.valueError "vertex IDs must be positive") else .ok (a.toNat, b.toNat)
  | _ => .error .typeError

/-- `u` and `v` are joined by a path. -/
def Graph.Reach {F : Type} (G : Graph F) (u v : Nat) : Prop := Relation.ReflTransGen G.Step u v

open Classical in
/-- `G.clusters()` for an undirected graph (igraph; `/repo/experiments/social_networks/SNAP_boxplot.py:26,30`): the connected
components, each in increasing order, numbered by their smallest vertices. -/
noncomputable def clusters {F : Type} (G : Graph F) : List (List Nat) :=
  ((List.range G.vcount).filter fun v => decide (∀ u < v, ¬ G.Reach u v)).map fun v =>
    (List.range G.vcount).filter fun u => decide (G.Reach v u)

/-- `G.clusters().giant()` (igraph; `/repo/experiments/social_networks/SNAP_boxplot.py:26,30`): the subgraph of the first cluster of
maximal size, `ss.index(max(ss))`; a graph without vertices is copied. -/
noncomputable def giant {F : Type} (G : Graph F) : Graph F :=
  let sizes := (clusters G).map List.length
  match sizes.max? with
  | none => G
  | some m => inducedSubgraph G ((clusters G).getD (sizes.idxOf m) [])

/-- `read_file` for the format `"tsv"` (`/repo/experiments/social_networks/SNAP_boxplot.py:23-26`); a line is never empty. -/
noncomputable def readTsv (text : List Char) : Py (Graph ℝ) := do
  let tuples ← ((readlines text).filter fun l => decide (l.head? ≠ some '#')).mapM fun l => (pySplit l).mapM pyInt
  let edges ← tuples.mapM edgeOfTuple
  return giant (graphOfEdges edges)

/-- `read_file` for the format `"csv"` (`/repo/experiments/social_networks/SNAP_boxplot.py:27-30`). -/
noncomputable def readCsv (text : List Char) : Py (Graph ℝ) := do
  let tuples ← ((readlines text).filter fun l => decide (¬ ['n', 'o', 'd', 'e'] <:+: l)).mapM fun l =>
    (splitComma l).mapM pyInt
  let edges ← tuples.mapM edgeOfTuple
  return giant (graphOfEdges edges)

/-- A file of the directory: its name and its text. -/
abbrev DataFile := List Char × List Char

/-- `glob.glob("*" + suffix)` for the directory listed as `dir` (`/repo/experiments/social_networks/SNAP_boxplot.py:37`); the order
is that in which the operating system lists the directory; names that begin with a dot do not match `*`. -/
def globSuffix (suffix : List Char) (dir : List DataFile) : List DataFile :=
  dir.filter fun f => decide (f.1.head? ≠ some '.' ∧ suffix <:+ f.1)

/-- `expected_files` (`/repo/experiments/social_networks/SNAP_boxplot.py:55-62`). -/
def expectedFiles : List (List Char) :=
  ["Slashdot0902.txt", "facebook_combined.txt", "soc-Epinions1.txt", "Wiki-Vote.txt", "Slashdot0811.txt", "government_edges.csv",
    "public_figure_edges.csv", "artist_edges.csv", "politician_edges.csv", "new_sites_edges.csv", "HU_edges.csv",
    "company_edges.csv", "HR_edges.csv", "tvshow_edges.csv", "RO_edges.csv", "athletes_edges.csv"].map String.toList

/-- The body of the loop over the files (`/repo/experiments/social_networks/SNAP_boxplot.py:74-78`). -/
noncomputable def readDataFile (f : DataFile) : Py (Graph ℝ) :=
  if ['.', 't', 'x', 't'] <:+: f.1 then readTsv f.2 else readCsv f.2

/-- `read_graphs()` (`/repo/experiments/social_networks/SNAP_boxplot.py:35-82`) for a set `expected` of names. -/
noncomputable def readGraphsFor (expected : List (List Char)) (dir : List DataFile) : Except Stop (List (Graph ℝ)) :=
  let files := globSuffix ['.', 't', 'x', 't'] dir ++ globSuffix ['.', 'c', 's', 'v'] dir
  let missing := expected.filter fun n => decide (n ∉ files.map Prod.fst)
  if missing ≠ [] then .error .notFound
  else match files.mapM readDataFile with
    | .error e => .error (.task e)
    | .ok graphs => .ok (pySortedBy Graph.vcount graphs)

/-- `read_graphs()` (`/repo/experiments/social_networks/SNAP_boxplot.py:35-84`). -/
noncomputable def readGraphs (dir : List DataFile) : Except Stop (List (Graph ℝ)) := readGraphsFor expectedFiles dir

/-- `adjacency_from_dat` (`/repo/experiments/lazega_law_firm/lazega_figures.py:20-26`). -/
def adjacencyFromDat (lines : List (List Char)) : Py (List (List Int)) :=
  ((lines.map fun l => (l.dropWhile fun c => c = '\r' || c = '\n').rdropWhile fun c => c = '\r' || c = '\n').filter
    fun l => decide (0 < l.length)).mapM fun l => (pySplit l).mapM pyInt

/-- `generate_lazega_igraph()` with the files it finds; `none` for a file that does not exist
(`/repo/experiments/lazega_law_firm/lazega_figures.py:29-66`). -/
def lazegaFromFiles (advice friend work attr : Option (List Char)) :
    Except Stop (Graph ℝ × Graph ℝ × List Nat) :=
  match advice, friend, work, attr with
  | some a, some f, some w, some _ =>
    let r : Py (Graph ℝ × Graph ℝ × List Nat) := do
      let a ← adjacencyFromDat (readlines a)
      let f ← adjacencyFromDat (readlines f)
      let w ← adjacencyFromDat (readlines w)
      lazegaNetwork 71 [a, f, w]
    match r with
    | .ok x => .ok x
    | .error e => .error (.task e)
  | _, _, _, _ => .error .notFound

end Verif
