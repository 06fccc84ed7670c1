import Mathlib.Data.Nat.Digits.Defs
import Mathlib.Logic.Relation
import Verif.Model.Graph

/-!
# Specification of the data files
-/

namespace Verif.Spec
open Verif

/-- `s` is `n` in decimal notation (leading zeros allowed). -/
def Decimal (n : Nat) (s : List Char) : Prop :=
  s ≠ [] ∧ (∀ c ∈ s, c ∈ ['0', '1', '2', '3', '4', '5', '6', '7', '8', '9']) ∧
    n = Nat.ofDigits 10 (s.reverse.map fun c => c.toNat - '0'.toNat)

/-- `s` is the integer `i` in decimal notation, with a sign if it is negative. -/
def SignedDecimal (i : Int) (s : List Char) : Prop :=
  ∃ n : Nat, (i = n ∧ Decimal n s) ∨ ∃ t, s = '-' :: t ∧ i = -(n : Int) ∧ Decimal n t

/-- The names of the sixteen files of SNAP that the experiment on social networks needs, in alphabetical order. -/
def snapFiles : List String :=
  ["HR_edges.csv", "HU_edges.csv", "RO_edges.csv", "Slashdot0811.txt", "Slashdot0902.txt", "Wiki-Vote.txt", "artist_edges.csv",
    "athletes_edges.csv", "company_edges.csv", "facebook_combined.txt", "government_edges.csv", "new_sites_edges.csv",
    "politician_edges.csv", "public_figure_edges.csv", "soc-Epinions1.txt", "tvshow_edges.csv"]

/-- `s` consists of blanks and tabs. -/
def Blank (s : List Char) : Prop := ∀ c ∈ s, c = ' ' ∨ c = '\t'

/-- A SNAP edge list: comment lines that begin with `#`, and lines with the two end points of a link, separated by blanks or tabs.
The last line need not end with a newline.  `links` are the links, line by line. -/
inductive TsvFile : List Char → List (Nat × Nat) → Prop
  | done : TsvFile [] []
  | comment {c text links} : '\n' ∉ c → TsvFile text links → TsvFile ('#' :: c ++ '\n' :: text) links
  | link {u v front a gap b tail text links} : Blank front → Decimal u a → Blank gap → gap ≠ [] → Decimal v b → Blank tail →
      TsvFile text links → TsvFile (front ++ a ++ gap ++ b ++ tail ++ '\n' :: text) ((u, v) :: links)
  | last {u v front a gap b tail} : Blank front → Decimal u a → Blank gap → gap ≠ [] → Decimal v b → Blank tail →
      TsvFile (front ++ a ++ gap ++ b ++ tail) [(u, v)]

/-- A comma separated edge list: header lines in which `node` occurs, and lines with the two end points of a link. -/
inductive CsvFile : List Char → List (Nat × Nat) → Prop
  | done : CsvFile [] []
  | header {pre post text links} : '\n' ∉ pre → '\n' ∉ post → CsvFile text links →
      CsvFile (pre ++ ['n', 'o', 'd', 'e'] ++ post ++ '\n' :: text) links
  | link {u v a b text links} : Decimal u a → Decimal v b → CsvFile text links →
      CsvFile (a ++ ',' :: b ++ '\n' :: text) ((u, v) :: links)
  | last {u v a b} : Decimal u a → Decimal v b → CsvFile (a ++ ',' :: b) [(u, v)]

/-- A row of numbers: entries with blanks between them, and perhaps before the first and after the last. -/
def RowText (row : List Nat) (line : List Char) : Prop :=
  ∃ (front : List Char) (entries : List (Nat × List Char × List Char)), Blank front ∧
    (∀ x ∈ entries, Decimal x.1 x.2.1 ∧ Blank x.2.2) ∧ (∀ x ∈ entries.dropLast, x.2.2 ≠ []) ∧
    row = entries.map Prod.fst ∧ line = front ++ entries.flatMap fun x => x.2.1 ++ x.2.2

/-- A matrix of numbers: one row per line, empty lines allowed.  The last line need not end with a newline. -/
inductive MatrixFile : List Char → List (List Nat) → Prop
  | done : MatrixFile [] []
  | empty {text rows} : MatrixFile text rows → MatrixFile ('\n' :: text) rows
  | row {row line text rows} : RowText row line → line ≠ [] → MatrixFile text rows →
      MatrixFile (line ++ '\n' :: text) (row :: rows)
  | last {row line} : RowText row line → line ≠ [] → MatrixFile line [row]

/-- `u` and `v` are joined by a path of links, followed in either direction. -/
def Linked (links : List (Nat × Nat)) (u v : Nat) : Prop :=
  Relation.ReflTransGen (fun a b => (a, b) ∈ links ∨ (b, a) ∈ links) u v

/-- `vs` (in increasing order) is the largest connected component of the vertices `0, …, n - 1`, the one with the smallest vertex if
there are several. -/
structure LargestComponent (n : Nat) (links : List (Nat × Nat)) (vs : List Nat) : Prop where
  sorted : vs.Pairwise (· < ·)
  inside : ∀ v ∈ vs, v < n
  nonempty : vs ≠ []
  component : ∀ v ∈ vs, ∀ u < n, (u ∈ vs ↔ Linked links v u)
  /-- nothing connected has more vertices … -/
  largest : ∀ ws : List Nat, ws.Nodup → (∀ w ∈ ws, w < n) → (∀ w ∈ ws, ∀ x ∈ ws, Linked links w x) → ws.length ≤ vs.length
  /-- … and what has as many is `vs` or lies behind the first vertex of `vs` -/
  first : ∀ ws : List Nat, ws.Nodup → (∀ w ∈ ws, w < n) → (∀ w ∈ ws, ∀ x ∈ ws, Linked links w x) →
    ws.length = vs.length → ∀ w ∈ ws, vs.head nonempty ≤ w

/-- `G` is the largest connected component of the network with the given links, its vertices renumbered in order: every link between
two of its vertices is an edge, in the order of the links and as often as it was given.  The network has the vertices `0` to the
largest number that occurs. -/
def GiantOf (links : List (Nat × Nat)) (G : Graph ℝ) : Prop :=
  G.directed = false ∧ G.weight = none ∧
  ((links = [] ∧ G.vcount = 0 ∧ G.edges = []) ∨
    ∃ n vs, (∃ e ∈ links, n = max e.1 e.2 + 1) ∧ (∀ e ∈ links, e.1 < n ∧ e.2 < n) ∧ LargestComponent n links vs ∧
      G.vcount = vs.length ∧ (∀ e ∈ G.edges, e.1 < vs.length ∧ e.2 < vs.length) ∧
      G.edges.map (fun e => (vs.getD e.1 0, vs.getD e.2 0)) = links.filter fun e => decide (e.1 ∈ vs ∨ e.2 ∈ vs))

end Verif.Spec
