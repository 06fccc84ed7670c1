import Mathlib.Algebra.Order.Field.Basic
import Mathlib.Data.Nat.Cast.Defs
import Verif.Model.Base

/-!
# igraph graphs and numpy scalars
-/

namespace Verif

/-- A numpy `float64` seen as an exact number of the field `F`, or an infinity, or NaN.  Rounding is not modelled. -/
inductive Fl (F : Type _) where
  | fin (x : F)
  | pinf
  | ninf
  | nan
  deriving DecidableEq, Repr

section
variable {F : Type _} [Field F] [LinearOrder F]

/-- numpy division (no exception, IEEE special values): `/` at `/repo/utilities/champ_utilities.py:248,253,329,336`. -/
def npDiv (a b : F) : Fl F :=
  if b ≠ 0 then .fin (a / b) else if a = 0 then .nan else if 0 < a then .pinf else .ninf

/-- IEEE addition. -/
def Fl.add : Fl F → Fl F → Fl F
  | .fin x, .fin y => .fin (x + y)
  | .nan, _ => .nan
  | _, .nan => .nan
  | .pinf, .ninf => .nan
  | .ninf, .pinf => .nan
  | .pinf, _ => .pinf
  | _, .pinf => .pinf
  | .ninf, _ => .ninf
  | _, .ninf => .ninf

/-- Python's `sum` over numpy scalars. -/
def Fl.sum (l : List (Fl F)) : Fl F := l.foldl Fl.add (.fin 0)

/-- Python's true division on Python numbers: raises on a zero divisor
(`/repo/utilities/parameter_estimation_utilities.py:42,44,111,115,119,137,244,252,253,258`). -/
def pyDiv (a b : F) : Py F := if b = 0 then .error .zeroDivisionError else .ok (a / b)

end

/-- An `igraph.Graph` as the code sees it: vertex count, directedness, the edge list `[(e.source, e.target) for e in
G.es]` (multi-edges and self-loops allowed), and the optional edge attribute `'weight'`. -/
structure Graph (F : Type _) where
  vcount : Nat
  directed : Bool
  edges : List (Nat × Nat)
  weight : Option (List F)

namespace Graph
variable {F : Type _}

/-- What igraph guarantees: endpoints are vertices and an edge attribute has one value per edge. -/
def WF (G : Graph F) : Prop :=
  (∀ e ∈ G.edges, e.1 < G.vcount ∧ e.2 < G.vcount) ∧ ∀ ws, G.weight = some ws → ws.length = G.edges.length

/-- `G.ecount()` -/
def ecount (G : Graph F) : Nat := G.edges.length

/-- `all_degrees(G) = G.degree()` (`/repo/utilities/partition_utilities.py:14-15`; igraph counts a self-loop twice). -/
def allDegrees (G : Graph F) : List Nat :=
  (List.range G.vcount).map fun v => G.edges.countP (fun e => e.1 = v) + G.edges.countP (fun e => e.2 = v)

/-- `in_degrees(G) = G.indegree()` (`/repo/utilities/partition_utilities.py:18-19`; igraph ignores the mode on
undirected graphs). -/
def inDegrees (G : Graph F) : List Nat :=
  if G.directed then (List.range G.vcount).map fun v => G.edges.countP (fun e => e.2 = v) else G.allDegrees

/-- `out_degrees(G) = G.outdegree()` (`/repo/utilities/partition_utilities.py:22-23`). -/
def outDegrees (G : Graph F) : List Nat :=
  if G.directed then (List.range G.vcount).map fun v => G.edges.countP (fun e => e.1 = v) else G.allDegrees

end Graph
end Verif
