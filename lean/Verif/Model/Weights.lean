import Verif.Model.Graph

/-!
# The edge attribute `'weight'`
-/

namespace Verif
variable {F : Type _}

/-- `G.es['weight']`: `KeyError` if the graph has no such attribute (igraph). -/
def Graph.esWeight (G : Graph F) : Py (List F) :=
  match G.weight with
  | some ws => .ok ws
  | none => .error .keyError

/-- `[(e.source, e.target, e['weight']) for e in G.es]`: `KeyError` on the first edge if the attribute is missing. -/
def Graph.weightedEdges (G : Graph F) : Py (List ((Nat × Nat) × F)) :=
  match G.weight with
  | some ws => .ok (G.edges.zip ws)
  | none => if G.edges = [] then .ok [] else .error .keyError

/-- `G.es['weight'] = vals`: igraph reuses a list of the wrong length cyclically and rejects an empty list if there are
edges. -/
def Graph.setEsWeight (G : Graph F) (vals : List F) : Py (Graph F) :=
  if vals = [] ∧ G.edges ≠ [] then .error (.valueError "sequence must not be empty")
  else .ok { G with weight := some ((List.range G.edges.length).filterMap fun i => vals[i % vals.length]?) }

/-- `if 'weight' not in G.es: G.es['weight'] = [1.0] * n`.  `test G` is igraph's answer to `'weight' in G.es`: Python
falls back to comparing `'weight'` with every edge, so the answer need not be "has the attribute"; it is a parameter.
(`/repo/utilities/parameter_estimation_utilities.py:76-77,156-157`, `/repo/utilities/leiden_utilities.py:39-40,128-132,
158-162`, `/repo/utilities/parameter_estimation.py:35-36,168-172`.) -/
def ensureWeight [One F] (test : Graph F → Bool) (n : Nat) (G : Graph F) : Py (Graph F) :=
  if test G then .ok G else G.setEsWeight (List.replicate n 1)

end Verif
