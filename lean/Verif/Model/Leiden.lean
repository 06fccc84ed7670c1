import Verif.Model.Partition
import Verif.Model.Estimation

/-!
# Leiden drivers (`utilities/leiden_utilities.py:27-255`)

leidenalg itself (the optimisation) is an arbitrary oracle; what the code hands to it is modelled.
-/

namespace Verif

section Split
variable {F : Type}

/-- `l[i].append(x)` on a list of lists (`/repo/utilities/leiden_utilities.py:95-96`). -/
def pyAppendAt {β : Type} (l : List (List β)) (i : Nat) (x : β) : Py (List (List β)) :=
  match l[i]? with
  | some xs => .ok (l.set i (xs ++ [x]))
  | none => .error .indexError

/-- `ig.Graph(n=n, edges=edges, directed=directed)`: igraph rejects edges outside `0..n-1`
(`/repo/utilities/leiden_utilities.py:100`). -/
def newGraph (n : Nat) (edges : List (Nat × Nat)) (directed : Bool) : Py (Graph F) :=
  if edges.all fun e => decide (e.1 < n ∧ e.2 < n) then .ok ⟨n, directed, edges, none⟩
  else .error (.valueError "invalid vertex ID")

/-- The body of `_split_leiden_graph_layers_cached` (`/repo/utilities/leiden_utilities.py:87-103`); `ws` are the
`e['weight']` of the edges, `none` if there is no such attribute. -/
def splitLayers (n : Nat) (edges : List (Nat × Nat)) (ws : Option (List F)) (directed : Bool) (layers : List Nat) :
    Py (List (Graph F)) := do
  let T ← countLayers layers
  let es ← Graph.weightedEdges ⟨n, directed, edges, ws⟩
  let (byLayer, wByLayer) ← es.foldlM (fun (acc : List (List (Nat × Nat)) × List (List F)) e => do
    let l ← pyGet layers e.1.1
    let a ← pyAppendAt acc.1 l e.1
    let b ← pyAppendAt acc.2 l e.2
    return (a, b)) (List.replicate T [], List.replicate T [])
  (List.range T).mapM fun t => do
    let edges ← pyGet byLayer t
    let g ← newGraph n edges directed
    let ws ← pyGet wByLayer t
    g.setEsWeight ws

/-- The cache key of `_split_leiden_graph_layers_cached`: `n`, the tuple of igraph `Edge` objects – which are equal and
hash alike iff they have the same index in the same graph *object*, whatever its present content –, directedness and the
layer membership (`/repo/utilities/leiden_utilities.py:82-84,87-88`). -/
abbrev SplitKey := Nat × List (Nat × Nat) × Bool × List Nat

/-- The key built for the graph object number `obj`, whose present content is `G`
(`/repo/utilities/leiden_utilities.py:82-84`). -/
def splitKey (obj : Nat) (G : Graph F) (layers : List Nat) : SplitKey :=
  (G.vcount, (List.range G.ecount).map fun i => (obj, i), G.directed, layers)

/-- `split_intralayer_leiden_graph` (`/repo/utilities/leiden_utilities.py:68-84`) with the state of the `lru_cache` of
`_split_leiden_graph_layers_cached`. -/
def splitIntralayer (cache : LRU SplitKey (List (Graph F))) (obj : Nat) (G : Graph F) (layers : List Nat) :
    LRU SplitKey (List (Graph F)) × Py (List (Graph F)) :=
  cache.call (splitKey obj G layers) (splitLayers G.vcount G.edges G.weight G.directed layers)

/-- The cache after the import of the module: `lru_cache(maxsize=1)` (`/repo/utilities/leiden_utilities.py:87`). -/
def emptySplitCache : LRU SplitKey (List (Graph F)) := LRU.empty 1

end Split

/-! ## What is handed to leidenalg -/

/-- A leidenalg vertex partition before optimisation, with its edge weights taken from `'weight'` and its resolution
(`RBConfigurationVertexPartition`, `CPMVertexPartition`). -/
inductive VertexPartition (F R : Type) where
  | rb (G : Graph F) (resolution : R)
  | cpm (G : Graph F) (resolution : R)

/-- `multilayer_leiden`, the partitions and layer weights given to `optimise_partition_multiplex`
(`/repo/utilities/leiden_utilities.py:139-143`). -/
def multiplexProblem {F R : Type} [Zero R] [One F] (layers : List (Graph F)) (Gx : Graph F) (γ : R) (ω : F) :
    List (VertexPartition F R) × List F :=
  let intra := layers.map fun G => VertexPartition.rb G γ
  (intra ++ [.cpm Gx 0], List.replicate intra.length 1 ++ [ω])

instance {F : Type} [Zero F] : Zero (Fl F) := ⟨.fin 0⟩

/-- The community detection environment: igraph's answer to `'weight' in G.es`, and the outcome of the `i`-th
optimisation of the process (an arbitrary function: the algorithms are randomised and may raise). -/
structure LeidenEnv where
  test : Graph ℝ → Bool
  findPartition : Nat → Graph ℝ → Fl ℝ → Py (List Nat)
  optimiseMultiplex : Nat → List (VertexPartition ℝ (Fl ℝ)) → List ℝ → Py (List Nat)
  spinglass : Nat → Graph ℝ → Fl ℝ → Py (List Nat)
  fsolve : (ℝ → ℝ) → ℝ → ℝ
  /-- formatting of numbers in messages -/
  fmt : Fl ℝ → String

/-- The process state that outlives a call: how many optimisations have been made, the cache of layer graphs
(`/repo/utilities/leiden_utilities.py:87`) and the module global `parts` (`/repo/utilities/parameter_estimation.py:167`;
`none` while undefined). -/
structure World where
  calls : Nat
  cache : LRU SplitKey (List (Graph ℝ))
  parts : Option (List Nat)

/-- The world of a fresh process. -/
def World.fresh : World := ⟨0, emptySplitCache, none⟩

/-- A computation that may raise and changes the world (also when it raises). -/
abbrev Prog (α : Type) := World → Py α × World

namespace Prog
/-- Return a value. -/
def ret {α : Type} (a : α) : Prog α := fun w => (.ok a, w)
/-- Sequencing: an exception skips the rest, keeping the world. -/
def andThen {α β : Type} (x : Prog α) (f : α → Prog β) : Prog β := fun w =>
  match x w with
  | (.ok a, w') => f a w'
  | (.error e, w') => (.error e, w')
/-- A computation that does not touch the world. -/
def lift {α : Type} (x : Py α) : Prog α := fun w => (x, w)
/-- One optimisation: the world's counter is advanced. -/
def optimise {α : Type} (f : Nat → Py α) : Prog α := fun w => (f w.calls, { w with calls := w.calls + 1 })
/-- A call of the memoised `split_intralayer_leiden_graph`. -/
def split (obj : Nat) (G : Graph ℝ) (layers : List Nat) : Prog (List (Graph ℝ)) := fun w =>
  let r := splitIntralayer w.cache obj G layers
  (r.2, { w with cache := r.1 })
/-- Assignment to the module global `parts`. -/
def setParts (parts : List Nat) : Prog Unit := fun w => (.ok (), { w with parts := some parts })
/-- Reading the module global `parts`: `NameError` if it was never assigned. -/
def getParts : Prog (List Nat) := fun w =>
  match w.parts with
  | some c => (.ok c, w)
  | none => (.error .nameError, w)
end Prog

instance : Monad Prog where
  pure := Prog.ret
  bind := Prog.andThen

/-- `singlelayer_leiden` (`/repo/utilities/leiden_utilities.py:27-48`), both variants reduced to the membership; also
returns the graph, whose weights may have been set. -/
noncomputable def singlelayerLeiden (env : LeidenEnv) (G : Graph ℝ) (γ : Fl ℝ) : Prog (List Nat × Graph ℝ) := do
  let G ← Prog.lift (ensureWeight env.test G.ecount G)
  let membership ← Prog.optimise fun i => env.findPartition i G γ
  return (membership, G)

/-- `multilayer_leiden` (`/repo/utilities/leiden_utilities.py:106-149`), reduced to the membership (all intralayer parts
have the same one after the optimisation; `intralayer_parts[0]` exists because there is at least one layer); also returns
both graphs.  `obj` is the identity of the intralayer graph object. -/
noncomputable def multilayerLeiden (env : LeidenEnv) (obj : Nat) (Gi Gx : Graph ℝ) (layers : List Nat) (γ : Fl ℝ)
    (ω : ℝ) : Prog (List Nat × Graph ℝ × Graph ℝ) := do
  let Gi ← Prog.lift (ensureWeight env.test Gi.ecount Gi)
  let Gx ← Prog.lift (ensureWeight env.test Gx.ecount Gx)
  let split ← Prog.split obj Gi layers
  let problem := multiplexProblem split Gx γ ω
  let membership ← Prog.optimise fun i => env.optimiseMultiplex i problem.1 problem.2
  return (membership, Gi, Gx)

end Verif
