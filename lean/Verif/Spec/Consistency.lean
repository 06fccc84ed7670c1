import Verif.Spec.SBM

/-!
# The documented rules for multilayer graphs (specification)

Written from the messages of `check_multilayer_graph_consistency`.
-/

namespace Verif.Spec
open Finset
variable {F : Type _} [Field F] [LinearOrder F]

/-- A documented rule: the requirement and the message announced for it. -/
structure Rule where
  holds : Prop
  message : String

/-- In-degree of `v`. -/
def inEdges (G : Graph F) (v : Nat) : Nat := (G.edges.filter fun e => decide (e.2 = v)).length

/-- The documented rules, in the order of the documentation: `mt` are the total weights of the layers, `T` the number of
layers, `N` the vertices per layer, `Nt` the numbers of vertices of the layers. -/
def documentedRules (Gi Gx : Graph F) (layer : List Nat) (model : String) (mt : List F) (T N : Nat) (Nt : List Nat) :
    List Rule :=
  [⟨2 ≤ T, "Graph must have multiple layers"⟩,
   ⟨Gx.directed = true, "Interlayer graph should be directed"⟩,
   ⟨Gx.vcount = Gi.vcount, "Inter-layer and Intra-layer graphs must be of the same size"⟩,
   ⟨layer.length = Gi.vcount, "Layer membership vector must have length matching graph size"⟩,
   ⟨∀ m ∈ mt, 0 < m, "All layers of graph must contain edges"⟩,
   ⟨∀ e ∈ Gi.edges, layer[e.1]? = layer[e.2]?, "Intralayer graph should not contain edges across layers"⟩,
   ⟨model = "temporal" → Gx.ecount = N * (T - 1),
    "Interlayer temporal graph must contain (nodes per layer) * (number of layers - 1) edges"⟩,
   ⟨model = "temporal" → T ∣ Gx.vcount ∧ T ∣ Gi.vcount,
    "Vertex count of a temporal graph should be a multiple of the number of layers"⟩,
   ⟨model = "temporal" → ∀ n ∈ Nt, n = N, "Temporal networks must have the same number of nodes in every layer"⟩,
   ⟨model = "multilevel" → ∀ n ∈ Nt, 0 < n, "All layers of a multilevel graph must be consecutive and nonempty"⟩,
   ⟨model = "multilevel" → ∀ v < Gx.vcount,
      (if Gx.directed then inEdges Gx v else (Gx.edges.filter fun e => decide (e.1 = v)).length + inEdges Gx v) ≤ 1,
    "Multilevel networks should have at most one interlayer in-edge per node"⟩,
   ⟨model = "multiplex" → ∀ n ∈ Nt, n = N, "Multiplex networks must have the same number of nodes in every layer"⟩,
   ⟨model = "multiplex" → Gx.ecount = N * T * (T - 1),
    "Multiplex interlayer networks must contain edges between all pairs of layers"⟩]

/-- A multilayer graph as the iterative algorithm requires it (`T` layers, `N` vertices per layer if the model has the
same vertices in every layer). -/
structure Accepted (Gi Gx : Graph F) (ws : List F) (layer : List Nat) (model : String) (T : Nat) : Prop where
  layers : 2 ≤ T
  directed : Gx.directed = true
  sameSize : Gx.vcount = Gi.vcount
  vector : layer.length = Gi.vcount
  weights : ∀ t < T, 0 < wTotal (layerOf (Gi.edges.zip ws) layer t)
  noCross : ∀ e ∈ Gi.edges, layer[e.1]? = layer[e.2]?
  temporal : model = "temporal" → T ∣ Gi.vcount ∧ (∀ t < T, layer.count t = Gi.vcount / T) ∧
    Gx.ecount = Gi.vcount / T * (T - 1)
  multilevel : model = "multilevel" → (∀ t < T, 0 < layer.count t) ∧ ∀ v < Gx.vcount, inEdges Gx v ≤ 1
  multiplex : model = "multiplex" → (∀ t < T, layer.count t = Gi.vcount / T) ∧
    Gx.ecount = Gi.vcount / T * T * (T - 1)

end Verif.Spec
