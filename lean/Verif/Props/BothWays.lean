import Verif.Spec.BothWays
import Verif.Props.Renumber
import Verif.Props.Warnings
import Verif.Props.Invariance

/-!
# Property C92: an undirected graph and its directed version give the same results
-/

namespace Verif.Props
open Verif Spec

/-! ### Coefficients -/

section
variable {F : Type} [Field F] [LinearOrder F] [IsStrictOrderedRing F] {α : Type} [DecidableEq α] {G : Graph F}

theorem bothWays_wf (hG : G.WF) : (bothWays G).WF := by
  refine ⟨fun e he => ?_, fun ws h => ?_⟩
  · rcases List.mem_append.mp he with h | h
    · exact hG.1 e h
    · obtain ⟨a, ha, rfl⟩ := List.mem_map.mp h
      exact ⟨(hG.1 a ha).2, (hG.1 a ha).1⟩
  · show ws.length = (G.edges ++ G.edges.map Prod.swap).length
    cases hw : G.weight with
    | none => unfold bothWays at h; rw [hw] at h; cases h
    | some w =>
      unfold bothWays at h; rw [hw] at h; cases h
      have := hG.2 w hw
      simp [this]

theorem mapM_append_py {β γ : Type} (f : β → Py γ) (l l' : List β) :
    (l ++ l').mapM f = (do let a ← l.mapM f; let b ← l'.mapM f; return a ++ b) := by
  rw [List.mapM_append]

theorem internalEdgeCount_swap (es : List (Nat × Nat)) (c : List α) :
    internalEdgeCount (es.map Prod.swap) c = internalEdgeCount es c := by
  unfold internalEdgeCount
  congr 1
  induction es with
  | nil => rfl
  | cons e es ih =>
    rw [List.map_cons, List.mapM_cons, List.mapM_cons, ih]
    congr 1
    simp only [Prod.fst_swap, Prod.snd_swap]
    unfold pyGet
    cases h1 : c[e.1]? <;> cases h2 : c[e.2]? <;> try rfl
    rename_i a b
    show Except.ok (if b = a then 1 else 0) = Except.ok (if a = b then 1 else 0)
    simp only [eq_comm]

theorem internalEdgeCount_append (es es' : List (Nat × Nat)) (c : List α) :
    internalEdgeCount (es ++ es') c = (do
      let a ← internalEdgeCount es c
      let b ← internalEdgeCount es' c
      return a + b) := by
  unfold internalEdgeCount
  rw [List.mapM_append]
  cases (es.mapM fun e => do
    let a ← pyGet c e.1
    let b ← pyGet c e.2
    return if a = b then 1 else 0 : Py (List Nat)) with
  | error _ => rfl
  | ok xs =>
    cases (es'.mapM fun e => do
      let a ← pyGet c e.1
      let b ← pyGet c e.2
      return if a = b then 1 else 0 : Py (List Nat)) with
    | error _ => rfl
    | ok ys =>
      show Except.ok (xs ++ ys).sum = Except.ok (xs.sum + ys.sum)
      rw [List.sum_append]

theorem adjacency_bothWays (hd : G.directed = false) (c : List α) :
    adjacencyCoefficient true (G.edges ++ G.edges.map Prod.swap) c = adjacencyCoefficient G.directed G.edges c := by
  unfold adjacencyCoefficient
  rw [internalEdgeCount_append, internalEdgeCount_swap, hd]
  cases internalEdgeCount G.edges c with
  | error _ => rfl
  | ok s =>
    show Except.ok (s + s) = Except.ok (2 * s)
    rw [two_mul]

theorem countP_swap (es : List (Nat × Nat)) (v : Nat) :
    (es.map Prod.swap).countP (fun e => decide (e.1 = v)) = es.countP (fun e => decide (e.2 = v)) ∧
    (es.map Prod.swap).countP (fun e => decide (e.2 = v)) = es.countP (fun e => decide (e.1 = v)) := by
  rw [List.countP_map, List.countP_map]
  exact ⟨rfl, rfl⟩

theorem degrees_bothWays (hd : G.directed = false) :
    (bothWays G).inDegrees = G.allDegrees ∧ (bothWays G).outDegrees = G.allDegrees := by
  unfold Graph.inDegrees Graph.outDegrees Graph.allDegrees bothWays
  simp only [if_true, List.countP_append, (countP_swap _ _).1, (countP_swap _ _).2]
  exact ⟨List.map_congr_left fun v _ => Nat.add_comm _ _, trivial⟩

theorem nullModelNumerator_bothWays (hd : G.directed = false) (c : List α) :
    nullModelNumerator (bothWays G) c = nullModelNumerator G c := by
  unfold nullModelNumerator
  congr 1
  refine congrArg (fun f => List.mapM f (membershipToCommunities c)) (funext fun cvs => ?_)
  rw [hd, (degrees_bothWays hd).1, (degrees_bothWays hd).2]
  show (do let i ← degreeSum G.allDegrees cvs.2; let o ← degreeSum G.allDegrees cvs.2; return i * o) = _
  cases degreeSum G.allDegrees cvs.2 with
  | error _ => rfl
  | ok s =>
    show Except.ok (s * s) = Except.ok (s ^ 2)
    rw [pow_two]

theorem coefficients2D_bothWays (hd : G.directed = false) (parts : List (List α)) :
    partitionCoefficients2DSerial (bothWays G) parts = partitionCoefficients2DSerial G parts := by
  unfold partitionCoefficients2DSerial
  have h1 : adjacencyCoefficient (bothWays G).directed (bothWays G).edges = adjacencyCoefficient (α := α) G.directed G.edges :=
    funext fun c => adjacency_bothWays hd c
  have h2 : nullModelNumerator (α := α) (bothWays G) = nullModelNumerator G := funext fun c => nullModelNumerator_bothWays hd c
  have h3 : (if (bothWays G).directed then ((bothWays G).ecount : F) else 2 * ((bothWays G).ecount : F)) =
      if G.directed then (G.ecount : F) else 2 * (G.ecount : F) := by
    rw [hd]
    simp [bothWays, Graph.ecount, two_mul]
  rw [h1, h2, h3]

theorem ecountPerLayer_closed (hG : G.WF) {layer : List Nat} (hl : layer.length = G.vcount) {M : Nat}
    (hM : layer.max? = some M) :
    ecountPerLayer G layer = .ok ((List.range (M + 1)).map fun t =>
      (G.edges.map fun e => if layer[e.1]? = some t then (1 : F) else 0).sum) := by
  unfold ecountPerLayer
  rw [hM]
  refine foldlM_replicate G.edges _ (fun e t => if layer[e.1]? = some t then (1 : F) else 0) fun e he acc hacc => ?_
  have h1 : e.1 < layer.length := by rw [hl]; exact (hG.1 e he).1
  rw [pyGet_lt h1, Py.ok_bind, pyAddAt_ok (by
    have := (List.max?_eq_some_iff.mp hM).2 _ (List.getElem_mem h1)
    omega), List.getElem?_eq_getElem h1]
  simp only [Option.some.injEq]

theorem ecountPerLayer_bothWays (hG : G.WF) {layer : List Nat} (hl : layer.length = G.vcount)
    (hx : ∀ e ∈ G.edges, layer[e.1]? = layer[e.2]?) :
    ecountPerLayer (bothWays G) layer = (ecountPerLayer G layer).map fun ec => ec.map (2 * ·) := by
  cases hM : layer.max? with
  | none => unfold ecountPerLayer; rw [hM]; rfl
  | some M =>
    rw [ecountPerLayer_closed hG hl hM, ecountPerLayer_closed (bothWays_wf hG) hl hM]
    show Except.ok _ = Except.ok _
    congr 1
    beta_reduce
    rw [List.map_map]
    refine List.map_congr_left fun t _ => ?_
    show ((G.edges ++ G.edges.map Prod.swap).map _).sum = 2 * _
    rw [List.map_append, List.sum_append, List.map_map, two_mul]
    congr 2
    refine List.map_congr_left fun e he => ?_
    simp only [Function.comp, Prod.fst_swap, hx e he]

theorem nullModelCoefficient3D_bothWays (hd : G.directed = false) (layer : List Nat) (ec : List F) (c : List α) :
    nullModelCoefficient3D (bothWays G) layer (ec.map (2 * ·)) c = nullModelCoefficient3D G layer ec c := by
  unfold nullModelCoefficient3D
  rw [hd, (degrees_bothWays hd).1, (degrees_bothWays hd).2]
  cases membershipToLayeredCommunities c layer with
  | error _ => rfl
  | ok comms =>
    rw [Py.ok_bind, Py.ok_bind]
    congr 1
    refine congrArg (fun f => List.mapM f comms) (funext fun clvs => ?_)
    show (do
      let i ← degreeSum G.allDegrees clvs.2
      let o ← degreeSum G.allDegrees clvs.2
      let m ← pyGet (ec.map (2 * ·)) clvs.1.2
      return npDiv ((i * o : Nat) : F) m) = _
    cases degreeSum G.allDegrees clvs.2 with
    | error _ => rfl
    | ok s =>
      simp only [Py.ok_bind, Bool.false_eq_true, if_false]
      unfold pyGet
      rw [List.getElem?_map]
      cases ec[clvs.1.2]? with
      | none => rfl
      | some m => rw [pow_two]; rfl

theorem coefficients3D_bothWays {Gx : Graph F} {layer : List Nat} (hM : Multilayer G Gx layer) (hd : G.directed = false)
    (parts : List (List α)) :
    partitionCoefficients3DSerial (bothWays G) Gx layer parts = partitionCoefficients3DSerial G Gx layer parts := by
  unfold partitionCoefficients3DSerial
  have h1 : adjacencyCoefficient (bothWays G).directed (bothWays G).edges = adjacencyCoefficient (α := α) G.directed G.edges :=
    funext fun c => adjacency_bothWays hd c
  rw [h1, ecountPerLayer_bothWays hM.intra hM.layers (hM.noCross.resolve_left (by simp [hd]))]
  congr 1
  funext A
  cases ecountPerLayer G layer with
  | error _ => rfl
  | ok ec =>
    have h2 : nullModelCoefficient3D (α := α) (bothWays G) layer (ec.map (2 * ·)) = nullModelCoefficient3D G layer ec :=
      funext fun c => nullModelCoefficient3D_bothWays hd layer ec c
    show (do
      let P ← parts.mapM (nullModelCoefficient3D (bothWays G) layer (ec.map (2 * ·)))
      _) = _
    rw [h2]
    rfl

theorem coefficients3D_bothWays_inter {Gi : Graph F} {layer : List Nat} (hd : G.directed = false) (parts : List (List α)) :
    partitionCoefficients3DSerial Gi (bothWays G) layer parts = partitionCoefficients3DSerial Gi G layer parts := by
  unfold partitionCoefficients3DSerial
  have h1 : adjacencyCoefficient (bothWays G).directed (bothWays G).edges = adjacencyCoefficient (α := α) G.directed G.edges :=
    funext fun c => adjacency_bothWays hd c
  rw [h1]

/-- **C92 (coefficients).** For every undirected graph and every collection of membership vectors, whatever their lengths, the
coefficients of the directed version – or the exception – are those of the graph, serially and in parallel. -/
theorem c92_coefficients_2D (hd : G.directed = false) (parts : List (List α)) (rnd : Nat → Nat → Nat) (cpu : Nat)
    (sched : List Nat) (singleThreaded : Bool) :
    partitionCoefficients2DSerial (bothWays G) parts = partitionCoefficients2DSerial G parts ∧
      partitionCoefficients2D rnd cpu sched (bothWays G) parts singleThreaded =
        partitionCoefficients2D rnd cpu sched G parts singleThreaded := by
  have h : partitionCoefficients2DSerial (α := α) (bothWays G) = partitionCoefficients2DSerial G :=
    funext fun parts => coefficients2D_bothWays hd parts
  refine ⟨coefficients2D_bothWays hd parts, ?_⟩
  unfold partitionCoefficients2D
  rw [h]

/-- **C92 (multilayer coefficients).** The same for either graph of a multilayer network. -/
theorem c92_coefficients_3D {Gx : Graph F} {layer : List Nat} (hM : Multilayer G Gx layer) (parts : List (List α))
    (rnd : Nat → Nat → Nat) (cpu : Nat) (sched : List Nat) :
    (G.directed = false →
      partitionCoefficients3D rnd cpu sched (bothWays G) Gx layer parts = partitionCoefficients3D rnd cpu sched G Gx layer parts) ∧
    (Gx.directed = false →
      partitionCoefficients3D rnd cpu sched G (bothWays Gx) layer parts = partitionCoefficients3D rnd cpu sched G Gx layer parts) := by
  constructor
  · intro hd
    have h : partitionCoefficients3DSerial (α := α) (bothWays G) Gx layer = partitionCoefficients3DSerial G Gx layer :=
      funext fun parts => coefficients3D_bothWays hM hd parts
    unfold partitionCoefficients3D
    rw [h]
  · intro hd
    have h : partitionCoefficients3DSerial (α := α) G (bothWays Gx) layer = partitionCoefficients3DSerial G Gx layer :=
      funext fun parts => coefficients3D_bothWays_inter hd parts
    unfold partitionCoefficients3D
    rw [h]

end

/-! ### CHAMP -/

section
variable {α : Type} [DecidableEq α] {G : Graph ℝ}

/-- **C92 (CHAMP).** On the directed version `CHAMP_2D` does exactly what it does on the graph: the same ranges with the same
partitions, or the same exception. -/
theorem c92_champ2D (env : ChampEnv) (hd : G.directed = false) (parts : List (List α)) (γ₀ γf : ℝ) (st : Bool) :
    champ2D env (bothWays G) parts γ₀ γf st = champ2D env G parts γ₀ γf st := by
  unfold champ2D
  rw [(c92_coefficients_2D hd parts _ _ _ _).2]

/-- **C92 (CHAMP_3D).** The same for `CHAMP_3D`, for either graph of the network. -/
theorem c92_champ3D (env : ChampEnv) {Gx : Graph ℝ} {layer : List Nat} (hM : Multilayer G Gx layer)
    (parts : List (List α)) (γ₀ γf ω₀ ωf : ℝ) :
    (G.directed = false → champ3D env (bothWays G) Gx layer parts γ₀ γf ω₀ ωf = champ3D env G Gx layer parts γ₀ γf ω₀ ωf) ∧
    (Gx.directed = false →
      champ3D env G (bothWays Gx) layer parts γ₀ γf ω₀ ωf = champ3D env G Gx layer parts γ₀ γf ω₀ ωf) := by
  refine ⟨fun hd => ?_, fun hd => ?_⟩ <;> unfold champ3D
  · rw [(c92_coefficients_3D hM parts _ _ _).1 hd]
  · rw [(c92_coefficients_3D hM parts _ _ _).2 hd]

end

/-! ### Modularity -/

section
variable {F : Type} [Field F] {α : Type} [DecidableEq α] {G : Graph F}

theorem adj_bothWays (hd : G.directed = false) (i j : Nat) : adj (bothWays G) i j = adj G i j := by
  unfold adj
  rw [hd]
  show (G.edges ++ G.edges.map Prod.swap).count (i, j) = _
  rw [List.count_append]
  simp only [Bool.false_eq_true, if_false]
  congr 1
  have : (i, j) = Prod.swap (j, i) := rfl
  rw [this, List.count_map_of_injective _ _ Prod.swap_injective]

/-- **C92 (modularity).** The directed version has the modularity of the graph, at every resolution, for every partition; and
the Leicht–Newman null model of the one is the configuration model of the other. -/
theorem c92_modularity (hd : G.directed = false) (γ : F) (c : List α) :
    modularity (bothWays G) γ c = modularity G γ c ∧ withinAdj (bothWays G) c = withinAdj G c ∧
      withinNull (bothWays G) c = withinNull G c := by
  unfold modularity withinAdj withinNull rowSum colSum total
  simp only [adj_bothWays hd]
  exact ⟨rfl, rfl, rfl⟩

/-- **C92 (multilayer modularity).** -/
theorem c92_multilayer_modularity {Gx : Graph F} (layer : List Nat) (γ ω : F) (c : List α) :
    (G.directed = false → multilayerModularity (bothWays G) Gx layer γ ω c = multilayerModularity G Gx layer γ ω c) ∧
    (Gx.directed = false → multilayerModularity G (bothWays Gx) layer γ ω c = multilayerModularity G Gx layer γ ω c) := by
  unfold multilayerModularity withinAdj withinNullLayered rowSum colSum layerTotal
  refine ⟨fun hd => ?_, fun hd => ?_⟩ <;> simp only [adj_bothWays hd] <;> rfl

end

/-! ### Estimates -/

section
variable {F : Type} [Field F] [LinearOrder F] [IsStrictOrderedRing F] {c layer : List Nat}

/-- the arcs with their weights -/
def bothArcs (es : List ((Nat × Nat) × F)) : List ((Nat × Nat) × F) := es ++ es.map fun e => (e.1.swap, e.2)

theorem zip_bothArcs {es : List (Nat × Nat)} {ws : List F} (h : ws.length = es.length) :
    (es ++ es.map Prod.swap).zip (ws ++ ws) = bothArcs (es.zip ws) := by
  unfold bothArcs
  rw [List.zip_append h.symm, List.zip_map_left]
  rfl

theorem wTotal_bothArcs (es : List ((Nat × Nat) × F)) : wTotal (bothArcs es) = 2 * wTotal es := by
  unfold wTotal bothArcs
  rw [List.map_append, List.sum_append, List.map_map, two_mul]; rfl

theorem wInside_bothArcs (es : List ((Nat × Nat) × F)) (c : List Nat) : wInside (bothArcs es) c = 2 * wInside es c := by
  unfold wInside bothArcs
  rw [List.map_append, List.sum_append, List.map_map, two_mul]
  congr 2
  refine List.map_congr_left fun e _ => ?_
  simp only [Function.comp, Prod.fst_swap, Prod.snd_swap, eq_comm]

theorem wStrength_bothArcs (es : List ((Nat × Nat) × F)) (c : List Nat) (r : Nat) :
    wStrength (bothArcs es) c r = 2 * wStrength es c r := by
  unfold wStrength bothArcs
  rw [List.map_append, List.sum_append, List.map_map, two_mul]
  congr 2
  refine List.map_congr_left fun e _ => ?_
  simp only [Function.comp, Prod.fst_swap, Prod.snd_swap]
  rw [add_comm]

theorem strengthSq_bothArcs (es : List ((Nat × Nat) × F)) (c : List Nat) :
    strengthSq (bothArcs es) c = 2 ^ 2 * strengthSq es c := by
  unfold strengthSq
  rw [Finset.mul_sum]
  exact Finset.sum_congr rfl fun r _ => by rw [wStrength_bothArcs]; ring

theorem layerOf_bothArcs {es : List ((Nat × Nat) × F)} (h : ∀ e ∈ es, layer[e.1.1]? = layer[e.1.2]?) (t : Nat) :
    layerOf (bothArcs es) layer t = bothArcs (layerOf es layer t) := by
  unfold layerOf bothArcs
  rw [List.filter_append, List.filter_map]
  congr 2
  refine List.filter_congr fun e he => ?_
  simp only [Function.comp, Prod.fst_swap, h e he]

theorem filter_bothArcs (es : List ((Nat × Nat) × F)) :
    ((bothArcs es).filter fun e => decide (layer[e.1.1]? = layer[e.1.2]?)) =
      bothArcs (es.filter fun e => decide (layer[e.1.1]? = layer[e.1.2]?)) := by
  unfold bothArcs
  rw [List.filter_append, List.filter_map]
  congr 2
  refine List.filter_congr fun e _ => ?_
  simp only [Function.comp, Prod.fst_swap, Prod.snd_swap, eq_comm]

theorem bothWays_weight {G : Graph F} {ws : List F} (hw : G.weight = some ws) : (bothWays G).weight = some (ws ++ ws) := by
  unfold bothWays; rw [hw]; rfl

/-- **C92 (single-layer block-model estimates).** -/
theorem c92_single_layer {G : Graph F} (hG : G.WF) (hc : c.length = G.vcount) :
    estimateSinglelayerSBM (bothWays G) c none = estimateSinglelayerSBM G c none := by
  rw [← c73_single_layer (k := 2) two_ne_zero hG hc]
  cases hw : G.weight with
  | none =>
    rw [estimateSinglelayerSBM_none (by unfold bothWays; rw [hw]; rfl), estimateSinglelayerSBM_none (by unfold rescale; rw [hw]; rfl)]
  | some ws =>
    have hw' : (rescale 2 G).weight = some (ws.map (2 * ·)) := by unfold rescale; rw [hw]; rfl
    rw [estimateSinglelayerSBM_eq (bothWays_wf hG) hc (bothWays_weight hw), estimateSinglelayerSBM_eq (rescale_wf hG) hc hw']
    have e1 : (rescale 2 G).edges.zip (ws.map (2 * ·)) = (G.edges.zip ws).map fun e => (e.1, 2 * e.2) := zip_scale _ _ _
    have e2 : (bothWays G).edges.zip (ws ++ ws) = bothArcs (G.edges.zip ws) := zip_bothArcs (hG.2 ws hw)
    have e3 : (ws ++ ws).sum = 2 * ws.sum := by rw [List.sum_append, two_mul]
    rw [e1, e2, e3, sum_scale, strengthSq_scale, wInside_scale, strengthSq_bothArcs, wInside_bothArcs]

theorem multilayer_weighted_bothWays (fsolve : (F → F) → F → F) {Gi Gx : Graph F} (hG : Gi.WF) (hl : layer.length = Gi.vcount)
    (hx : ∀ e ∈ Gi.edges, layer[e.1]? = layer[e.2]?) (hc : c.length = Gi.vcount) (model : String) {ws : List F}
    (hw : Gi.weight = some ws) :
    estimateMultilayerSBM fsolve (bothWays Gi) Gx layer c model none none none none =
      estimateMultilayerSBM fsolve Gi Gx layer c model none none none none := by
  cases hM : layer.max? with
  | none => unfold estimateMultilayerSBM orCompute countLayers; rw [hM]; rfl
  | some M =>
    have hT : LayersBelow layer (M + 1) := fun l hl => by
      have := (List.max?_eq_some_iff.mp hM).2 l hl
      omega
    have hxz : ∀ e ∈ Gi.edges.zip ws, layer[e.1.1]? = layer[e.1.2]? := fun e he => hx _ (List.of_mem_zip he).1
    rw [estimateMultilayerSBM_T _ _ _ _ _ _ hM, estimateMultilayerSBM_T _ _ _ _ _ _ hM,
      estimateMultilayerSBM_eq fsolve hG hl hc hw model hT (by omega),
      estimateMultilayerSBM_eq fsolve (bothWays_wf hG) hl hc (bothWays_weight hw) model hT (by omega)]
    have e2 : (bothWays Gi).edges.zip (ws ++ ws) = bothArcs (Gi.edges.zip ws) := zip_bothArcs (hG.2 ws hw)
    have hMt : layerM (bothArcs (Gi.edges.zip ws)) layer = fun t => 2 * layerM (Gi.edges.zip ws) layer t := by
      funext t
      unfold layerM
      rw [layerOf_bothArcs hxz, wTotal_bothArcs]
    have hIt : layerMIn (bothArcs (Gi.edges.zip ws)) layer c = fun t => 2 * layerMIn (Gi.edges.zip ws) layer c t := by
      funext t
      unfold layerMIn
      rw [filter_bothArcs, layerOf_bothArcs (fun e he => hxz e (List.mem_filter.mp he).1), wInside_bothArcs]
    have hSt : layerSq (bothArcs (Gi.edges.zip ws)) layer c = fun t => 2 ^ 2 * layerSq (Gi.edges.zip ws) layer c t := by
      funext t
      unfold layerSq
      rw [layerOf_bothArcs hxz, strengthSq_bothArcs]
    rw [e2, hMt, hIt, hSt, thetas_scale two_ne_zero]
    rfl

/-- **C92 (multilayer block-model estimates).** -/
theorem c92_multilayer (fsolve : (F → F) → F → F) {Gi Gx : Graph F} (hM : Multilayer Gi Gx layer) (hd : Gi.directed = false)
    (hc : c.length = Gi.vcount) (model : String) :
    estimateMultilayerSBM fsolve (bothWays Gi) Gx layer c model none none none none =
      estimateMultilayerSBM fsolve Gi Gx layer c model none none none none := by
  have hx := hM.noCross.resolve_left (by simp [hd])
  cases hw : Gi.weight with
  | some ws => exact multilayer_weighted_bothWays fsolve hM.intra hM.layers hx hc model hw
  | none =>
    have hw' : (bothWays Gi).weight = none := by unfold bothWays; rw [hw]; rfl
    by_cases he : Gi.edges = []
    · have he' : (bothWays Gi).edges = [] := by unfold bothWays; simp [he]
      unfold estimateMultilayerSBM Graph.weightedEdges
      simp only [hw, hw', he, he', if_true]
      rfl
    · have he' : (bothWays Gi).edges ≠ [] := by unfold bothWays; simp [he]
      unfold estimateMultilayerSBM Graph.weightedEdges
      simp only [hw, hw', he, he', if_false]
      rfl

end

section
variable {G : Graph ℝ} {c : List Nat} {test : Graph ℝ → Bool}

theorem defaulted_bothWays (ht : SameAnswer test G) : defaulted test (bothWays G) = bothWays (defaulted test G) := by
  unfold defaulted
  rw [ht]
  split
  · rfl
  · unfold bothWays Graph.ecount
    simp only [List.length_append, List.length_map, Option.map_some, List.replicate_append_replicate]

/-- **C92 (gamma estimate).** `gamma_estimate` on the directed version: the estimate of the graph (or its exception); the
graph it leaves behind is the directed version of the one it would have left. -/
theorem c92_gamma_estimate (hG : G.WF) (ht : SameAnswer test G) (c : List Nat) :
    gammaEstimate test (bothWays G) c = (gammaEstimate test G c).map fun r => (r.1, bothWays r.2) := by
  unfold gammaEstimate
  rw [ensureWeight_size hG, ensureWeight_size (bothWays_wf hG), Py.ok_bind, Py.ok_bind, defaulted_bothWays ht]
  unfold leidenPartWithMembership
  have hv : (bothWays (defaulted test G)).vcount = G.vcount := (defaulted_shape test G).1
  rw [hv, (defaulted_shape test G).1]
  split
  · rename_i hl
    rw [Py.ok_bind, Py.ok_bind, c92_single_layer (defaulted_wf hG) (hl.trans (defaulted_shape test G).1.symm)]
    cases estimateSinglelayerSBM (defaulted test G) c none <;> rfl
  · rfl

theorem multilayer_defaulted {Gx : Graph ℝ} {layer : List Nat} (hM : Multilayer G Gx layer) : Multilayer (defaulted test G) Gx layer :=
  ⟨defaulted_wf hM.intra, hM.inter, hM.vcount.trans (defaulted_shape test G).1.symm,
    hM.layers.trans (defaulted_shape test G).1.symm, by
      rw [(defaulted_shape test G).2.1, (defaulted_shape test G).2.2]; exact hM.noCross⟩

/-- **C92 (gamma and omega estimates).** The same for `gamma_omega_estimate` and the intralayer graph, for every model. -/
theorem c92_gamma_omega_estimate {Gx : Graph ℝ} {layer : List Nat} (hM : Multilayer G Gx layer) (hd : G.directed = false)
    (ht : SameAnswer test G) (fsolve : (ℝ → ℝ) → ℝ → ℝ) (c : List Nat) (ωmax : ℝ) (model : String) :
    gammaOmegaEstimate test fsolve (bothWays G) Gx layer c ωmax model =
      (gammaOmegaEstimate test fsolve G Gx layer c ωmax model).map fun r => (r.1, bothWays r.2) := by
  rw [gammaOmegaEstimate_def, gammaOmegaEstimate_def]
  cases hT : countLayers layer with
  | error e => rfl
  | ok T =>
    rw [Py.ok_bind, Py.ok_bind]
    unfold leidenPartWithMembership
    have hv : (bothWays G).vcount = G.vcount := rfl
    rw [hv]
    split
    · rename_i hl
      rw [Py.ok_bind, Py.ok_bind, ensureWeight_ecount, ensureWeight_ecount, Py.ok_bind, Py.ok_bind, defaulted_bothWays ht,
        estimateMultilayerSBM_countLayers _ _ _ _ _ _ hT, estimateMultilayerSBM_countLayers _ _ _ _ _ _ hT,
        c92_multilayer fsolve (multilayer_defaulted hM) ((defaulted_shape test G).2.2.trans hd)
          (hl.trans (defaulted_shape test G).1.symm) model]
      cases estimateMultilayerSBM fsolve (defaulted test G) Gx layer c model none none none none with
      | error e => rfl
      | ok r =>
        obtain ⟨a, b, p, K⟩ := r
        rw [Py.ok_bind, Py.ok_bind]
        cases omegaFunctionFromModel model ωmax T with
        | error e => rfl
        | ok f =>
          show (do
            let omega ← f a b p K
            pure ((gammaFromParameters a b, omega), bothWays (defaulted test G))) = Except.map (fun r => (r.1, bothWays r.2)) (do
            let omega ← f a b p K
            pure ((gammaFromParameters a b, omega), defaulted test G))
          cases f a b p K <;> rfl
    · rfl

/-! ### Pruning -/

theorem defaulted_twice : defaulted test (defaulted test G) = defaulted test G := by
  unfold defaulted Graph.ecount
  split
  · rfl
  · split <;> rfl

theorem ranges_bothWays {ranges : List (ℝ × ℝ × List Nat)} : ∀ {G : Graph ℝ}, G.WF → SameAnswer test G →
    SameAnswer test (defaulted test G) → rangesToGammaEstimates test (bothWays G) ranges =
      (rangesToGammaEstimates test G ranges).map fun r => (r.1, bothWays r.2) := by
  induction ranges with
  | nil => intros; rfl
  | cons r rest ih =>
    intro G hG ht ht'
    unfold rangesToGammaEstimates
    rw [c92_gamma_estimate hG ht]
    cases hg : gammaEstimate test G r.2.2 with
    | error e => rfl
    | ok eG =>
      have hgr := gammaEstimate_graph (e := eG.1) (G' := eG.2) hg
      rw [ensureWeight_size hG] at hgr
      have hH : eG.2 = defaulted test G := (Except.ok.inj hgr).symm
      show (do
        let restG ← rangesToGammaEstimates test (bothWays eG.2) rest
        _) = _
      rw [hH, ih (defaulted_wf hG) ht' (by rw [defaulted_twice]; exact ht'), Py.ok_bind, hH]
      cases rangesToGammaEstimates test (defaulted test G) rest <;> rfl

theorem gammaOmegaEstimate_graph {fsolve : (ℝ → ℝ) → ℝ → ℝ} {Gi Gx H : Graph ℝ} {layer : List Nat} {ωmax : ℝ} {model : String}
    {e : Option (Fl ℝ) × ℝ} (h : gammaOmegaEstimate test fsolve Gi Gx layer c ωmax model = .ok (e, H)) :
    H = defaulted test Gi := by
  rw [gammaOmegaEstimate_def] at h
  obtain ⟨_, _, h⟩ := Py.bind_ok' h
  obtain ⟨_, _, h⟩ := Py.bind_ok' h
  obtain ⟨H', hH', h⟩ := Py.bind_ok' h
  rw [ensureWeight_ecount] at hH'
  obtain ⟨_, _, h⟩ := Py.bind_ok' h
  obtain ⟨_, _, h⟩ := Py.bind_ok' h
  obtain ⟨_, _, h⟩ := Py.bind_ok' h
  rw [← (Prod.mk.inj (Except.ok.inj h)).2]
  exact (Except.ok.inj hH').symm

theorem domains_bothWays {Gx : Graph ℝ} {layer : List Nat} (fsolve : (ℝ → ℝ) → ℝ → ℝ) (model : String)
    {doms : List (List (ℝ × ℝ) × List Nat)} : ∀ {G : Graph ℝ}, Multilayer G Gx layer → G.directed = false → SameAnswer test G →
    SameAnswer test (defaulted test G) → domainsToEstimates test fsolve Gx layer model (bothWays G) doms =
      (domainsToEstimates test fsolve Gx layer model G doms).map fun r => (r.1, bothWays r.2) := by
  induction doms with
  | nil => intros; rfl
  | cons d rest ih =>
    intro G hM hd ht ht'
    unfold domainsToEstimates
    rw [c92_gamma_omega_estimate hM hd ht]
    cases hg : gammaOmegaEstimate test fsolve G Gx layer d.2 defaultOmegaMax model with
    | error e => rfl
    | ok eG =>
      have hH : eG.2 = defaulted test G := gammaOmegaEstimate_graph (e := eG.1) hg
      show (do
        let restG ← domainsToEstimates test fsolve Gx layer model (bothWays eG.2) rest
        _) = _
      rw [hH, ih (multilayer_defaulted hM) ((defaulted_shape test G).2.2.trans hd) ht' (by rw [defaulted_twice]; exact ht'),
        Py.ok_bind, hH]
      cases domainsToEstimates test fsolve Gx layer model (defaulted test G) rest <;> rfl

end

section
variable {G : Graph ℝ} {α : Type} [LinearOrder α]

/-- **C92 (pruning).** `prune_to_stable_partitions` on the directed version returns the very same list of partitions, or
raises the same exception. -/
theorem c92_prune (env : PruneEnv) (hG : G.WF) (hd : G.directed = false) (ht : SameAnswer env.test G)
    (ht' : SameAnswer env.test (defaulted env.test G)) (parts : PartsArg α) (γ₀ γf : ℝ) (restrict : Option Nat) (st : Bool) :
    pruneToStable env (bothWays G) parts γ₀ γf restrict st =
      (fun r => (r.1, bothWays r.2)) <$> pruneToStable env G parts γ₀ γf restrict st := by
  unfold pruneToStable
  simp only [map_bind]
  refine bind_congr fun ps => bind_congr fun ps' => ?_
  split
  · simp
  · rw [c92_champ2D env.toChampEnv hd]
    simp only [map_bind]
    refine bind_congr fun ranges => ?_
    rw [ranges_bothWays hG ht ht']
    cases rangesToGammaEstimates env.test G ranges <;> rfl

/-- **C92 (multilayer pruning).** The same for `prune_to_multilayer_stable_partitions` and the intralayer graph. -/
theorem c92_prune_multilayer (env : PruneEnv) {Gx : Graph ℝ} {layer : List Nat} (hM : Multilayer G Gx layer)
    (hd : G.directed = false) (ht : SameAnswer env.test G) (ht' : SameAnswer env.test (defaulted env.test G)) (model : String)
    (parts : PartsArg α) (γ₀ γf ω₀ ωf : ℝ) (restrict : Option Nat) (st : Bool) :
    pruneToMultilayerStable env (bothWays G) Gx layer model parts γ₀ γf ω₀ ωf restrict st =
      (fun r => (r.1, bothWays r.2)) <$> pruneToMultilayerStable env G Gx layer model parts γ₀ γf ω₀ ωf restrict st := by
  unfold pruneToMultilayerStable
  cases st with
  | true => rfl
  | false =>
    simp only [Bool.false_eq_true, if_false, map_bind]
    refine bind_congr fun ps => bind_congr fun ps' => ?_
    split
    · simp
    · rw [(c92_champ3D env.toChampEnv hM ps' γ₀ γf ω₀ ωf).1 hd]
      simp only [map_bind]
      refine bind_congr fun doms => ?_
      rw [domains_bothWays env.fsolve model hM hd ht ht']
      cases domainsToEstimates env.test env.fsolve Gx layer model G doms <;> rfl

/-! ### Warnings -/

theorem step_bothWays (hd : G.directed = false) : (bothWays G).Step = G.Step := by
  funext u v
  apply propext
  unfold Graph.Step
  rw [hd]
  constructor
  · rintro (h | ⟨h, -⟩)
    · rcases List.mem_append.mp h with h | h
      · exact Or.inl h
      · obtain ⟨e, he, heq⟩ := List.mem_map.mp h
        refine Or.inr ⟨rfl, ?_⟩
        have : e = (v, u) := by rw [← Prod.swap_swap e, heq]; rfl
        exact this ▸ he
    · cases h
  · rintro (h | ⟨-, h⟩)
    · exact Or.inl (List.mem_append_left _ h)
    · exact Or.inl (List.mem_append_right _ (List.mem_map.mpr ⟨_, h, rfl⟩))

theorem isConnected_bothWays (hd : G.directed = false) : (bothWays G).IsConnected ↔ G.IsConnected := by
  unfold Graph.IsConnected
  rw [step_bothWays hd]
  exact Iff.rfl

theorem hasOtherWeights_bothWays : hasOtherWeights (bothWays G) = hasOtherWeights G := by
  unfold hasOtherWeights bothWays
  cases G.weight with
  | none => rfl
  | some ws => simp

theorem combined_bothWays (es : List (Nat × Nat)) :
    ((graphOfEdges ((bothWays G).edges ++ es)).IsConnected ↔ (graphOfEdges (G.edges ++ es)).IsConnected) ∧
      (graphOfEdges ((bothWays G).edges ++ es)).vcount = (graphOfEdges (G.edges ++ es)).vcount := by
  have hv : (graphOfEdges ((bothWays G).edges ++ es)).vcount = (graphOfEdges (G.edges ++ es)).vcount := by
    refine Nat.le_antisymm ?_ ?_
    · have h := (graphOfEdges_vcount_le (G.edges ++ es) _).mp (le_refl _)
      refine (graphOfEdges_vcount_le _ _).mpr fun e he => ?_
      rcases List.mem_append.mp he with he | he
      · rcases List.mem_append.mp he with he | he
        · exact h e (List.mem_append_left _ he)
        · obtain ⟨a, ha, rfl⟩ := List.mem_map.mp he
          exact (h a (List.mem_append_left _ ha)).symm
      · exact h e (List.mem_append_right _ he)
    · have h := (graphOfEdges_vcount_le ((bothWays G).edges ++ es) _).mp (le_refl _)
      refine (graphOfEdges_vcount_le _ _).mpr fun e he => ?_
      rcases List.mem_append.mp he with he | he
      · exact h e (List.mem_append_left _ (List.mem_append_left _ he))
      · exact h e (List.mem_append_right _ he)
  have hmem : ∀ u v : Nat, ((u, v) ∈ (bothWays G).edges ++ es ∨ (v, u) ∈ (bothWays G).edges ++ es) ↔
      ((u, v) ∈ G.edges ++ es ∨ (v, u) ∈ G.edges ++ es) := by
    intro u v
    have hsw : ∀ a b : Nat, (a, b) ∈ G.edges.map Prod.swap ↔ (b, a) ∈ G.edges := by
      intro a b
      rw [List.mem_map]
      constructor
      · rintro ⟨e, he, heq⟩
        have : e = (b, a) := by rw [← Prod.swap_swap e, heq]; rfl
        exact this ▸ he
      · exact fun h => ⟨_, h, rfl⟩
    simp only [bothWays, List.mem_append, hsw]
    tauto
  have hs : (graphOfEdges ((bothWays G).edges ++ es)).Step = (graphOfEdges (G.edges ++ es)).Step := by
    funext u v
    apply propext
    have := hmem u v
    unfold Graph.Step graphOfEdges
    simpa using this
  refine ⟨?_, hv⟩
  unfold Graph.IsConnected
  rw [hs, hv]

/-- **C92 (warnings).** `prune_to_stable_partitions` emits the same warnings for the directed version and returns the same
partitions. -/
theorem c92_prune_warned (env : PruneEnv) (hG : G.WF) (hd : G.directed = false) (ht : SameAnswer env.test G)
    (ht' : SameAnswer env.test (defaulted env.test G)) (parts : PartsArg α) (γ₀ γf : ℝ) (restrict : Option Nat) (st : Bool) :
    (pruneWarned env (bothWays G) parts γ₀ γf restrict st).1 = (pruneWarned env G parts γ₀ γf restrict st).1 ∧
      (fun r => r.1) <$> (pruneWarned env (bothWays G) parts γ₀ γf restrict st).2 =
        (fun r => r.1) <$> (pruneWarned env G parts γ₀ γf restrict st).2 := by
  unfold pruneWarned
  refine ⟨?_, ?_⟩
  · simp only
    rw [propext (isConnected_bothWays hd), hasOtherWeights_bothWays]
  · simp only
    rw [c92_prune env hG hd ht ht']
    simp [Functor.map_map]

theorem domainEstimates_bothWays (env : PruneEnv) {Gx : Graph ℝ} {layer : List Nat} (hM : Multilayer G Gx layer)
    (hd : G.directed = false) (ht : SameAnswer env.test G) (ht' : SameAnswer env.test (defaulted env.test G)) (model : String)
    (parts : PartsArg α) (γ₀ γf ω₀ ωf : ℝ) (restrict : Option Nat) :
    domainEstimates env (bothWays G) Gx layer model parts γ₀ γf ω₀ ωf restrict =
      domainEstimates env G Gx layer model parts γ₀ γf ω₀ ωf restrict := by
  unfold domainEstimates
  refine bind_congr fun ps => bind_congr fun ps' => ?_
  split
  · rfl
  · rw [(c92_champ3D env.toChampEnv hM ps' γ₀ γf ω₀ ωf).1 hd]
    refine bind_congr fun doms => ?_
    rw [domains_bothWays env.fsolve model hM hd ht ht']
    cases domainsToEstimates env.test env.fsolve Gx layer model G doms <;> rfl

/-- **C92 (multilayer warnings).** The same for `prune_to_multilayer_stable_partitions` and the intralayer graph. -/
theorem c92_prune_multilayer_warned (env : PruneEnv) {Gx : Graph ℝ} {layer : List Nat} (hM : Multilayer G Gx layer)
    (hd : G.directed = false) (ht : SameAnswer env.test G) (ht' : SameAnswer env.test (defaulted env.test G)) (model : String)
    (parts : PartsArg α) (γ₀ γf ω₀ ωf : ℝ) (restrict : Option Nat) (st : Bool) :
    (pruneMultilayerWarned env (bothWays G) Gx layer model parts γ₀ γf ω₀ ωf restrict st).1 =
        (pruneMultilayerWarned env G Gx layer model parts γ₀ γf ω₀ ωf restrict st).1 ∧
      (fun r => r.1) <$> (pruneMultilayerWarned env (bothWays G) Gx layer model parts γ₀ γf ω₀ ωf restrict st).2 =
        (fun r => r.1) <$> (pruneMultilayerWarned env G Gx layer model parts γ₀ γf ω₀ ωf restrict st).2 := by
  have h2 := c92_prune_multilayer env hM hd ht ht' model parts γ₀ γf ω₀ ωf restrict st
  unfold pruneMultilayerWarned
  cases st with
  | true => exact ⟨rfl, rfl⟩
  | false =>
    simp only [Bool.false_eq_true, if_false]
    refine ⟨?_, ?_⟩
    · rw [domainEstimates_bothWays env hM hd ht ht', hasOtherWeights_bothWays]
      rw [propext (combined_bothWays Gx.edges).1, (combined_bothWays Gx.edges).2]
    · rw [h2]
      simp [Functor.map_map]

/-! ### What does change: coupling given in both directions -/

/-- **C92 (coupling).** The coupling of the layers is another matter: given in both directions, every persistence the
library computes for the temporal and multiplex models is doubled — a partition whose communities all persist has ordinal
persistence 2. -/
theorem c92_persistence_doubles (Gx : Graph ℝ) (c : List Nat) (N T : Nat) :
    ordinalPersistence (bothWays Gx) c N T = (ordinalPersistence Gx c N T).map (2 * ·) ∧
      categoricalPersistence (bothWays Gx) c N T = (categoricalPersistence Gx c N T).map (2 * ·) := by
  have hin : insideEdges (bothWays Gx) c = (insideEdges Gx c).map (2 * ·) := by
    unfold insideEdges
    show internalEdgeCount (Gx.edges ++ Gx.edges.map Prod.swap) c = _
    rw [internalEdgeCount_append, internalEdgeCount_swap]
    cases internalEdgeCount Gx.edges c with
    | error e => rfl
    | ok s => show Except.ok (s + s) = Except.ok (2 * s); rw [Nat.two_mul]
  have hdiv : ∀ (s : Nat) (d : ℝ), pyDiv ((2 * s : Nat) : ℝ) d = (pyDiv (s : ℝ) d).map (2 * ·) := by
    intro s d
    unfold pyDiv
    split
    · rfl
    · show Except.ok _ = Except.ok _
      push_cast
      rw [mul_div_assoc]
  constructor
  · unfold ordinalPersistence
    rw [hin]
    cases insideEdges Gx c with
    | error e => rfl
    | ok s => exact hdiv s _
  · unfold categoricalPersistence
    rw [hin]
    cases insideEdges Gx c with
    | error e => rfl
    | ok s => exact hdiv s _

/-! ### The hypotheses are met -/

example : gIntraR.directed = false ∧ Multilayer gIntraR gInterR [0, 0, 0, 1, 1, 1] ∧
    SameAnswer (fun G => G.weight.isSome) gIntraR ∧
    SameAnswer (fun G => G.weight.isSome) (defaulted (fun G => G.weight.isSome) gIntraR) := by
  refine ⟨rfl, gIntraR_multilayer, ?_, ?_⟩ <;> rfl

end

end Verif.Props
