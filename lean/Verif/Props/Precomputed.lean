import Verif.Props.Invariance

/-!
# C77: the optional precomputed arguments of the estimation functions

`estimate_multilayer_SBM_parameters` and `gamma_omega_estimate` accept `N`, `T`, `Nt`, `m_t` "automatically computed if
None", `estimate_singlelayer_SBM_parameters` accepts `m`.
-/

set_option linter.unusedSectionVars false

namespace Verif.Props
open Verif Verif.Spec

section Generic
variable {F : Type} [Field F] [LinearOrder F] [IsStrictOrderedRing F]

/-- `T` is the number of layers: the largest label plus one. -/
def LayerCount (layer : List Nat) (T : Nat) : Prop := (∃ l ∈ layer, l + 1 = T) ∧ ∀ l ∈ layer, l < T

/-- Whatever optional arguments are given (`none` is `None`), they have the documented values: `N` nodes per layer, `T`
layers, the vector `Nt` of nodes per layer, the vector `m_t` of total edge weights per layer. -/
structure Precomputed (G : Graph F) (layer : List Nat) (T : Nat) (N? T? : Option Nat) (Nt? : Option (List Nat))
    (mt? : Option (List F)) : Prop where
  nodes : ∀ N, N? = some N → N = G.vcount / T
  layers : ∀ T', T? = some T' → T' = T
  sizes : ∀ Nt, Nt? = some Nt → Nt = (List.range T).map fun t => layer.count t
  weights : ∀ mt, mt? = some mt → ∃ ws, G.weight = some ws ∧
    mt = (List.range T).map fun t => wTotal (layerOf (G.edges.zip ws) layer t)

theorem orCompute_eq {α : Type} {x? : Option α} {c : Py α} (h : ∀ x, x? = some x → c = .ok x) : orCompute x? c = c := by
  cases x? with
  | none => rfl
  | some x => exact (h x rfl).symm

theorem countLayers_ok {layer : List Nat} {T : Nat} (h : LayerCount layer T) : countLayers layer = .ok T := by
  obtain ⟨⟨l, hl, rfl⟩, h2⟩ := h
  have : layer.max? = some l := by
    rw [List.max?_eq_some_iff]
    exact ⟨hl, fun b hb => by have := h2 b hb; omega⟩
  unfold countLayers
  rw [this]

theorem countLayers_layerCount {layer : List Nat} {T : Nat} (h : countLayers layer = .ok T) : LayerCount layer T := by
  unfold countLayers at h
  cases hM : layer.max? with
  | none => rw [hM] at h; cases h
  | some M =>
    rw [hM] at h
    cases h
    rw [List.max?_eq_some_iff] at hM
    exact ⟨⟨M, hM.1, rfl⟩, fun l hl => by have := hM.2 l hl; omega⟩

theorem LayerCount.pos {layer : List Nat} {T : Nat} (h : LayerCount layer T) : 0 < T := by
  obtain ⟨⟨l, _, rfl⟩, _⟩ := h; omega

/-- **C77.** `estimate_singlelayer_SBM_parameters`: passing the total edge weight as `m` changes nothing. -/
theorem c77_single {G : Graph F} {ws : List F} (hw : G.weight = some ws) (c : List Nat) :
    estimateSinglelayerSBM G c (some ws.sum) = estimateSinglelayerSBM G c none := by
  unfold estimateSinglelayerSBM Graph.esWeight
  rw [hw]
  rfl

/-- **C77.** `estimate_multilayer_SBM_parameters`: any combination of correctly precomputed arguments gives the same
result (estimate or exception) as leaving all of them `None`. -/
theorem c77_multilayer (fsolve : (F → F) → F → F) {Gi Gx : Graph F} {layer : List Nat} (hG : Gi.WF)
    (hl : layer.length = Gi.vcount) (c : List Nat) (model : String) {T : Nat} (hT : LayerCount layer T)
    {N? T? : Option Nat} {Nt? : Option (List Nat)} {mt? : Option (List F)} (h : Precomputed Gi layer T N? T? Nt? mt?) :
    estimateMultilayerSBM fsolve Gi Gx layer c model N? T? Nt? mt? =
      estimateMultilayerSBM fsolve Gi Gx layer c model none none none none := by
  have h1 : orCompute T? (countLayers layer) = .ok T := by
    rw [orCompute_eq fun x hx => by rw [countLayers_ok hT, h.layers x hx], countLayers_ok hT]
  have h2 : orCompute N? (vcountFloorDiv Gi.vcount T) = orCompute none (vcountFloorDiv Gi.vcount T) := by
    refine orCompute_eq fun x hx => ?_
    unfold vcountFloorDiv
    rw [if_neg hT.pos.ne', h.nodes x hx]
  have h3 : orCompute Nt? (layerSizes T layer) = orCompute none (layerSizes T layer) :=
    orCompute_eq fun x hx => by rw [layerSizes_ok hT.2, h.sizes x hx]
  have h4 : ∀ es, Gi.weightedEdges = .ok es →
      orCompute mt? (layerWeights T es layer) = orCompute none (layerWeights T es layer) := by
    intro es hes
    refine orCompute_eq fun x hx => ?_
    obtain ⟨ws, hws, rfl⟩ := h.weights x hx
    unfold Graph.weightedEdges at hes
    rw [hws] at hes
    cases hes
    exact layerWeights_ok (fun e he => by rw [hl]; exact hG.1 e.1 (List.of_mem_zip he).1) hT.2
  unfold estimateMultilayerSBM
  have h0 : orCompute none (countLayers layer) = .ok T := countLayers_ok hT
  rw [h1, h0, Py.ok_bind, Py.ok_bind, h2]
  congr 1
  funext N
  cases hes : Gi.weightedEdges with
  | error e => rw [Py.error_bind, Py.error_bind]
  | ok es => rw [Py.ok_bind, Py.ok_bind, h3, h4 es hes]

/-- **C77.** Arguments the model does not use are ignored: `Nt` for temporal and multiplex networks, `N` for multilevel
ones. -/
theorem c77_unused (fsolve : (F → F) → F → F) {Gi Gx : Graph F} {layer : List Nat} (c : List Nat) {T : Nat}
    (hT : LayerCount layer T) (N? N?' : Option Nat) (Nt? Nt?' : Option (List Nat)) (mt? : Option (List F)) :
    (∀ model, model = "temporal" ∨ model = "multiplex" →
      estimateMultilayerSBM fsolve Gi Gx layer c model N? (some T) Nt? mt? =
        estimateMultilayerSBM fsolve Gi Gx layer c model N? (some T) Nt?' mt?) ∧
    estimateMultilayerSBM fsolve Gi Gx layer c "multilevel" N? (some T) Nt? mt? =
      estimateMultilayerSBM fsolve Gi Gx layer c "multilevel" N?' (some T) Nt? mt? := by
  have hs : ∀ s? : Option (List Nat), ∃ s, orCompute s? (layerSizes T layer) = .ok s := by
    intro s?
    cases s? with
    | none => exact ⟨_, layerSizes_ok hT.2⟩
    | some s => exact ⟨s, rfl⟩
  have hn : ∀ n? : Option Nat, ∃ n, orCompute n? (vcountFloorDiv Gi.vcount T) = .ok n := by
    intro n?
    cases n? with
    | none => exact ⟨_, by unfold orCompute vcountFloorDiv; simp only [hT.pos.ne', if_false]; rfl⟩
    | some n => exact ⟨n, rfl⟩
  constructor
  · intro model hm
    obtain ⟨s, h1⟩ := hs Nt?
    obtain ⟨s', h2⟩ := hs Nt?'
    have hp : ∀ N, persistenceFunctionFromModel model Gx (some layer) (some N) (some T) (some s) =
        persistenceFunctionFromModel model Gx (some layer) (some N) (some T) (some s') := by
      intro N
      rcases hm with rfl | rfl <;> rfl
    unfold estimateMultilayerSBM
    have ho : orCompute (some T) (countLayers layer) = .ok T := rfl
    rw [ho, Py.ok_bind, Py.ok_bind]
    simp only [h1, h2, Py.ok_bind, hp]
  · obtain ⟨n, h1⟩ := hn N?
    obtain ⟨n', h2⟩ := hn N?'
    have hp : ∀ s, persistenceFunctionFromModel "multilevel" Gx (some layer) (some n) (some T) (some s) =
        persistenceFunctionFromModel "multilevel" Gx (some layer) (some n') (some T) (some s) := by
      intro s; rfl
    unfold estimateMultilayerSBM
    have ho : orCompute (some T) (countLayers layer) = .ok T := rfl
    rw [ho, Py.ok_bind, Py.ok_bind]
    simp only [h1, h2, Py.ok_bind, hp]

theorem layerSizes_below {layer : List Nat} {T : Nat} {Nt : List Nat} (h : layerSizes T layer = .ok Nt) :
    LayersBelow layer T := by
  have key : ∀ (l acc : List Nat), (l.foldlM (fun acc l => pyAddAt acc l 1) acc : Py (List Nat)) = .ok Nt →
      ∀ x ∈ l, x < acc.length := by
    intro l
    induction l with
    | nil => intro acc _ x hx; cases hx
    | cons a l ih =>
      intro acc h x hx
      rw [List.foldlM_cons] at h
      obtain ⟨acc', h1, h2⟩ := Py.bind_ok' h
      unfold pyAddAt at h1
      split at h1
      · rename_i y hy
        cases h1
        rcases List.mem_cons.mp hx with rfl | hx'
        · exact (List.getElem?_eq_some_iff.mp hy).1
        · have := ih _ h2 x hx'
          rwa [List.length_set] at this
      · cases h1
  intro l hl
  have := key layer _ h l hl
  rwa [List.length_replicate] at this

/-- **C77.** A wrong number of layers is never silently accepted: with `T` different from the number of layers and the
other arguments `None`, the call raises. -/
theorem c77_wrong_T (fsolve : (F → F) → F → F) {Gi Gx : Graph F} {layer : List Nat} (hG : Gi.WF)
    (hl : layer.length = Gi.vcount) {c : List Nat} (hc : c.length = Gi.vcount) (model : String) {T T' : Nat}
    (hT : LayerCount layer T) (hne : T' ≠ T) :
    ∃ e, estimateMultilayerSBM fsolve Gi Gx layer c model none (some T') none none = .error e := by
  rcases Nat.lt_or_gt_of_ne hne with hlt | hgt
  · cases hr : estimateMultilayerSBM fsolve Gi Gx layer c model none (some T') none none with
    | error e => exact ⟨e, rfl⟩
    | ok r =>
      exfalso
      unfold estimateMultilayerSBM at hr
      obtain ⟨T₀, h1, hr⟩ := Py.bind_ok' hr
      cases h1
      obtain ⟨_, -, hr⟩ := Py.bind_ok' hr
      obtain ⟨_, -, hr⟩ := Py.bind_ok' hr
      obtain ⟨_, -, hr⟩ := Py.bind_ok' hr
      obtain ⟨Nt, h2, -⟩ := Py.bind_ok' hr
      have := layerSizes_below (show layerSizes T' layer = .ok Nt from h2)
      obtain ⟨⟨l, hl', rfl⟩, _⟩ := hT
      have := this l hl'
      omega
  · have hb : LayersBelow layer T' := fun l h => lt_trans (hT.2 l h) hgt
    have main : ∀ {G : Graph F} {ws : List F}, G.WF → G.vcount = Gi.vcount → G.weight = some ws →
        ∃ e, estimateMultilayerSBM fsolve G Gx layer c model none (some T') none none = .error e := by
      intro G ws hG' hv hw
      rw [estimateMultilayerSBM_eq fsolve hG' (hl.trans hv.symm) (hc.trans hv.symm) hw model hb (by omega)]
      have h0 : ∃ t < T', 2 * layerM (G.edges.zip ws) layer t = 0 := by
        refine ⟨T, hgt, ?_⟩
        have : layerOf (G.edges.zip ws) layer T = [] := by
          unfold layerOf
          rw [List.filter_eq_nil_iff]
          intro e _ h
          have h' := of_decide_eq_true h
          have := hT.2 T (List.mem_of_getElem? h')
          omega
        unfold layerM
        rw [this]
        simp [wTotal]
      unfold thetas
      rw [if_pos h0]
      exact ⟨_, rfl⟩
    cases hw : Gi.weight with
    | some ws => exact main hG rfl hw
    | none =>
      by_cases he : Gi.edges = []
      · have key : estimateMultilayerSBM fsolve Gi Gx layer c model none (some T') none none =
            estimateMultilayerSBM fsolve { Gi with weight := some [] } Gx layer c model none (some T') none none := by
          unfold estimateMultilayerSBM Graph.weightedEdges
          simp only [hw, he, if_true, List.zip_nil_left]
        rw [key]
        exact main (G := { Gi with weight := some [] }) ⟨hG.1, fun ws h => by cases h; simp [he]⟩ rfl rfl
      · refine ⟨.keyError, ?_⟩
        unfold estimateMultilayerSBM Graph.weightedEdges orCompute vcountFloorDiv
        have : T' ≠ 0 := by omega
        simp only [hw, he, if_false, Py.ok_bind, this, Py.error_bind]

end Generic

/-- **C77.** `gamma_omega_estimate`: any combination of correctly precomputed arguments gives the same estimates (or
exception) and leaves the same graph as leaving all of them `None`.  The per-layer weights are those of the graph after
the weight default. -/
theorem c77_gamma_omega_estimate (test : Graph ℝ → Bool) (fsolve : (ℝ → ℝ) → ℝ → ℝ) {Gi Gx : Graph ℝ}
    {layer : List Nat} (hG : Gi.WF) (hl : layer.length = Gi.vcount) (c : List Nat) (ωmax : ℝ) (model : String) {T : Nat}
    (hT : LayerCount layer T) {N? T? : Option Nat} {Nt? : Option (List Nat)} {mt? : Option (List ℝ)}
    (h : ∀ G, ensureWeight test Gi.ecount Gi = .ok G → Precomputed G layer T N? T? Nt? mt?) :
    gammaOmegaEstimateWith test fsolve Gi Gx layer c ωmax model N? T? Nt? mt? =
      gammaOmegaEstimate test fsolve Gi Gx layer c ωmax model := by
  have h0 : orCompute none (countLayers layer) = .ok T := countLayers_ok hT
  unfold gammaOmegaEstimate gammaOmegaEstimateWith
  cases hw : ensureWeight test Gi.ecount Gi with
  | error e =>
    have h1 : ∃ T', orCompute T? (countLayers layer) = .ok T' := by
      cases T? with
      | none => exact ⟨T, countLayers_ok hT⟩
      | some T' => exact ⟨T', rfl⟩
    obtain ⟨T', h1⟩ := h1
    rw [h0, h1, Py.ok_bind, Py.ok_bind]
    congr 1
  | ok G =>
    have hp := h G hw
    have hv := (ensureWeight_vcount hw).1
    have h1 : orCompute T? (countLayers layer) = .ok T := by
      rw [orCompute_eq fun x hx => by rw [countLayers_ok hT, hp.layers x hx], countLayers_ok hT]
    rw [h0, h1, Py.ok_bind, Py.ok_bind]
    congr 1
    funext community
    rw [Py.ok_bind, Py.ok_bind]
    have hp' : Precomputed G layer T N? (some T) Nt? mt? :=
      ⟨hp.nodes, fun T' h' => (Option.some.inj h').symm, hp.sizes, hp.weights⟩
    have hp'' : Precomputed G layer T none (some T) none none :=
      ⟨by simp, fun T' h' => (Option.some.inj h').symm, by simp, by simp⟩
    rw [c77_multilayer fsolve (ensureWeight_wf hG hw) (hl.trans hv.symm) community model hT hp',
      c77_multilayer fsolve (ensureWeight_wf hG hw) (hl.trans hv.symm) community model hT hp'']

/-- The witness of C28 with all four arguments given. -/
example (fsolve : (ℝ → ℝ) → ℝ → ℝ) (c : List Nat) :
    gammaOmegaEstimateWith (fun G => G.weight.isSome) fsolve gIntraR gInterR [0, 0, 0, 1, 1, 1] c 1000 "multilevel"
        (some 3) (some 2) (some [3, 3]) (some [2, 2]) =
      gammaOmegaEstimate (fun G => G.weight.isSome) fsolve gIntraR gInterR [0, 0, 0, 1, 1, 1] c 1000 "multilevel" := by
  refine c77_gamma_omega_estimate _ fsolve gIntraR_multilayer.intra rfl c 1000 _ (T := 2)
    ⟨⟨1, by decide, rfl⟩, by decide⟩ fun G hG => ?_
  cases hG
  refine ⟨?_, ?_, ?_, ?_⟩
  · rintro N h; cases h; rfl
  · rintro N h; cases h; rfl
  · rintro N h; cases h; decide
  · rintro mt h
    cases h
    refine ⟨[1, 1, 1, 1], rfl, ?_⟩
    simp [gIntraR, layerOf, wTotal, List.range_succ]
    norm_num

end Verif.Props
