import Verif.Proofs.Objective
import Verif.Props.Coefficients

/-!
# Property C55: Leiden optimises the objective CHAMP prunes with
-/

namespace Verif.Props
open Verif Verif.Spec

variable {F : Type} [Field F] [LinearOrder F] [IsStrictOrderedRing F]

/-- **C55.** For every unweighted multilayer network without intralayer edges between layers and with an edge in every
layer, every membership of the vertices, every `γ`, `ω`: leidenalg's multiplex objective of the problem that
`multilayer_leiden` builds – one RB partition per layer graph of the split with layer weight 1, and the interlayer CPM
partition with layer weight `ω` – has the value `A_hat - γ P_hat + ω C_hat` of the coefficients CHAMP_3D computes. -/
theorem c55_multilayer_objective {Gi Gx : Graph F} (hG : Gi.WF) (hX : Gx.WF) (hv : Gx.vcount = Gi.vcount)
    (hwi : UnitWeights Gi) (hwx : UnitWeights Gx) {layer : List Nat} (hl : layer.length = Gi.vcount) (hn : layer ≠ [])
    (hx : ∀ e ∈ Gi.edges, layer[e.1]? = layer[e.2]?) (hedge : ∀ t ∈ layer, ∃ e ∈ Gi.edges, layer[e.1]? = some t)
    {c : List Nat} (hc : c.length = Gi.vcount) :
    ∃ Gs A P C, splitLayers Gi.vcount Gi.edges Gi.weight Gi.directed layer = .ok Gs ∧
      partitionCoefficients3DSerial Gi Gx layer [c] = .ok ([A], [.fin P], [C]) ∧
      ∀ (possible : Bool → Nat → F) (γ ω : F),
        multiplexObjective possible (multiplexProblem Gs Gx γ ω) c = A - γ * P + ω * C := by
  obtain ⟨T, hT, hT', -, -⟩ := countLayers_ok hn
  obtain ⟨ws, hws⟩ : ∃ ws, Gi.weight = some ws := ⟨_, hwi⟩
  obtain ⟨A, P, C, h1, rfl, rfl, rfl, -⟩ := c08_coefficients_multilayer hG hX hv hl hn (Or.inr hx) hedge
    (parts := [c]) (by simpa using hc)
  refine ⟨_, _, _, _, splitLayers_ok hG hws hl hT hT', h1, ?_⟩
  intro possible γ ω
  rw [multiplexObjective_eq, cpmQuality_zero possible hX hwx (hc.trans hv.symm), List.map_map]
  have hq : ((fun G => rbQuality G γ c) ∘ layerGraph Gi ws layer) = fun t =>
      withinAdj (layerGraph Gi ws layer t) c - γ * withinNull (layerGraph Gi ws layer t) c := by
    funext t
    exact rbQuality_eq (layerGraph_wf hG ws layer t) (layerGraph_unit hwi hws layer t).1 hc γ
  rw [hq, list_range_sum, Finset.sum_sub_distrib, ← Finset.mul_sum, sum_layers_adj hwi hws hl hx hT',
    sum_layers_null hwi hws hl hx hT']

/-- **C55 (optimum).** Hence a membership is optimal for leidenalg's problem at `(γ, ω)` iff it maximises CHAMP's affine
function at `(γ, ω)` (which is multilayer modularity). -/
theorem c55_same_optimum {Gi Gx : Graph F} (hG : Gi.WF) (hX : Gx.WF) (hv : Gx.vcount = Gi.vcount)
    (hwi : UnitWeights Gi) (hwx : UnitWeights Gx) {layer : List Nat} (hl : layer.length = Gi.vcount) (hn : layer ≠ [])
    (hx : ∀ e ∈ Gi.edges, layer[e.1]? = layer[e.2]?) (hedge : ∀ t ∈ layer, ∃ e ∈ Gi.edges, layer[e.1]? = some t)
    {Gs : List (Graph F)} (hs : splitLayers Gi.vcount Gi.edges Gi.weight Gi.directed layer = .ok Gs)
    {c : List Nat} (hc : c.length = Gi.vcount) (possible : Bool → Nat → F) (γ ω : F) :
    (∀ d : List Nat, d.length = Gi.vcount → multiplexObjective possible (multiplexProblem Gs Gx γ ω) d ≤
      multiplexObjective possible (multiplexProblem Gs Gx γ ω) c) ↔
    ∀ d : List Nat, d.length = Gi.vcount →
      multilayerModularity Gi Gx layer γ ω d ≤ multilayerModularity Gi Gx layer γ ω c := by
  have key : ∀ d : List Nat, d.length = Gi.vcount → multiplexObjective possible (multiplexProblem Gs Gx γ ω) d =
      multilayerModularity Gi Gx layer γ ω d := by
    intro d hd
    obtain ⟨Gs', A, P, C, h1, h2, h3⟩ := c55_multilayer_objective hG hX hv hwi hwx hl hn hx hedge hd
    rw [h1] at hs
    obtain rfl := Except.ok.inj hs
    obtain ⟨A', P', C', e1, rfl, rfl, rfl, -⟩ := c08_coefficients_multilayer hG hX hv hl hn (Or.inr hx) hedge
      (parts := [d]) (by simpa using hd)
    rw [e1] at h2
    simp only [List.map_cons, List.map_nil, Except.ok.injEq, Prod.mk.injEq, List.cons.injEq, Fl.fin.injEq, and_true] at h2
    obtain ⟨rfl, rfl, rfl⟩ := h2
    rw [h3]; rfl
  constructor
  · intro h d hd
    rw [← key d hd, ← key c hc]; exact h d hd
  · intro h d hd
    rw [key d hd, key c hc]; exact h d hd

/-- **C55 (single layer).** `singlelayer_leiden` hands the graph to `RBConfigurationVertexPartition` with resolution `γ`;
for every unweighted graph with an edge, directed or not, its quality is `A_hat - γ P_hat` of CHAMP_2D. -/
theorem c55_singlelayer_objective {G : Graph F} (hG : G.WF) (hw : UnitWeights G) (he : 0 < G.ecount) {c : List Nat}
    (hc : c.length = G.vcount) :
    ∃ A P, partitionCoefficients2DSerial G [c] = .ok ([A], [.fin P]) ∧ ∀ γ : F, rbQuality G γ c = A - γ * P := by
  refine ⟨withinAdj G c, withinNull G c, ?_, fun γ => rbQuality_eq hG hw hc γ⟩
  rw [coefficients2D_ok hG he (by simpa using hc)]; rfl

/-- The restriction to unweighted graphs is needed: CHAMP ignores weights, leidenalg does not. -/
theorem c55_weighted_differs : ∃ (G : Graph ℚ) (c : List Nat) (A P : ℚ), G.WF ∧ c.length = G.vcount ∧
    partitionCoefficients2DSerial G [c] = .ok ([A], [.fin P]) ∧ rbQuality G 1 c ≠ A - 1 * P := by
  refine ⟨⟨3, false, [(0, 1), (1, 2)], some [5, 1]⟩, [0, 0, 1], 2, 5 / 2,
    ⟨by decide, by intro ws h; obtain rfl := Option.some.inj h; rfl⟩, rfl, by decide +kernel, by decide +kernel⟩

/-- Two layers of a path on three vertices with unit weights. -/
example : ∃ Gs A P C, splitLayers 6 [(0, 1), (1, 2), (3, 4), (4, 5)] (some [1, 1, 1, 1]) false [0, 0, 0, 1, 1, 1] =
      .ok Gs ∧ partitionCoefficients3DSerial (F := ℚ) ⟨6, false, [(0, 1), (1, 2), (3, 4), (4, 5)], some [1, 1, 1, 1]⟩
        ⟨6, true, [(0, 3), (1, 4), (2, 5)], some [1, 1, 1]⟩ [0, 0, 0, 1, 1, 1] [[0, 0, 1, 0, 0, 1]] =
          .ok ([A], [.fin P], [C]) ∧
      ∀ (possible : Bool → Nat → ℚ) (γ ω : ℚ), multiplexObjective possible
        (multiplexProblem Gs ⟨6, true, [(0, 3), (1, 4), (2, 5)], some [1, 1, 1]⟩ γ ω) [0, 0, 1, 0, 0, 1] =
          A - γ * P + ω * C :=
  c55_multilayer_objective (Gi := ⟨6, false, [(0, 1), (1, 2), (3, 4), (4, 5)], some [1, 1, 1, 1]⟩)
    (Gx := ⟨6, true, [(0, 3), (1, 4), (2, 5)], some [1, 1, 1]⟩)
    ⟨by decide, by intro ws h; obtain rfl := Option.some.inj h; rfl⟩
    ⟨by decide, by intro ws h; obtain rfl := Option.some.inj h; rfl⟩ rfl rfl rfl rfl (by decide) (by decide) (by decide) rfl

end Verif.Props
