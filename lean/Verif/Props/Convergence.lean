import Verif.Model.Convergence
import Verif.Spec.Convergence
import Verif.Props.Synthetic
import Verif.Props.BlockModels
import Verif.Props.Studies
import Verif.Props.IterateMulti
import Verif.Props.Posterior
import Verif.Proofs.History

/-!
# Property C110: the convergence tests
-/

namespace Verif.Props
open Verif Verif.Spec Real

/-! ## The coupling of the multiplex networks -/

/-- **C110.** The coupling of the multiplex test joins every vertex to its copy in every other layer, once, and nothing else:
`n T (T - 1)` edges; with two or more layers the coupling graph has all `n T` vertices. -/
theorem c110_multiplex_coupling (n T : Nat) :
    (∀ a b, (a, b) ∈ (multiplexGraph n T).edges ↔
      ∃ s t v, s < T ∧ t < T ∧ s ≠ t ∧ v < n ∧ a = n * s + v ∧ b = n * t + v) ∧
      (multiplexGraph n T).edges.Nodup ∧ (multiplexGraph n T).ecount = n * T * (T - 1) ∧
      (multiplexGraph n T).directed = true ∧ (multiplexGraph n T).WF ∧ (2 ≤ T → (multiplexGraph n T).vcount = n * T) := by
  have hedges : (multiplexGraph n T).edges = multiplexEdges n T := rfl
  have hmem : ∀ a b, (a, b) ∈ multiplexEdges n T ↔
      ∃ s t v, s < T ∧ t < T ∧ s ≠ t ∧ v < n ∧ a = n * s + v ∧ b = n * t + v := by
    intro a b
    unfold multiplexEdges
    simp only [List.mem_flatMap, List.mem_range, List.mem_map, List.mem_filter, decide_eq_true_eq, Prod.mk.injEq]
    constructor
    · rintro ⟨s, hs, t, ⟨ht, hst⟩, v, hv, rfl, rfl⟩
      exact ⟨s, t, v, hs, ht, hst, hv, rfl, rfl⟩
    · rintro ⟨s, t, v, hs, ht, hst, hv, rfl, rfl⟩
      exact ⟨s, hs, t, ⟨ht, hst⟩, v, hv, rfl, rfl⟩
  have hbound : ∀ e ∈ multiplexEdges n T, e.1 < n * T ∧ e.2 < n * T := by
    rintro ⟨a, b⟩ he
    obtain ⟨s, t, v, hs, ht, -, hv, rfl, rfl⟩ := (hmem a b).mp he
    exact ⟨index_lt hs hv, index_lt ht hv⟩
  have hdiv : ∀ {l v : Nat}, v < n → (n * l + v) / n = l := by
    intro l v hv
    rw [Nat.mul_add_div (by omega), Nat.div_eq_of_lt hv]; rfl
  refine ⟨by rw [hedges]; exact hmem, ?_, ?_, rfl, ⟨?_, ?_⟩, ?_⟩
  · rw [hedges]
    unfold multiplexEdges
    rw [List.nodup_flatMap]
    refine ⟨fun s _ => ?_, ?_⟩
    · rw [List.nodup_flatMap]
      refine ⟨fun t _ => List.nodup_range.map fun a b h => by have := (Prod.mk.inj h).1; omega, ?_⟩
      refine List.Pairwise.imp_of_mem ?_ (List.nodup_range.filter _)
      intro t u _ _ htu
      rw [Function.onFun, List.disjoint_left]
      rintro ⟨a, b⟩ h1 h2
      obtain ⟨v, hv, h1⟩ := List.mem_map.mp h1
      obtain ⟨w, hw, h2⟩ := List.mem_map.mp h2
      rw [List.mem_range] at hv hw
      have h3 : n * t + v = n * u + w := (Prod.mk.inj h1).2.trans (Prod.mk.inj h2).2.symm
      exact htu (by rw [← hdiv (l := t) hv, h3, hdiv hw])
    · refine List.Pairwise.imp_of_mem ?_ List.nodup_range
      intro s u _ _ hsu
      rw [Function.onFun, List.disjoint_left]
      rintro ⟨a, b⟩ h1 h2
      obtain ⟨t, -, h1⟩ := List.mem_flatMap.mp h1
      obtain ⟨t', -, h2⟩ := List.mem_flatMap.mp h2
      obtain ⟨v, hv, h1⟩ := List.mem_map.mp h1
      obtain ⟨w, hw, h2⟩ := List.mem_map.mp h2
      rw [List.mem_range] at hv hw
      have h3 : n * s + v = n * u + w := (Prod.mk.inj h1).1.trans (Prod.mk.inj h2).1.symm
      exact hsu (by rw [← hdiv (l := s) hv, h3, hdiv hw])
  · show (multiplexEdges n T).length = _
    unfold multiplexEdges
    rw [List.length_flatMap]
    have hone : ∀ s ∈ List.range T, (((List.range T).filter fun t => s ≠ t).flatMap fun t =>
        (List.range n).map fun v => (n * s + v, n * t + v)).length = (T - 1) * n := by
      intro s hs
      rw [List.length_flatMap]
      have hf : (List.range T).filter (fun t => decide (s ≠ t)) = (List.range T).erase s := by
        rw [List.nodup_range.erase_eq_filter]
        apply List.filter_congr
        intro t _
        rcases eq_or_ne s t with h | h
        · subst h; simp
        · simp [h, Ne.symm h]
      rw [hf]
      simp [List.length_erase_of_mem hs]
    rw [List.map_congr_left hone]
    simp
    ring
  · intro e he
    exact (graphOfEdges_vcount_le _ _).mp (le_refl (graphOfEdges (multiplexEdges n T)).vcount) e he
  · intro ws h; cases h
  · intro hT
    rcases Nat.eq_zero_or_pos n with h0 | hn
    · subst h0
      have : (graphOfEdges (multiplexEdges 0 T)).vcount ≤ 0 * T := (graphOfEdges_vcount_le _ _).mpr hbound
      show (graphOfEdges (multiplexEdges 0 T)).vcount = 0 * T
      omega
    · apply le_antisymm ((graphOfEdges_vcount_le _ _).mpr hbound)
      have hlast : (n * 0 + (n - 1), n * (T - 1) + (n - 1)) ∈ multiplexEdges n T :=
        (hmem _ _).mpr ⟨0, T - 1, n - 1, by omega, by omega, by omega, by omega, rfl, rfl⟩
      have := ((graphOfEdges_vcount_le _ _).mp (le_refl (graphOfEdges (multiplexEdges n T)).vcount) _ hlast).2
      have e : n * T = n * (T - 1) + n := by rw [← Nat.mul_succ]; congr 1; omega
      show n * T ≤ (graphOfEdges (multiplexEdges n T)).vcount
      simp only at this
      omega

/-! ## Which networks the iteration accepts -/

variable {env : LeidenEnv} {obj : Nat} {d : Draws} {copying pIn pOut : ℝ} {first : List Nat} {T K : Nat}

/-- The network is usable: two or more layers, the last vertex of the last layer has an edge, and every layer has one. -/
def UsableNetwork (d : Draws) (copying pIn pOut : ℝ) (first : List Nat) (T : Nat) : Prop :=
  2 ≤ T ∧ (∃ e ∈ (testBlockModel d copying pIn pOut first T).1.edges, e.1 = first.length * T - 1) ∧
    ∀ t < T, ∃ e ∈ (testBlockModel d copying pIn pOut first T).1.edges,
      (layerVector first.length T)[e.1]? = some t

theorem testBlockModel_layers : (testBlockModel d copying pIn pOut first T).2 = layerVector first.length T :=
  (c95_layers first.length T).1

theorem defaulted_of_none {test : Graph ℝ → Bool} {G : Graph ℝ} (hs : SaneTest test G) (hw : G.weight = none) :
    defaulted test G = { G with weight := some (List.replicate G.ecount 1) } := by
  unfold defaulted
  rw [if_neg fun h => hs h hw]

theorem wTotal_ones_pos {es : List (Nat × Nat)} {layer : List Nat} {t : Nat} :
    0 < wTotal (layerOf (es.zip (List.replicate es.length (1 : ℝ))) layer t) ↔ ∃ e ∈ es, layer[e.1]? = some t := by
  have key : wTotal (layerOf (es.zip (List.replicate es.length (1 : ℝ))) layer t) =
      ((es.filter fun e => decide (layer[e.1]? = some t)).length : ℝ) := by
    unfold wTotal layerOf
    induction es with
    | nil => simp
    | cons e es ih =>
      rw [List.length_cons, List.replicate_succ, List.zip_cons_cons, List.filter_cons, List.filter_cons]
      by_cases h : layer[e.1]? = some t
      · simp only [h, decide_true, if_true, List.map_cons, List.sum_cons, List.length_cons, ih]
        push_cast
        ring
      · simp only [h, decide_false, Bool.false_eq_true, if_false, ih]
  rw [key, Nat.cast_pos, List.length_pos_iff_exists_mem]
  simp

/-- what the iteration needs from the coupling -/
structure TestCoupling (Gx : Graph ℝ) (model : String) (n T : Nat) : Prop where
  wf : Gx.WF
  directed : Gx.directed = true
  plain : Gx.weight = none
  vcount : 2 ≤ T → Gx.vcount = n * T
  temporal : model = "temporal" → Gx.ecount = n * (T - 1)
  multilevel : model = "multilevel" → ∀ v < Gx.vcount, inEdges Gx v ≤ 1
  multiplex : model = "multiplex" → Gx.ecount = n * T * (T - 1)

theorem test_accepted {Gx : Graph ℝ} {model : String} (hx : TestCoupling Gx model first.length T)
    (hs : ∀ G, SaneTest env.test G) (hf : first ≠ []) (hT : 0 < T) :
    Accepted (defaulted env.test (testBlockModel d copying pIn pOut first T).1) (defaulted env.test Gx)
      (List.replicate (testBlockModel d copying pIn pOut first T).1.ecount 1) (layerVector first.length T) model T ↔
    UsableNetwork d copying pIn pOut first T := by
  have hn : 0 < first.length := List.length_pos_iff.mpr hf
  have hpos : 0 < first.length * T := Nat.mul_pos hn hT
  have hGi : (testBlockModel d copying pIn pOut first T).1 = graphOfEdges (blockEdges (layerVector first.length T)
      (labelVector d copying first T) pIn pOut d.edge) := by
    unfold testBlockModel; rw [(c95_layers first.length T).1]
  have hv := block_vcount (pIn := pIn) (pOut := pOut) (draw := d.edge) (labelVector_length d copying first T) hpos
    (layerVector first.length T)
  have hL := (c95_layers first.length T).2.1
  have hcount := (c95_layers first.length T).2.2.2.1
  unfold UsableNetwork
  rw [hGi, defaulted_of_none (hs _) rfl, defaulted_of_none (hs _) hx.plain]
  have hw : ∀ t, (0 < wTotal (layerOf ((blockEdges (layerVector first.length T) (labelVector d copying first T) pIn pOut
      d.edge).zip (List.replicate (graphOfEdges (blockEdges (layerVector first.length T) (labelVector d copying first T)
      pIn pOut d.edge)).ecount (1 : ℝ))) (layerVector first.length T) t)) ↔ _ := fun t => wTotal_ones_pos
  constructor
  · intro h
    refine ⟨h.layers, ?_, fun t ht => (hw t).mp (h.weights t ht)⟩
    exact hv.mp (h.vector.symm.trans hL)
  · rintro ⟨h2, hlast, hlayer⟩
    have hvc := hv.mpr hlast
    have hdiv : first.length * T / T = first.length := Nat.mul_div_cancel _ hT
    exact
      { layers := h2
        directed := hx.directed
        sameSize := (hx.vcount h2).trans hvc.symm
        vector := hL.trans hvc.symm
        weights := fun t ht => (hw t).mpr (hlayer t ht)
        noCross := fun e he => (((c95_edges _ _ pIn pOut d.edge).1 e.1 e.2).mp he).2.2.1
        temporal := fun hm => by
          show T ∣ (graphOfEdges _).vcount ∧ (∀ t < T, _ = (graphOfEdges _).vcount / T) ∧ _ = (graphOfEdges _).vcount / T * _
          rw [hvc, hdiv]
          exact ⟨Dvd.intro_left _ rfl, hcount, hx.temporal hm⟩
        multilevel := fun hm => ⟨fun t ht => by rw [hcount t ht]; exact hn, hx.multilevel hm⟩
        multiplex := fun hm => by
          show (∀ t < T, _ = (graphOfEdges _).vcount / T) ∧ _ = (graphOfEdges _).vcount / T * _ * _
          rw [hvc, hdiv]
          exact ⟨hcount, hx.multiplex hm⟩ }

theorem couplingGraph_inEdges (n T : Nat) : ∀ v, inEdges (couplingGraph n T) v ≤ 1 := by
  intro v
  obtain ⟨hmem, hnd, -⟩ := c95_coupling n T
  unfold inEdges
  have h1 : ((couplingGraph n T).edges.filter fun e => decide (e.2 = v)).Nodup := hnd.filter _
  have h2 : ∀ e ∈ (couplingGraph n T).edges.filter fun e => decide (e.2 = v), e = (v - n, v) := by
    rintro ⟨a, b⟩ he
    obtain ⟨he, hb⟩ := List.mem_filter.mp he
    obtain ⟨l, u, -, -, rfl, rfl⟩ := (hmem a b).mp he
    have hb : n * (l + 1) + u = v := by simpa using hb
    rw [Nat.mul_succ] at hb
    ext
    · show n * l + u = v - n; omega
    · show n * (l + 1) + u = v; rw [Nat.mul_succ]; omega
  by_contra hlt
  push Not at hlt
  obtain ⟨a, b, l, hl⟩ : ∃ a b l, (couplingGraph n T).edges.filter (fun e => decide (e.2 = v)) = a :: b :: l := by
    rcases h : (couplingGraph n T).edges.filter fun e => decide (e.2 = v) with _ | ⟨a, _ | ⟨b, l⟩⟩
    · rw [h] at hlt; simp at hlt
    · rw [h] at hlt; simp at hlt
    · exact ⟨a, b, l, h⟩
  rw [hl] at h1 h2
  have := (h2 a (by simp)).trans (h2 b (by simp)).symm
  subst this
  simp at h1

theorem temporal_coupling (n T : Nat) {model : String} (hm : model = "temporal" ∨ model = "multilevel") :
    TestCoupling (couplingGraph n T) model n T := by
  obtain ⟨-, -, he, hd, hwf, hv⟩ := c95_coupling n T
  refine ⟨hwf, hd, rfl, hv, fun _ => he, fun _ v _ => couplingGraph_inEdges n T v, ?_⟩
  rintro rfl
  rcases hm with h | h <;> simp at h

theorem multiplex_coupling (n T : Nat) : TestCoupling (multiplexGraph n T) "multiplex" n T := by
  obtain ⟨-, -, he, hd, hwf, hv⟩ := c110_multiplex_coupling n T
  exact ⟨hwf, hd, rfl, hv, fun h => absurd h (by decide), fun h => absurd h (by decide), fun _ => he⟩

theorem test_admissible {Gx : Graph ℝ} {model : String} (hx : TestCoupling Gx model first.length T)
    (hs : ∀ G, SaneTest env.test G) (hf : first ≠ []) (hu : UsableNetwork d copying pIn pOut first T)
    (hk : model = "temporal" ∨ model = "multilevel" ∨ model = "multiplex") :
    Admissible env (testBlockModel d copying pIn pOut first T).1 Gx (layerVector first.length T) model T
      (List.replicate (testBlockModel d copying pIn pOut first T).1.ecount 1) := by
  have hT : 0 < T := by have := hu.1; omega
  have hC := (c95_layers first.length T).2.2.2.2 (List.length_pos_iff.mpr hf)
  exact { intra := block_wf _ _ _ _ _
          inter := hx.wf
          sane := hs _
          weights := by rw [defaulted_of_none (hs _) rfl]
          top := (hC _).mpr (by omega)
          below := fun l hl => (hC l).mp hl
          accepted := (test_accepted hx hs hf hT).mpr hu
          known := hk }

/-- **C110 (which networks).** The preparation of the iteration accepts the network of a convergence test exactly if it has at least two
layers, the last vertex of the last layer has an edge and every layer has one; otherwise the test stops with the exception of the
preparation before any optimisation. -/
theorem c110_accepted (hs : ∀ G, SaneTest env.test G) (hf : first ≠ []) (hT : 0 < T) {model : String} {Gx : Graph ℝ}
    (hx : (model = "temporal" ∨ model = "multilevel") ∧ Gx = couplingGraph first.length T ∨
      model = "multiplex" ∧ Gx = multiplexGraph first.length T) :
    ((∃ r, prepareMultilayer (defaulted env.test (testBlockModel d copying pIn pOut first T).1) (defaulted env.test Gx)
      (testBlockModel d copying pIn pOut first T).2 model = .ok r) ↔ UsableNetwork d copying pIn pOut first T) ∧
    (¬ UsableNetwork d copying pIn pOut first T → ∀ γ ω γtol ωtol ωmax n v w, ∃ e,
      iterateMulti env obj (testBlockModel d copying pIn pOut first T).1 Gx (testBlockModel d copying pIn pOut first T).2 γ ω γtol
        ωtol ωmax n model v w = (.error e, w)) := by
  have hx : TestCoupling Gx model first.length T := by
    rcases hx with ⟨hm, rfl⟩ | ⟨rfl, rfl⟩
    · exact temporal_coupling _ _ hm
    · exact multiplex_coupling _ _
  have hC := (c95_layers first.length T).2.2.2.2 (List.length_pos_iff.mpr hf)
  have hiff : (∃ r, prepareMultilayer (defaulted env.test (testBlockModel d copying pIn pOut first T).1) (defaulted env.test Gx)
      (testBlockModel d copying pIn pOut first T).2 model = .ok r) ↔ UsableNetwork d copying pIn pOut first T := by
    have hwf : (testBlockModel d copying pIn pOut first T).1.WF := block_wf _ _ _ _ _
    rw [testBlockModel_layers, (c49_accepts_iff (ws := List.replicate (testBlockModel d copying pIn pOut first T).1.ecount 1)
      (T := T) (defaulted_wf (test := env.test) hwf) _ model
      (by rw [defaulted_of_none (hs _) rfl]) ((hC _).mpr (by omega))
      (fun l hl => (hC l).mp hl)).1]
    exact test_accepted hx hs hf hT
  refine ⟨hiff, ?_⟩
  intro hu γ ω γtol ωtol ωmax n v w
  cases hprep : prepareMultilayer (defaulted env.test (testBlockModel d copying pIn pOut first T).1) (defaulted env.test Gx)
      (testBlockModel d copying pIn pOut first T).2 model with
  | ok r => exact absurd (hiff.mp ⟨r, hprep⟩) hu
  | error e => exact ⟨e, c47_malformed γ ω γtol ωtol ωmax n v w hprep⟩

/-! ## Multilevel and temporal estimates -/

theorem sum_keptInto {Gx : Graph ℝ} {layer c : List Nat} (h : ∀ e ∈ Gx.edges, ∃ t < T, layer[e.2]? = some t) :
    ∑ t ∈ Finset.range T, keptInto Gx layer c t = keptEdges Gx c := by
  unfold keptInto keptEdges
  generalize Gx.edges = es at h
  induction es with
  | nil => simp
  | cons e es ih =>
    have ih := ih fun x hx => h x (List.mem_cons_of_mem _ hx)
    obtain ⟨t, ht, he⟩ := h e (by simp)
    by_cases hc : c[e.1]? = c[e.2]?
    · have : ∀ s, ((e :: es).filter fun e => decide (layer[e.2]? = some s ∧ c[e.1]? = c[e.2]?)).length =
          (if s = t then 1 else 0) + (es.filter fun e => decide (layer[e.2]? = some s ∧ c[e.1]? = c[e.2]?)).length := by
        intro s
        rw [List.filter_cons]
        by_cases hst : s = t
        · subst hst
          rw [if_pos (by simp [he, hc]), if_pos rfl, List.length_cons]; omega
        · rw [if_neg (by simp [he, Ne.symm hst]), if_neg hst]; omega
      simp only [this]
      rw [Finset.sum_add_distrib, ih, List.filter_cons, if_pos (by simpa using hc), List.length_cons]
      simp [ht]
      omega
    · have : ∀ s, ((e :: es).filter fun e => decide (layer[e.2]? = some s ∧ c[e.1]? = c[e.2]?)).length =
          (es.filter fun e => decide (layer[e.2]? = some s ∧ c[e.1]? = c[e.2]?)).length := by
        intro s
        rw [List.filter_cons, if_neg (by simp [hc])]
      simp only [this]
      rw [ih, List.filter_cons, if_neg (by simpa using hc)]

/-- **C110 (multilevel generalises temporal).** On every network that is accepted as a temporal and as a multilevel one, every
partition has the same block-model parameters – and so the same `gamma_omega_estimate` – in both models. -/
theorem c110_multilevel_is_temporal {fsolve : (ℝ → ℝ) → ℝ → ℝ} {Gi Gx : Graph ℝ} {layer : List Nat} {ws : List ℝ} (hx : Gx.WF)
    (hC : Contiguous layer T) (ht : Accepted Gi Gx ws layer "temporal" T)
    (hm : Accepted Gi Gx ws layer "multilevel" T) {c : List Nat} (hc : c.length = Gi.vcount) :
    estimateMultilayerSBM fsolve Gi Gx layer c "multilevel" none none none none =
      estimateMultilayerSBM fsolve Gi Gx layer c "temporal" none none none none ∧
    ∀ (test : Graph ℝ → Bool) ωmax, defaulted test Gi = Gi →
      gammaOmegaEstimate test fsolve Gi Gx layer c ωmax "multilevel" =
      gammaOmegaEstimate test fsolve Gi Gx layer c ωmax "temporal" := by
  have hT := ht.layers
  have hcl : countLayers layer = .ok T := by
    unfold countLayers
    rw [contiguous_max hC (by omega)]
    show Except.ok (T - 1 + 1) = Except.ok T
    rw [Nat.sub_add_cancel (by omega)]
  have hN : vcountFloorDiv Gi.vcount T = .ok (Gi.vcount / T) := by unfold vcountFloorDiv; rw [if_neg (by omega)]
  obtain ⟨f, x, hf, hfx, hxv, -⟩ := c31_persistence_is_fraction hx (Or.inl rfl) ht hc
    (some ((List.range T).map fun t => layer.count t))
  obtain ⟨g, y, hg, hgy, hyv, -⟩ := c31_multilevel_persistence hx hm (fun l hl => (hC l).mp hl) hc (some (Gi.vcount / T))
  obtain ⟨hd, hcnt, hec⟩ := ht.temporal rfl
  have hxy : y = x := by
    have hT' : (2 : ℝ) ≤ T := by exact_mod_cast hT
    rw [hyv, hxv, hec]
    have h1 : ∀ t ∈ Finset.range T, (keptInto Gx layer c t : ℝ) / (layer.count t : ℝ) =
        (keptInto Gx layer c t : ℝ) / ((Gi.vcount / T : Nat) : ℝ) := by
      intro t ht
      rw [hcnt t (Finset.mem_range.mp ht)]
    rw [Finset.sum_congr rfl h1, ← Finset.sum_div, ← Nat.cast_sum, sum_keptInto (T := T), div_div]
    · push_cast [Nat.cast_sub (show 1 ≤ T by omega)]
      rfl
    · intro e he
      have hlt : e.2 < layer.length := by rw [ht.vector, ← ht.sameSize]; exact (hx.1 e he).2
      exact ⟨layer[e.2], (hC _).mp (List.getElem_mem hlt), List.getElem?_eq_getElem hlt⟩
  have hest : estimateMultilayerSBM fsolve Gi Gx layer c "multilevel" none none none none =
      estimateMultilayerSBM fsolve Gi Gx layer c "temporal" none none none none := by
    unfold estimateMultilayerSBM
    simp only [orCompute, hcl, Py.ok_bind, hN, layerSizes_ok (fun l hl => (hC l).mp hl), hf, hg, hfx, hgy, hxy]
    rfl
  refine ⟨hest, fun test ωmax htest => ?_⟩
  have hto : omegaFunctionFromModel "multilevel" ωmax = omegaFunctionFromModel "temporal" ωmax := rfl
  have hlp : leidenPartWithMembership Gi c = .ok c := by unfold leidenPartWithMembership; rw [if_pos hc]
  have hens : ensureWeight test Gi.ecount Gi = .ok Gi := by rw [ensureWeight_ecount, htest]
  simp only [gammaOmegaEstimate_def, hcl, Py.ok_bind, hlp, hens, estimateMultilayerSBM_countLayers _ _ _ _ _ _ hcl, hest, hto]

/-! ## The values aimed at -/

variable {G : Graph ℝ} {scale : ℝ}

theorem npDiv_fin {a b : ℝ} (h : b ≠ 0) : npDiv a b = .fin (a / b) := by unfold npDiv; rw [if_pos h]

theorem trueTheta_value (hG : G.WF) (hm : 0 < G.ecount) (hT : 0 < T) (p : ℝ) :
    trueTheta p G T = .fin (p * ((G.vcount : ℝ) ^ 2 / (2 * G.ecount * T))) := by
  have hmr : (0 : ℝ) < G.ecount := by exact_mod_cast hm
  have hTr : (0 : ℝ) < T := by exact_mod_cast hT
  have hN : 0 < G.vcount := by
    obtain ⟨e, he⟩ := List.length_pos_iff_exists_mem.mp hm
    have := (hG.1 e he).1
    omega
  have hNr : (0 : ℝ) < G.vcount := by exact_mod_cast hN
  have hsum : (G.allDegrees.map fun (d : Nat) => (d : ℝ)).sum = 2 * G.ecount := by
    unfold Graph.allDegrees
    rw [List.map_map]
    exact handshake hG.1
  have hlen : ((G.allDegrees.map fun (d : Nat) => (d : ℝ)).length : ℝ) = G.vcount := by
    simp [Graph.allDegrees]
  have hk : npMean (G.allDegrees.map fun (d : Nat) => (d : ℝ)) = .fin (2 * G.ecount / G.vcount) := by
    unfold npMean npDiv
    rw [hsum, hlen, if_pos hNr.ne']
  have hkk : (2 * (G.ecount : ℝ) / G.vcount) * (2 * G.ecount / G.vcount) ≠ 0 := by positivity
  unfold trueTheta
  simp only [hk, Fl.mul, Fl.div, npDiv_fin hkk, npDiv_fin hTr.ne']
  congr 1
  field_simp

/-- **C110 (the values aimed at).** On every graph with `N` vertices and `m > 0` edges in `T` layers, for positive different
probabilities and a copying probability below 1, the test aims at `plantedGamma` and `plantedOmega`. -/
theorem c110_truth (hG : G.WF) (hm : 0 < G.ecount) (hT : 0 < T) (hi : 0 < pIn) (ho : 0 < pOut) (hne : pIn ≠ pOut)
    (hc : 0 ≤ copying) (hc1 : copying < 1) (hs : scale ≠ 0) :
    trueValues scale copying pIn pOut K T G =
      .ok (.fin (plantedGamma pIn pOut G.vcount G.ecount T), .fin (plantedOmega scale copying K pIn pOut)) := by
  have hmr : (0 : ℝ) < G.ecount := by exact_mod_cast hm
  have hTr : (0 : ℝ) < T := by exact_mod_cast hT
  have hN : 0 < G.vcount := by
    obtain ⟨e, he⟩ := List.length_pos_iff_exists_mem.mp hm
    have := (hG.1 e he).1
    omega
  have hNr : (0 : ℝ) < G.vcount := by exact_mod_cast hN
  have hq : 0 < (G.vcount : ℝ) ^ 2 / (2 * G.ecount * T) := by positivity
  have hl : log (pIn * ((G.vcount : ℝ) ^ 2 / (2 * G.ecount * T))) - log (pOut * ((G.vcount : ℝ) ^ 2 / (2 * G.ecount * T))) =
      log (pIn / pOut) := by
    rw [log_mul hi.ne' hq.ne', log_mul ho.ne' hq.ne', log_div hi.ne' ho.ne']; ring
  have hl0 : log (pIn / pOut) ≠ 0 := by
    rw [log_div hi.ne' ho.ne']
    exact fun h => hne ((log_sub_eq_zero hi ho).mp h)
  have hr : 0 ≤ copying * (K : ℝ) / (1 - copying) := div_nonneg (mul_nonneg hc (Nat.cast_nonneg _)) (by linarith)
  unfold trueValues
  simp only [trueTheta_value hG hm hT, pyLogFl, pyLog, if_pos (mul_pos hi hq), if_pos (mul_pos ho hq), Py.ok_bind, Py.pure_eq,
    pyDiv, if_neg (show ¬ (1 - copying = 0) by linarith), if_pos (show 0 < 1 + copying * (K : ℝ) / (1 - copying) by linarith)]
  simp only [Fl.sub, Fl.add, ← sub_eq_add_neg, hl, Fl.mul, pyDivFl, if_neg (mul_ne_zero hs hl0), Fl.div, npDiv_fin hl0,
    npDiv_fin (mul_ne_zero hs hl0), Py.ok_bind]
  unfold plantedGamma plantedOmega
  congr 3
  rw [← sub_mul]
  ring

/-- **C110 (these are the estimates at the true parameters).** The values aimed at are what the library's formulas give for the
planted parameters `θ = p N²/(2 m T)`, with which two vertices of mean degree `2m/N` in one of `T` equal layers are joined with
probability `p`; for the multiplex formula unless `θ_in = 1`. -/
theorem c110_truth_is_estimate (hG : G.WF) (hm : 0 < G.ecount) (hT : 0 < T) (hi : 0 < pIn) (ho : 0 < pOut) (hne : pIn ≠ pOut)
    (hc : 0 < copying) (hc1 : copying < 1) (ωmax : ℝ) :
    ∃ θin θout : ℝ,
      (∀ k : ℝ, k = 2 * G.ecount / G.vcount →
        θin * k * k / (2 * (G.ecount / T)) = pIn ∧ θout * k * k / (2 * (G.ecount / T)) = pOut) ∧
      gammaFromParameters θin θout = some (.fin (plantedGamma pIn pOut G.vcount G.ecount T)) ∧
      temporalOmega θin θout copying K ωmax = .ok (plantedOmega 2 copying K pIn pOut) ∧
      (θin ≠ 1 → multiplexOmega θin θout copying K T ωmax = .ok (plantedOmega T copying K pIn pOut)) ∧
      (θin = 1 → multiplexOmega θin θout copying K T ωmax = .ok ωmax) := by
  have hmr : (0 : ℝ) < G.ecount := by exact_mod_cast hm
  have hTr : (0 : ℝ) < T := by exact_mod_cast hT
  have hN : 0 < G.vcount := by
    obtain ⟨e, he⟩ := List.length_pos_iff_exists_mem.mp hm
    have := (hG.1 e he).1
    omega
  have hNr : (0 : ℝ) < G.vcount := by exact_mod_cast hN
  have hq : 0 < (G.vcount : ℝ) ^ 2 / (2 * G.ecount * T) := by positivity
  generalize hQ : (G.vcount : ℝ) ^ 2 / (2 * G.ecount * T) = Q at hq
  have hl : log (pIn * Q) - log (pOut * Q) = log (pIn / pOut) := by
    rw [log_mul hi.ne' hq.ne', log_mul ho.ne' hq.ne', log_div hi.ne' ho.ne']; ring
  have hl0 : log (pIn / pOut) ≠ 0 := by
    rw [log_div hi.ne' ho.ne']
    exact fun h => hne ((log_sub_eq_zero hi ho).mp h)
  have hr : 0 ≤ copying * (K : ℝ) / (1 - copying) := div_nonneg (mul_nonneg hc.le (Nat.cast_nonneg _)) (by linarith)
  have hr' : 0 < 1 + copying * (K : ℝ) / (1 - copying) := by linarith
  refine ⟨pIn * Q, pOut * Q, ?_, ?_, ?_, ?_, ?_⟩
  · rintro k rfl
    rw [← hQ]
    constructor <;> field_simp
  · refine ((c27_degenerate_estimates _ _).2.2.1 _).mpr ⟨mul_pos hi hq, mul_pos ho hq, ?_, ?_⟩
    · exact fun h => hne (mul_right_cancel₀ hq.ne' h)
    · unfold logMean plantedGamma
      rw [hl, hQ, ← sub_mul]; ring
  · unfold temporalOmega
    rw [if_neg hc.ne', if_neg (mul_pos ho hq).ne', if_pos hc1]
    simp only [pyLog, if_pos hr', if_pos (mul_pos hi hq), if_pos (mul_pos ho hq), Py.ok_bind, hl, pyDiv,
      if_neg (mul_ne_zero two_ne_zero hl0)]
    rfl
  · intro h1
    unfold multiplexOmega
    rw [if_neg hc.ne', if_neg (by rintro (h | h); linarith; exact h1 h), if_neg (mul_pos ho hq).ne']
    simp only [pyLog, if_pos hr', if_pos (mul_pos hi hq), if_pos (mul_pos ho hq), Py.ok_bind, hl, pyDiv,
      if_neg (mul_ne_zero hTr.ne' hl0)]
    rfl
  · intro h1
    unfold multiplexOmega
    rw [if_neg hc.ne', if_pos (Or.inr h1)]

/-- **C110 (no value to aim at).** A probability that is not positive: `ValueError`.  Positive probabilities, but full copying
(`copying_probability=1`) or equal probabilities: `ZeroDivisionError`. -/
theorem c110_truth_errors (hG : G.WF) (hm : 0 < G.ecount) (hT : 0 < T) (hc : 0 ≤ copying) (hc1 : copying ≤ 1) :
    (pIn ≤ 0 ∨ pOut ≤ 0 → trueValues scale copying pIn pOut K T G = .error (.valueError "math domain error")) ∧
    (0 < pIn → 0 < pOut → copying = 1 ∨ pIn = pOut → trueValues scale copying pIn pOut K T G = .error .zeroDivisionError) := by
  have hmr : (0 : ℝ) < G.ecount := by exact_mod_cast hm
  have hTr : (0 : ℝ) < T := by exact_mod_cast hT
  have hN : 0 < G.vcount := by
    obtain ⟨e, he⟩ := List.length_pos_iff_exists_mem.mp hm
    have := (hG.1 e he).1
    omega
  have hNr : (0 : ℝ) < G.vcount := by exact_mod_cast hN
  have hq : 0 < (G.vcount : ℝ) ^ 2 / (2 * G.ecount * T) := by positivity
  unfold trueValues
  simp only [trueTheta_value hG hm hT]
  generalize (G.vcount : ℝ) ^ 2 / (2 * G.ecount * T) = Q at hq
  refine ⟨?_, ?_⟩
  · intro h
    by_cases hi : 0 < pIn
    · have ho : pOut ≤ 0 := by rcases h with h | h; linarith; exact h
      simp only [pyLogFl, pyLog, if_pos (mul_pos hi hq), Py.ok_bind, Py.pure_eq,
        if_neg (not_lt.mpr (mul_nonpos_of_nonpos_of_nonneg ho hq.le)), Py.error_bind]
    · simp only [pyLogFl, pyLog, if_neg (not_lt.mpr (mul_nonpos_of_nonpos_of_nonneg (not_lt.mp hi) hq.le)), Py.error_bind]
  · intro hi ho h
    simp only [pyLogFl, pyLog, if_pos (mul_pos hi hq), if_pos (mul_pos ho hq), Py.ok_bind, Py.pure_eq, pyDiv]
    by_cases h1 : 1 - copying = 0
    · rw [if_pos h1, Py.error_bind]
    · have hlt : copying < 1 := lt_of_le_of_ne hc1 (fun h => h1 (by linarith))
      have hr : 0 ≤ copying * (K : ℝ) / (1 - copying) := div_nonneg (mul_nonneg hc (Nat.cast_nonneg _)) (by linarith)
      have hp : pIn = pOut := by rcases h with h | h; (exact absurd (by linarith) h1); exact h
      subst hp
      rw [if_neg h1, Py.ok_bind, if_pos (by linarith), Py.ok_bind]
      simp only [Fl.sub, Fl.add, Fl.mul, pyDivFl, add_neg_cancel, mul_zero, if_true, Py.error_bind]

/-! ## The verdicts -/

theorem prog_bind_ok {α β : Type} {x : Prog α} {f : α → Prog β} {w : World} {b : β} :
    ((x >>= f) w).1 = .ok b ↔ ∃ a w', x w = (.ok a, w') ∧ (f a w').1 = .ok b := by
  rw [Prog.bind_eq]
  rcases x w with ⟨_ | a, w'⟩
  · simp
  · constructor
    · intro h; exact ⟨a, w', rfl, h⟩
    · rintro ⟨a', w'', h, h2⟩
      simp only [Prod.mk.injEq, Except.ok.injEq] at h
      obtain ⟨rfl, rfl⟩ := h
      exact h2

theorem prog_lift_ok {α β : Type} {x : Py α} {f : α → Prog β} {w : World} {b : β} :
    (((Prog.lift x : Prog α) >>= f) w).1 = .ok b ↔ ∃ a, x = .ok a ∧ (f a w).1 = .ok b := by
  rw [prog_bind_ok]
  unfold Prog.lift
  constructor
  · rintro ⟨a, w', h, h2⟩
    simp only [Prod.mk.injEq] at h
    obtain ⟨rfl, rfl⟩ := h
    exact ⟨a, rfl, h2⟩
  · rintro ⟨a, rfl, h⟩; exact ⟨a, w, rfl, h⟩

/-- **C110 (the assertions).** `assertLess(abs(x - y), tol)` passes exactly if both are numbers that differ by less than `tol`. -/
theorem c110_assertion {x y : Fl ℝ} {tol : ℝ} : assertClose x y tol = .ok () ↔ Within tol x y := by
  unfold assertClose
  rw [← near_iff]
  split <;> simp_all

theorem within_fin {tol a : ℝ} {b : ℝ} : Within tol (.fin a) (.fin b) ↔ |a - b| < tol := by
  unfold Within
  constructor
  · rintro ⟨x, y, hx, hy, h⟩
    obtain rfl := Fl.fin.inj hx
    obtain rfl := Fl.fin.inj hy
    exact h
  · intro h; exact ⟨a, b, rfl, rfl, h⟩

/-- A partition whose estimates are within `tolγ`, `tolω` of the wanted values. -/
def EstimatesNear (env : LeidenEnv) (Gi Gx : Graph ℝ) (layers : List Nat) (model : String) (γ ω tolγ tolω : ℝ)
    (c : List Nat) : Prop :=
  ∃ g o, gammaOmegaEstimate env.test env.fsolve Gi Gx layers c 1000 model = .ok ((some (.fin g), o), Gi) ∧
    |γ - g| < tolγ ∧ |ω - o| < tolω

theorem usable_edges (hu : UsableNetwork d copying pIn pOut first T) :
    0 < (testBlockModel d copying pIn pOut first T).1.ecount := by
  obtain ⟨-, ⟨e, he, -⟩, -⟩ := hu
  exact List.length_pos_of_mem he

/-- **C110 (temporal and multilevel verdict).** For a usable network, positive different probabilities and a copying probability
below 1, the test passes exactly if the temporal run and, after it in the same process, the multilevel run return numbers within
0.05 of `plantedGamma` and 0.1 of `plantedOmega`. -/
theorem c110_temporal_verdict (hf : first ≠ []) (hK : Contiguous first K) (hu : UsableNetwork d copying pIn pOut first T)
    (hi : 0 < pIn) (ho : 0 < pOut) (hne : pIn ≠ pOut) (hc : 0 ≤ copying) (hc1 : copying < 1) (w : World) :
    let net := testBlockModel d copying pIn pOut first T
    let γ := plantedGamma pIn pOut net.1.vcount net.1.ecount T
    let ω := plantedOmega 2 copying K pIn pOut
    (temporalConvergence env obj d first copying T pIn pOut w).1 = .ok () ↔
      ∃ g o c Gi Gx w' g' o' c' Gs w'',
        iterateMulti env obj net.1 (couplingGraph first.length T) net.2 1 1 (1 / 100) (5 / 100) 1000 25 "temporal" false w =
          (.ok (.fin g, o, c, Gi, Gx), w') ∧ |γ - g| < 5 / 100 ∧ |ω - o| < 1 / 10 ∧
        iterateMulti env obj Gi Gx net.2 1 1 (1 / 100) (5 / 100) 1000 25 "multilevel" false w' = (.ok (.fin g', o', c', Gs), w'') ∧
        |γ - g'| < 5 / 100 ∧ |ω - o'| < 1 / 10 := by
  intro net γ ω
  have hT : 0 < T := by have := hu.1; omega
  have hwf : (testBlockModel d copying pIn pOut first T).1.WF := block_wf _ _ _ _ _
  have htruth : trueValues 2 copying pIn pOut K T (testBlockModel d copying pIn pOut first T).1 = _ :=
    c110_truth (K := K) hwf (usable_edges hu) hT hi ho hne hc hc1 (two_ne_zero)
  have hnum := numCommunities_nat.mpr ⟨hf, hK⟩
  unfold temporalConvergence
  rw [prog_lift_ok]
  constructor
  · rintro ⟨K', hK', h⟩
    rw [hnum] at hK'
    obtain rfl := Except.ok.inj hK'
    rw [htruth] at h
    obtain ⟨_, h0, h⟩ := prog_lift_ok.mp h
    obtain rfl := Except.ok.inj h0
    obtain ⟨⟨g, o, c, Gi, Gx⟩, w', hr, h⟩ := prog_bind_ok.mp h
    obtain ⟨_, h1, h⟩ := prog_lift_ok.mp h
    obtain ⟨_, h2, h⟩ := prog_lift_ok.mp h
    obtain ⟨⟨g', o', c', Gs⟩, w'', hr', h⟩ := prog_bind_ok.mp h
    obtain ⟨_, h3, h4⟩ := prog_lift_ok.mp h
    have h4 : assertClose (.fin ω) (.fin o') (1 / 10) = .ok () := h4
    obtain ⟨_, g, -, rfl, -⟩ := c110_assertion.mp h1
    obtain ⟨_, g', -, rfl, -⟩ := c110_assertion.mp h3
    exact ⟨g, o, c, Gi, Gx, w', g', o', c', Gs, w'', hr, within_fin.mp (c110_assertion.mp h1), within_fin.mp (c110_assertion.mp h2),
      hr', within_fin.mp (c110_assertion.mp h3), within_fin.mp (c110_assertion.mp h4)⟩
  · rintro ⟨g, o, c, Gi, Gx, w', g', o', c', Gs, w'', hr, h1, h2, hr', h3, h4⟩
    refine ⟨K, hnum, ?_⟩
    rw [htruth]
    refine prog_lift_ok.mpr ⟨_, rfl, prog_bind_ok.mpr ⟨_, w', hr, prog_lift_ok.mpr ⟨(), c110_assertion.mpr (within_fin.mpr h1),
      prog_lift_ok.mpr ⟨(), c110_assertion.mpr (within_fin.mpr h2), prog_bind_ok.mpr ⟨_, w'', hr', prog_lift_ok.mpr
      ⟨(), c110_assertion.mpr (within_fin.mpr h3), ?_⟩⟩⟩⟩⟩⟩
    exact c110_assertion.mpr (within_fin.mpr h4)

/-- **C110 (multiplex verdict).** The same for the multiplex test: within 0.1 and 0.2, with the number of layers as scale. -/
theorem c110_multiplex_verdict (hf : first ≠ []) (hK : Contiguous first K) (hu : UsableNetwork d copying pIn pOut first T)
    (hi : 0 < pIn) (ho : 0 < pOut) (hne : pIn ≠ pOut) (hc : 0 ≤ copying) (hc1 : copying < 1) (w : World) :
    let net := testBlockModel d copying pIn pOut first T
    (multiplexConvergence env obj d first copying T pIn pOut w).1 = .ok () ↔
      ∃ g o rest w', iterateMulti env obj net.1 (multiplexGraph first.length T) net.2 1 (1 / 10) (1 / 100) (5 / 100) 1000 25
          "multiplex" false w = (.ok (.fin g, o, rest), w') ∧
        |plantedGamma pIn pOut net.1.vcount net.1.ecount T - g| < 1 / 10 ∧ |plantedOmega T copying K pIn pOut - o| < 2 / 10 := by
  intro net
  have hT : 0 < T := by have := hu.1; omega
  have hwf : (testBlockModel d copying pIn pOut first T).1.WF := block_wf _ _ _ _ _
  have htruth : trueValues (T : ℝ) copying pIn pOut K T (testBlockModel d copying pIn pOut first T).1 = _ :=
    c110_truth (K := K) hwf (usable_edges hu) hT hi ho hne hc hc1 (by exact_mod_cast hT.ne')
  have hnum := numCommunities_nat.mpr ⟨hf, hK⟩
  unfold multiplexConvergence
  rw [prog_lift_ok]
  constructor
  · rintro ⟨K', hK', h⟩
    rw [hnum] at hK'
    obtain rfl := Except.ok.inj hK'
    rw [htruth] at h
    obtain ⟨_, h0, h⟩ := prog_lift_ok.mp h
    obtain rfl := Except.ok.inj h0
    obtain ⟨⟨g, o, rest⟩, w', hr, h⟩ := prog_bind_ok.mp h
    obtain ⟨_, h1, h2⟩ := prog_lift_ok.mp h
    have h2 : assertClose (.fin (plantedOmega T copying K pIn pOut)) (.fin o) (2 / 10) = .ok () := h2
    obtain ⟨_, g, -, rfl, -⟩ := c110_assertion.mp h1
    exact ⟨g, o, rest, w', hr, within_fin.mp (c110_assertion.mp h1), within_fin.mp (c110_assertion.mp h2)⟩
  · rintro ⟨g, o, rest, w', hr, h1, h2⟩
    refine ⟨K, hnum, ?_⟩
    rw [htruth]
    refine prog_lift_ok.mpr ⟨_, rfl, prog_bind_ok.mpr ⟨_, w', hr, prog_lift_ok.mpr ⟨(), c110_assertion.mpr (within_fin.mpr h1), ?_⟩⟩⟩
    exact c110_assertion.mpr (within_fin.mpr h2)

/-- **C110 (what a passed temporal test shows).** In every process that has made any Leiden calls before, if the test passes then
the network was usable and the two runs found partitions `c`, `c'` whose estimates are near the values aimed at – both of them in
the temporal and in the multilevel model. -/
theorem c110_temporal_pass {heap : Nat → Graph ℝ} (hp : ProducesPartitions env) (hs : ∀ G, SaneTest env.test G)
    (hheap : ∀ o, (heap o).WF) (hobj : heap obj = (testBlockModel d copying pIn pOut first T).1) {w : World}
    (hw : Reachable env heap w) (hf : first ≠ []) (hT : 0 < T) (hK : Contiguous first K) (hi : 0 < pIn) (ho : 0 < pOut)
    (hne : pIn ≠ pOut) (hc : 0 ≤ copying) (hc1 : copying < 1)
    (h : (temporalConvergence env obj d first copying T pIn pOut w).1 = .ok ()) :
    UsableNetwork d copying pIn pOut first T ∧
    ∃ c c', ∀ q ∈ [c, c'], ∀ model ∈ ["temporal", "multilevel"],
      q.length = first.length * T ∧
      EstimatesNear env (defaulted env.test (testBlockModel d copying pIn pOut first T).1)
        (defaulted env.test (couplingGraph first.length T)) (layerVector first.length T) model
        (plantedGamma pIn pOut (first.length * T) (testBlockModel d copying pIn pOut first T).1.ecount T)
        (plantedOmega 2 copying K pIn pOut) (5 / 100) (1 / 10) q := by
  have hu : UsableNetwork d copying pIn pOut first T := by
    by_contra hu
    unfold temporalConvergence at h
    obtain ⟨K', -, h⟩ := prog_lift_ok.mp h
    obtain ⟨tr, -, h⟩ := prog_lift_ok.mp h
    obtain ⟨r, w', hr, -⟩ := prog_bind_ok.mp h
    obtain ⟨e, he⟩ := (c110_accepted (env := env) (obj := obj) (model := "temporal") hs hf hT
      (Or.inl ⟨Or.inl rfl, rfl⟩)).2 hu 1 1 (1 / 100) (5 / 100) 1000 25 false w
    rw [he] at hr
    cases hr
  refine ⟨hu, ?_⟩
  have hv : (testBlockModel d copying pIn pOut first T).1.vcount = first.length * T := by
    obtain ⟨-, hlast, -⟩ := hu
    unfold testBlockModel at hlast ⊢
    exact (block_vcount (labelVector_length d copying first T) (Nat.mul_pos (List.length_pos_iff.mpr hf) hT) _).mpr hlast
  have hAt := test_admissible (env := env) (temporal_coupling first.length T (Or.inl rfl)) hs hf hu (Or.inl rfl)
  have hAm := test_admissible (env := env) (temporal_coupling first.length T (Or.inr rfl)) hs hf hu (Or.inr (Or.inl rfl))
  obtain ⟨g, o, c, Gi, Gx, w', g', o', c', ⟨Gi', Gx'⟩, w'', hr, h1, h2, hr', h3, h4⟩ :=
    (c110_temporal_verdict hf hK hu hi ho hne hc hc1 w).mp h
  rw [hv] at h1 h3
  have hh := fun o => (⟨hheap o, hs _⟩ : (heap o).WF ∧ SaneTest env.test (heap o))
  have hcap := (reachable_inv hh hw).2
  rw [testBlockModel_layers] at hr hr'
  have hw' : Reachable env heap w' := by
    have := Reachable.iterate obj (testBlockModel d copying pIn pOut first T).1 (couplingGraph first.length T)
      (layerVector first.length T) 1 1 (1 / 100) (5 / 100) 1000 25 "temporal" false (by rw [hobj]) hw
    rwa [hr] at this
  have hcap' := (reachable_inv hh hw').2
  obtain ⟨e1, e2, -, -, hest, -⟩ := c47_returns_estimates_of_partition hp hAt (by norm_num) (by omega) hr
  subst e1 e2
  have hAm' : Admissible env (defaulted env.test (testBlockModel d copying pIn pOut first T).1)
      (defaulted env.test (couplingGraph first.length T)) (layerVector first.length T) "multilevel" T
      (List.replicate (testBlockModel d copying pIn pOut first T).1.ecount 1) :=
    { intra := defaulted_wf hAm.intra
      inter := defaulted_wf hAm.inter
      sane := hs _
      weights := by rw [defaulted_idem]; exact hAm.weights
      top := hAm.top
      below := hAm.below
      accepted := by rw [defaulted_idem, defaulted_idem]; exact hAm.accepted
      known := hAm.known }
  obtain ⟨e1, e2, -, -, hest', -⟩ := c47_returns_estimates_of_partition hp hAm' (by norm_num) (by omega) hr'
  rw [defaulted_idem] at e1 e2
  subst e1 e2
  have hlen : ∀ {q model x}, gammaOmegaEstimate env.test env.fsolve (defaulted env.test
      (testBlockModel d copying pIn pOut first T).1) (defaulted env.test (couplingGraph first.length T))
      (layerVector first.length T) q 1000 model = .ok x → q.length = first.length * T := by
    intro q model x hx
    rw [gammaOmegaEstimate_def] at hx
    obtain ⟨_, -, hx⟩ := Py.bind_ok' hx
    obtain ⟨_, hl, -⟩ := Py.bind_ok' hx
    unfold leidenPartWithMembership at hl
    split at hl
    · rename_i hl'
      rw [hl', (defaulted_shape _ _).1, hv]
    · cases hl
  have hC := (c95_layers first.length T).2.2.2.2 (List.length_pos_iff.mpr hf)
  have heq : ∀ {q : List Nat}, q.length = first.length * T → _ := fun {q} hq =>
    (c110_multilevel_is_temporal (fsolve := env.fsolve) (c := q) (defaulted_wf hAt.inter) hC hAt.accepted hAm.accepted
      (by rw [hq, (defaulted_shape _ _).1, hv])).2 env.test 1000 (defaulted_idem _ _)
  have l1 := hlen hest
  have l2 := hlen hest'
  refine ⟨c, c', ?_⟩
  intro q hq model hmodel
  simp only [List.mem_cons, List.not_mem_nil, or_false] at hq hmodel
  rcases hq with rfl | rfl
  · refine ⟨l1, g, o, ?_, h1, h2⟩
    rcases hmodel with rfl | rfl
    · exact hest
    · rw [heq l1]; exact hest
  · refine ⟨l2, g', o', ?_, h3, h4⟩
    rcases hmodel with rfl | rfl
    · rw [← heq l2]; exact hest'
    · exact hest'

/-- **C110 (what a passed multiplex test shows).** -/
theorem c110_multiplex_pass (hp : ProducesPartitions env) (hs : ∀ G, SaneTest env.test G) {w : World} (hcap : 0 < w.cache.cap)
    (hf : first ≠ []) (hT : 0 < T) (hK : Contiguous first K) (hi : 0 < pIn) (ho : 0 < pOut)
    (hne : pIn ≠ pOut) (hc : 0 ≤ copying) (hc1 : copying < 1)
    (h : (multiplexConvergence env obj d first copying T pIn pOut w).1 = .ok ()) :
    UsableNetwork d copying pIn pOut first T ∧
    ∃ c, EstimatesNear env (defaulted env.test (testBlockModel d copying pIn pOut first T).1)
        (defaulted env.test (multiplexGraph first.length T)) (layerVector first.length T) "multiplex"
        (plantedGamma pIn pOut (first.length * T) (testBlockModel d copying pIn pOut first T).1.ecount T)
        (plantedOmega T copying K pIn pOut) (1 / 10) (2 / 10) c := by
  have hu : UsableNetwork d copying pIn pOut first T := by
    by_contra hu
    unfold multiplexConvergence at h
    obtain ⟨K', -, h⟩ := prog_lift_ok.mp h
    obtain ⟨tr, -, h⟩ := prog_lift_ok.mp h
    obtain ⟨r, w', hr, -⟩ := prog_bind_ok.mp h
    obtain ⟨e, he⟩ := (c110_accepted (env := env) (obj := obj) (model := "multiplex") hs hf hT
      (Or.inr ⟨rfl, rfl⟩)).2 hu 1 (1 / 10) (1 / 100) (5 / 100) 1000 25 false w
    rw [he] at hr
    cases hr
  refine ⟨hu, ?_⟩
  have hv : (testBlockModel d copying pIn pOut first T).1.vcount = first.length * T := by
    obtain ⟨-, hlast, -⟩ := hu
    unfold testBlockModel at hlast ⊢
    exact (block_vcount (labelVector_length d copying first T) (Nat.mul_pos (List.length_pos_iff.mpr hf) hT) _).mpr hlast
  have hA := test_admissible (env := env) (multiplex_coupling first.length T) hs hf hu (Or.inr (Or.inr rfl))
  obtain ⟨g, o, ⟨c, Gi, Gx⟩, w', hr, h1, h2⟩ := (c110_multiplex_verdict hf hK hu hi ho hne hc hc1 w).mp h
  rw [hv] at h1
  rw [testBlockModel_layers] at hr
  obtain ⟨e1, e2, -, -, hest, -⟩ := c47_returns_estimates_of_partition hp hA (by norm_num) hcap hr
  subst e1 e2
  exact ⟨c, g, o, hest, h1, h2⟩

/-! ## When the tests do pass -/

/-- The copying probability of the partition is possible. -/
def PossibleCopying (env : LeidenEnv) (Gi Gx : Graph ℝ) (layers : List Nat) (model : String) (c : List Nat) : Prop :=
  ∃ θin θout p K, estimateMultilayerSBM env.fsolve Gi Gx layers c model none none none none = .ok (θin, θout, p, K) ∧ 0 ≤ p ∧ p ≤ 1

/-- leidenalg never fails on a multiplex problem with `N` vertices, and the partition it finds there is one of `good`. -/
def AlwaysFinds (env : LeidenEnv) (N : Nat) (good : List Nat → Prop) : Prop :=
  ∀ i parts ws, (∀ G γ, (VertexPartition.rb G γ ∈ parts ∨ VertexPartition.cpm G γ ∈ parts) → G.vcount = N) →
    ∃ c, env.optimiseMultiplex i parts ws = .ok c ∧ good c

theorem AlwaysFinds.cast {N M : Nat} {good : List Nat → Prop} (h : AlwaysFinds env N good) (e : M = N) : AlwaysFinds env M good :=
  e ▸ h

theorem reestimate_of_estimates {Gi Gx : Graph ℝ} {layers : List Nat} {model : String} {ws : List ℝ} {c : List Nat} {g o ωmax : ℝ}
    (hA : Admissible env Gi Gx layers model T ws)
    (hest : gammaOmegaEstimate env.test env.fsolve (defaulted env.test Gi) (defaulted env.test Gx) layers c ωmax model =
      .ok ((some (.fin g), o), defaulted env.test Gi))
    (hpos : PossibleCopying env (defaulted env.test Gi) (defaulted env.test Gx) layers model c) (x : Fl ℝ × ℝ) :
    reestimateMulti env (defaulted env.test Gi) (defaulted env.test Gx) layers model ωmax T x c = .ok (.fin g, o) := by
  obtain ⟨θin, θout, p, K, h1, hp⟩ := hpos
  have h1' : estimateMultilayerSBM env.fsolve (defaulted env.test Gi) (defaulted env.test Gx) layers c model none (some T)
      none none = .ok (θin, θout, p, K) := by
    rw [← h1]
    unfold estimateMultilayerSBM
    simp only [orCompute, hA.count]
  rw [gammaOmegaEstimate_def, hA.count, Py.ok_bind] at hest
  obtain ⟨c', hl, hest2⟩ := Py.bind_ok' hest
  clear hest
  have hcc : c' = c := by
    unfold leidenPartWithMembership at hl
    split at hl
    · exact (Except.ok.inj hl).symm
    · cases hl
  subst hcc
  rw [ecount_defaulted, Py.ok_bind, h1', Py.ok_bind] at hest2
  simp only at hest2
  obtain ⟨f, hf, hest⟩ := Py.bind_ok' hest2
  obtain ⟨o', ho', hest⟩ := Py.bind_ok' hest
  have he := congrArg Prod.fst (Except.ok.inj hest)
  simp only [Prod.mk.injEq] at he
  obtain ⟨hg, rfl⟩ := he
  unfold reestimateMulti
  rw [h1, Py.ok_bind]
  simp only
  rw [if_neg (not_not.mpr hp), hg]
  simp only
  rw [hf, Py.ok_bind, ho', Py.ok_bind]
  rfl

/-- A run whose optimiser always finds partitions with estimates near the wanted values returns such values. -/
theorem iterate_near {heap : Nat → Graph ℝ} {Gi Gx : Graph ℝ} {layers : List Nat} {model : String} {ws : List ℝ}
    {γ₀ ω₀ γ ω tolγ tolω γtol ωtol : ℝ} {n : Nat} (hp : ProducesPartitions env) (hs : ∀ G, SaneTest env.test G)
    (hheap : ∀ o, (heap o).WF) {w : World} (hw : Reachable env heap w)
    (hobj : defaulted env.test Gi = defaulted env.test (heap obj)) (hA : Admissible env Gi Gx layers model T ws)
    (hopt : AlwaysFinds env Gi.vcount fun c =>
      EstimatesNear env (defaulted env.test Gi) (defaulted env.test Gx) layers model γ ω tolγ tolω c ∧
      PossibleCopying env (defaulted env.test Gi) (defaulted env.test Gx) layers model c) (hn : 0 < n) :
    ∃ g o c w', iterateMulti env obj Gi Gx layers γ₀ ω₀ γtol ωtol 1000 n model false w =
        (.ok (.fin g, o, c, defaulted env.test Gi, defaulted env.test Gx), w') ∧ |γ - g| < tolγ ∧ |ω - o| < tolω ∧
      Reachable env heap w' := by
  have hh := fun o => (⟨hheap o, hs _⟩ : (heap o).WF ∧ SaneTest env.test (heap o))
  have hcap := (reachable_inv hh hw).2
  obtain ⟨r, Gs, vs, k, h1, h2, h3, h4, h5⟩ := iterateMulti_run (obj := obj) hp hA γ₀ ω₀ γtol ωtol 1000 hn w (by omega)
  have hv : ∀ G ∈ Gs, G.vcount = Gi.vcount := by
    have h1' : (splitIntralayer w.cache obj (defaulted env.test Gi) layers).2 = .ok Gs := h1
    rw [hobj, c54_reflects_graph_partial hh hw, ← hobj, hA.split] at h1'
    obtain rfl := Except.ok.inj h1'
    intro G hG
    obtain ⟨t, -, rfl⟩ := List.mem_map.mp hG
    exact (defaulted_shape env.test Gi).1
  have hmax : ∀ i x, ∃ c, multiMaximiser env Gs (defaulted env.test Gx) i x = .ok c ∧
      EstimatesNear env (defaulted env.test Gi) (defaulted env.test Gx) layers model γ ω tolγ tolω c ∧
      PossibleCopying env (defaulted env.test Gi) (defaulted env.test Gx) layers model c := by
    intro i x
    refine hopt i _ _ ?_
    rintro G g (hg | hg)
    · simp only [multiplexProblem, List.mem_append, List.mem_map, List.mem_singleton, VertexPartition.rb.injEq,
        reduceCtorEq, or_false] at hg
      obtain ⟨G', hG', rfl, -⟩ := hg
      exact hv _ hG'
    · simp only [multiplexProblem, List.mem_append, List.mem_map, List.mem_singleton, VertexPartition.cpm.injEq,
        reduceCtorEq, and_false, exists_false, false_or] at hg
      obtain ⟨rfl, -⟩ := hg
      rw [(defaulted_shape env.test Gx).1, hA.vcount]
  have hw' : Reachable env heap r.2 := by
    have := Reachable.iterate obj Gi Gx layers γ₀ ω₀ γtol ωtol 1000 n model false hobj hw
    rwa [h5 false] at this
  rcases hr : r with ⟨_ | ⟨g, o, c, Gi', Gx'⟩, w'⟩
  · exfalso
    rw [hr] at h3
    obtain ⟨hvis, ⟨-, -, v, hlast, hupd⟩ | ⟨-, -, x, hfail, -⟩⟩ := h3
    · have hlen : 0 < vs.length := List.length_pos_iff.mpr (by rintro rfl; simp at hlast)
      have hfound := hvis.found (vs.length - 1) v (by rw [← List.getLast?_eq_getElem?]; exact hlast)
      obtain ⟨c, hc, ⟨g, o, hest, -⟩, hpos⟩ := hmax (w.calls + (vs.length - 1)) v.1
      rw [hc] at hfound
      obtain rfl := Except.ok.inj hfound
      rw [reestimate_of_estimates hA hest hpos] at hupd
      cases hupd
    · obtain ⟨c, hc, -⟩ := hmax (w.calls + vs.length) x
      exact absurd (hc.symm.trans hfail) (by simp)
  · have hrun := h5 false
    rw [hr] at hrun hw'
    obtain ⟨rfl, rfl, -, -, hest, -, Gs', x', h1', hfound, -⟩ := c47_returns_estimates_of_partition hp hA hn (by omega) hrun
    have : Gs' = Gs := Except.ok.inj (h1'.symm.trans h1)
    subst this
    obtain ⟨c', hc', ⟨g', o', hest', hg, ho⟩, -⟩ := hmax (w'.calls - 1) x'
    rw [hc'] at hfound
    obtain rfl := Except.ok.inj hfound
    rw [hest'] at hest
    have he := congrArg Prod.fst (Except.ok.inj hest)
    simp only [Prod.mk.injEq, Option.some.injEq] at he
    obtain ⟨rfl, rfl⟩ := he
    exact ⟨g', o', _, w', hrun, hg, ho, hw'⟩

theorem reach_defaulted (hp : ProducesPartitions env) (hs : ∀ G, SaneTest env.test G) (hf : first ≠ [])
    (hu : UsableNetwork d copying pIn pOut first T) :
    Admissible env (defaulted env.test (testBlockModel d copying pIn pOut first T).1)
      (defaulted env.test (couplingGraph first.length T)) (layerVector first.length T) "multilevel" T
      (List.replicate (testBlockModel d copying pIn pOut first T).1.ecount 1) := by
  have hAm := test_admissible (env := env) (temporal_coupling first.length T (Or.inr rfl)) hs hf hu (Or.inr (Or.inl rfl))
  exact
    { intra := defaulted_wf hAm.intra
      inter := defaulted_wf hAm.inter
      sane := hs _
      weights := by rw [defaulted_idem]; exact hAm.weights
      top := hAm.top
      below := hAm.below
      accepted := by rw [defaulted_idem, defaulted_idem]; exact hAm.accepted
      known := hAm.known }

/-- **C110 (the temporal test can pass).** In every process, for a usable network: if every partition that Leiden finds for it has a
possible copying probability and temporal estimates near the values aimed at, the test passes. -/
theorem c110_temporal_suffices {heap : Nat → Graph ℝ} (hp : ProducesPartitions env) (hs : ∀ G, SaneTest env.test G)
    (hheap : ∀ o, (heap o).WF) (hobj : heap obj = (testBlockModel d copying pIn pOut first T).1) {w : World}
    (hw : Reachable env heap w) (hf : first ≠ []) (hK : Contiguous first K) (hu : UsableNetwork d copying pIn pOut first T)
    (hi : 0 < pIn) (ho : 0 < pOut) (hne : pIn ≠ pOut) (hc : 0 ≤ copying) (hc1 : copying < 1)
    (hopt : AlwaysFinds env (first.length * T) fun c =>
      EstimatesNear env (defaulted env.test (testBlockModel d copying pIn pOut first T).1)
        (defaulted env.test (couplingGraph first.length T)) (layerVector first.length T) "temporal"
        (plantedGamma pIn pOut (first.length * T) (testBlockModel d copying pIn pOut first T).1.ecount T)
        (plantedOmega 2 copying K pIn pOut) (5 / 100) (1 / 10) c ∧
      PossibleCopying env (defaulted env.test (testBlockModel d copying pIn pOut first T).1)
        (defaulted env.test (couplingGraph first.length T)) (layerVector first.length T) "temporal" c) :
    (temporalConvergence env obj d first copying T pIn pOut w).1 = .ok () := by
  have hT : 0 < T := by have := hu.1; omega
  have hv : (testBlockModel d copying pIn pOut first T).1.vcount = first.length * T := by
    obtain ⟨-, hlast, -⟩ := hu
    unfold testBlockModel at hlast ⊢
    exact (block_vcount (labelVector_length d copying first T) (Nat.mul_pos (List.length_pos_iff.mpr hf) hT) _).mpr hlast
  have hAt := test_admissible (env := env) (temporal_coupling first.length T (Or.inl rfl)) hs hf hu (Or.inl rfl)
  have hAm := test_admissible (env := env) (temporal_coupling first.length T (Or.inr rfl)) hs hf hu (Or.inr (Or.inl rfl))
  have hAm' := reach_defaulted (env := env) hp hs hf hu
  refine (c110_temporal_verdict hf hK hu hi ho hne hc hc1 w).mpr ?_
  simp only [hv, testBlockModel_layers]
  have hopt2 := hopt.cast hv
  obtain ⟨g, o, c, w', hr, hg, ho', hw'⟩ := iterate_near (obj := obj) (γ₀ := 1) (ω₀ := 1) (γtol := 1 / 100) (ωtol := 5 / 100) (n := 25)
    hp hs hheap hw (by rw [hobj]) hAt hopt2 (by norm_num)
  have hC := (c95_layers first.length T).2.2.2.2 (List.length_pos_iff.mpr hf)
  have hopt' : AlwaysFinds env (defaulted env.test (testBlockModel d copying pIn pOut first T).1).vcount fun c =>
      EstimatesNear env (defaulted env.test (defaulted env.test (testBlockModel d copying pIn pOut first T).1))
        (defaulted env.test (defaulted env.test (couplingGraph first.length T))) (layerVector first.length T) "multilevel"
        (plantedGamma pIn pOut (first.length * T) (testBlockModel d copying pIn pOut first T).1.ecount T)
        (plantedOmega 2 copying K pIn pOut) (5 / 100) (1 / 10) c ∧
      PossibleCopying env (defaulted env.test (defaulted env.test (testBlockModel d copying pIn pOut first T).1))
        (defaulted env.test (defaulted env.test (couplingGraph first.length T))) (layerVector first.length T) "multilevel" c := by
    intro i parts ws hparts
    rw [(defaulted_shape _ _).1] at hparts
    obtain ⟨c, hc, ⟨g, o, hest, hn⟩, θin, θout, p, K', hpos, hpp⟩ := hopt2 i parts ws hparts
    have hlen : c.length = (defaulted env.test (testBlockModel d copying pIn pOut first T).1).vcount := by
      have hest' := hest
      rw [gammaOmegaEstimate_def] at hest'
      obtain ⟨_, -, hx⟩ := Py.bind_ok' hest'
      obtain ⟨_, hl, -⟩ := Py.bind_ok' hx
      unfold leidenPartWithMembership at hl
      split at hl
      · assumption
      · cases hl
    obtain ⟨e1, e2⟩ := c110_multilevel_is_temporal (fsolve := env.fsolve) (c := c) (defaulted_wf hAt.inter) hC hAt.accepted
      hAm.accepted hlen
    refine ⟨c, hc, ?_, ?_⟩
    · rw [defaulted_idem, defaulted_idem]
      exact ⟨g, o, by rw [e2 env.test 1000 (defaulted_idem _ _)]; exact hest, hn⟩
    · rw [defaulted_idem, defaulted_idem]
      exact ⟨θin, θout, p, K', by rw [e1]; exact hpos, hpp⟩
  obtain ⟨g', o', c', w'', hr', hg', ho'', -⟩ := iterate_near (obj := obj) (γ₀ := 1) (ω₀ := 1) (γtol := 1 / 100) (ωtol := 5 / 100)
    (n := 25) hp hs hheap hw' (by rw [defaulted_idem, hobj]) hAm' hopt' (by norm_num)
  exact ⟨g, o, c, _, _, w', g', o', c', _, w'', hr, hg, ho', hr', hg', ho''⟩

/-- **C110 (the multiplex test can pass).** -/
theorem c110_multiplex_suffices {heap : Nat → Graph ℝ} (hp : ProducesPartitions env) (hs : ∀ G, SaneTest env.test G)
    (hheap : ∀ o, (heap o).WF) (hobj : heap obj = (testBlockModel d copying pIn pOut first T).1) {w : World}
    (hw : Reachable env heap w) (hf : first ≠ []) (hK : Contiguous first K) (hu : UsableNetwork d copying pIn pOut first T)
    (hi : 0 < pIn) (ho : 0 < pOut) (hne : pIn ≠ pOut) (hc : 0 ≤ copying) (hc1 : copying < 1)
    (hopt : AlwaysFinds env (first.length * T) fun c =>
      EstimatesNear env (defaulted env.test (testBlockModel d copying pIn pOut first T).1)
        (defaulted env.test (multiplexGraph first.length T)) (layerVector first.length T) "multiplex"
        (plantedGamma pIn pOut (first.length * T) (testBlockModel d copying pIn pOut first T).1.ecount T)
        (plantedOmega T copying K pIn pOut) (1 / 10) (2 / 10) c ∧
      PossibleCopying env (defaulted env.test (testBlockModel d copying pIn pOut first T).1)
        (defaulted env.test (multiplexGraph first.length T)) (layerVector first.length T) "multiplex" c) :
    (multiplexConvergence env obj d first copying T pIn pOut w).1 = .ok () := by
  have hT : 0 < T := by have := hu.1; omega
  have hv : (testBlockModel d copying pIn pOut first T).1.vcount = first.length * T := by
    obtain ⟨-, hlast, -⟩ := hu
    unfold testBlockModel at hlast ⊢
    exact (block_vcount (labelVector_length d copying first T) (Nat.mul_pos (List.length_pos_iff.mpr hf) hT) _).mpr hlast
  have hA := test_admissible (env := env) (multiplex_coupling first.length T) hs hf hu (Or.inr (Or.inr rfl))
  refine (c110_multiplex_verdict hf hK hu hi ho hne hc hc1 w).mpr ?_
  simp only [hv, testBlockModel_layers]
  have hopt2 := hopt.cast hv
  obtain ⟨g, o, c, w', hr, hg, ho', -⟩ := iterate_near (obj := obj) (γ₀ := 1) (ω₀ := 1 / 10) (γtol := 1 / 100) (ωtol := 5 / 100)
    (n := 25) hp hs hheap hw (by rw [hobj]) hA hopt2 (by norm_num)
  exact ⟨g, o, _, w', hr, hg, ho'⟩

/-! ## Newman's networks -/

theorem newmanConvergence_pass (hp : ProducesPartitions env) :
    ∀ (nets : List (Nat × Graph ℝ)) (w : World),
      (∀ net ∈ nets, 2 ≤ net.1 ∧ net.2.WF ∧ net.2.vcount = 250 * net.1 ∧ 0 < net.2.ecount ∧ SaneTest env.test net.2) →
      (newmanConvergence env nets w).1 = .ok () → ∀ net ∈ nets, ∃ c g,
        gammaEstimate env.test (defaulted env.test net.2) c = .ok (some (.fin g), defaulted env.test net.2) ∧
        |logMean (16 / 249 * ((250 * net.1) ^ 2 / (2 * net.2.ecount)))
          (8 / (250 * (net.1 - 1)) * ((250 * net.1) ^ 2 / (2 * net.2.ecount))) - g| < 5 / 100 := by
  intro nets
  induction nets with
  | nil => intro _ _ _ net hnet; cases hnet
  | cons x nets ih =>
    obtain ⟨q, G⟩ := x
    intro w hn h net hnet
    obtain ⟨hq, hG, hv, hm, hs⟩ := hn _ (List.mem_cons_self)
    simp only at hq hG hv hm hs
    unfold newmanConvergence at h
    rw [c88_newman_true_gamma hG hq hv hm] at h
    obtain ⟨_, h0, h⟩ := prog_lift_ok.mp h
    obtain rfl := Except.ok.inj h0
    obtain ⟨⟨g, part, Gout⟩, w', hr, h⟩ := prog_bind_ok.mp h
    obtain ⟨_, h1, h⟩ := prog_lift_ok.mp h
    rcases List.mem_cons.mp hnet with rfl | hnet
    · obtain ⟨_, g, -, rfl, -⟩ := c110_assertion.mp h1
      obtain ⟨rfl, -, c, -, rfl, hest, -⟩ :=
        c46_returns_estimate_of_partition hp hG hs (Or.inr (Or.inl rfl)) (by norm_num) hr
      exact ⟨c, g, hest, within_fin.mp (c110_assertion.mp h1)⟩
    · exact ih w' (fun n hn' => hn n (List.mem_cons_of_mem _ hn')) h net hnet

/-- **C110 (Newman's networks).** If `test_newman_synthetic_networks` passes for the graphs drawn (`q ≥ 2` blocks of 250 vertices,
at least one edge), then for every one of them the run found a partition whose gamma estimate is within 0.05 of the logarithmic mean
of the planted parameters. -/
theorem c110_newman (hp : ProducesPartitions env) {nets : List (Nat × Graph ℝ)} {w : World}
    (hn : ∀ net ∈ nets, 2 ≤ net.1 ∧ net.2.WF ∧ net.2.vcount = 250 * net.1 ∧ 0 < net.2.ecount ∧ SaneTest env.test net.2)
    (h : (newmanConvergence env nets w).1 = .ok ()) : ∀ net ∈ nets, ∃ c g,
      gammaEstimate env.test (defaulted env.test net.2) c = .ok (some (.fin g), defaulted env.test net.2) ∧
      |logMean (16 / 249 * ((250 * net.1) ^ 2 / (2 * net.2.ecount)))
        (8 / (250 * (net.1 - 1)) * ((250 * net.1) ^ 2 / (2 * net.2.ecount))) - g| < 5 / 100 :=
  newmanConvergence_pass hp nets w hn h

/-! ## Witnesses -/

/-- Three layers of two vertices: twelve coupling edges. -/
example : (multiplexGraph 2 3).ecount = 12 ∧ (0, 4) ∈ (multiplexGraph 2 3).edges ∧ (0, 3) ∉ (multiplexGraph 2 3).edges := by
  refine ⟨by decide +kernel, ?_, ?_⟩
  · show (0, 4) ∈ multiplexEdges 2 3; decide +kernel
  · show (0, 3) ∉ multiplexEdges 2 3; decide +kernel

theorem small_edges : (testBlockModel zeroDraws 0 (1 / 3) 1 [0, 1] 2).1 = graphOfEdges [(1, 0), (3, 2)] := by
  have hl : layerMembership 2 2 = [0, 0, 1, 1] := by decide
  unfold testBlockModel
  show graphOfEdges (blockEdges (layerMembership 2 2) (labelVector zeroDraws 0 [0, 1] 2) (1 / 3) 1 zeroDraws.edge) = _
  rw [hl, zero_labels]
  norm_num [blockEdges, zeroDraws, List.range_succ, List.range'_succ]

theorem small_usable : UsableNetwork zeroDraws 0 (1 / 3) 1 [0, 1] 2 := by
  refine ⟨le_refl _, ?_⟩
  rw [small_edges]
  have hl : layerVector ([0, 1] : List Nat).length 2 = [0, 0, 1, 1] := by decide
  rw [hl]
  refine ⟨⟨(3, 2), by simp [graphOfEdges], rfl⟩, ?_⟩
  show ∀ t < 2, ∃ e ∈ [(1, 0), (3, 2)], ([0, 0, 1, 1] : List Nat)[e.1]? = some t
  decide

/-- A community detection that finds `0 1 0 0` in every multiplex problem with four vertices. -/
noncomputable def plantedEnv : LeidenEnv where
  test := fun _ => false
  findPartition := fun _ _ _ => .error .keyError
  optimiseMultiplex := fun _ parts _ =>
    if parts.all fun | .rb G _ => G.vcount == 4 | .cpm G _ => G.vcount == 4 then .ok [0, 1, 0, 0] else .error .keyError
  spinglass := fun _ _ _ => .error .keyError
  fsolve := fun _ x => x
  fmt := fun _ => "x"

theorem plantedEnv_produces : ProducesPartitions plantedEnv := by
  refine ⟨fun i G γ c h => (by cases h), ?_⟩
  intro i parts ws c h G γ hG
  simp only [plantedEnv] at h
  split at h
  · rename_i hall
    obtain rfl := Except.ok.inj h
    rw [List.all_eq_true] at hall
    rcases hG with hG | hG
    · have := hall _ hG; simp only [beq_iff_eq] at this; rw [this]; rfl
    · have := hall _ hG; simp only [beq_iff_eq] at this; rw [this]; rfl
  · cases h

/-- **The temporal test passes** in a new process for the network of two layers with one edge each, planted communities `0 1 0 0`,
copying probability 0, `p_in = 1/3` and `p_out = 1`, if Leiden finds the planted communities. -/
example : (temporalConvergence plantedEnv 0 zeroDraws [0, 1] 0 2 (1 / 3) 1 World.fresh).1 = .ok () := by
  have hl : layerVector ([0, 1] : List Nat).length 2 = [0, 0, 1, 1] := by decide
  have hu := small_usable
  have hG : TemporalNetwork (graphOfEdges [(1, 0), (3, 2)]) (couplingGraph 2 2) [0, 0, 1, 1] 2 2 := by
    have h := c95_temporal (n := 2) (T := 2) (comm := labelVector zeroDraws 0 [0, 1] 2) (pIn := 1 / 3) (pOut := 1)
      (draw := zeroDraws.edge) (by rw [zero_labels]; rfl) (by norm_num) (le_refl _)
    have he : graphOfEdges (blockEdges (layerVector 2 2) (labelVector zeroDraws 0 [0, 1] 2) (1 / 3) 1 zeroDraws.edge) =
        graphOfEdges [(1, 0), (3, 2)] := by
      rw [← small_edges]; unfold testBlockModel; rw [← (c95_layers 2 2).1]; rfl
    have hb : blockEdges (layerVector 2 2) (labelVector zeroDraws 0 [0, 1] 2) (1 / 3) 1 zeroDraws.edge = [(1, 0), (3, 2)] :=
      congrArg Graph.edges he
    rw [hb] at h
    have hl' : layerVector 2 2 = [0, 0, 1, 1] := by decide
    rw [hl'] at h
    exact h ⟨(3, 2), by simp, rfl⟩ (by decide)
  have hG2 : TemporalNetwork (defaulted plantedEnv.test (graphOfEdges [(1, 0), (3, 2)])) (defaulted plantedEnv.test (couplingGraph 2 2))
      [0, 0, 1, 1] 2 2 :=
    { TemporalNetwork_withOnes hG with
      inter := defaulted_wf hG.inter
      vcount := by rw [(defaulted_shape _ _).1]; exact hG.vcount
      ordered := rfl }
  have hA : withinAdj (defaulted plantedEnv.test (graphOfEdges [(1, 0), (3, 2)])) ([0, 1, 0, 0] : List Nat) = 2 := by
    simp [withinAdj, graphOfEdges, adj, Finset.sum_range_succ, defaulted, plantedEnv]; norm_num
  have hX : withinAdj (defaulted plantedEnv.test (couplingGraph 2 2)) ([0, 1, 0, 0] : List Nat) = 1 := by
    simp [withinAdj, couplingGraph, couplingEdges, graphOfEdges, adj, Finset.sum_range_succ, List.range_succ, defaulted, plantedEnv]
  have hP : withinNullLayered (defaulted plantedEnv.test (graphOfEdges [(1, 0), (3, 2)])) [0, 0, 1, 1] ([0, 1, 0, 0] : List Nat) = 3 := by
    simp [withinNullLayered, graphOfEdges, adj, rowSum, colSum, layerTotal, Finset.sum_range_succ, defaulted, plantedEnv]; norm_num
  have hec : 2 * ((defaulted plantedEnv.test (graphOfEdges [(1, 0), (3, 2)])).ecount : ℝ) = 4 := by
    norm_num [graphOfEdges, Graph.ecount, defaulted, plantedEnv]
  have hdd : ([0, 1, 0, 0] : List Nat).dedup.length = 2 := by decide
  have hest : HasEstimates plantedEnv.test plantedEnv.fsolve (defaulted plantedEnv.test (graphOfEdges [(1, 0), (3, 2)]))
      (defaulted plantedEnv.test (couplingGraph 2 2)) [0, 0, 1, 1] "temporal" ([0, 1, 0, 0] : List Nat) (logMean (2 / 3) 2) 0 := by
    rw [c69_has_estimates hG2 (fun h => by cases h) rfl, hA, hX, hP, hec, hdd]
    refine ⟨by norm_num, by norm_num, by norm_num, by norm_num, by norm_num, ?_⟩
    unfold temporalCoupling Spec.copying
    norm_num
  obtain ⟨c, G', hc, hest⟩ := hest
  have hcc : c = [0, 1, 0, 0] := Except.ok.inj (hc.symm.trans (by decide +kernel))
  subst hcc
  have hpar := temporal_parameters hG2 rfl plantedEnv.fsolve (c := [0, 1, 0, 0]) rfl (K := 2) (by
    intro k; simp; omega)
  rw [hX] at hpar
  refine c110_temporal_suffices (heap := fun _ => (testBlockModel zeroDraws 0 (1 / 3) 1 [0, 1] 2).1) (K := 2) plantedEnv_produces
    (fun _ h => by cases h) (fun _ => block_wf _ _ _ _ _) rfl .fresh (by simp) (by intro k; simp; omega) hu (by norm_num)
    (by norm_num) (by norm_num) (le_refl _) one_pos ?_
  intro i parts ws hparts
  refine ⟨[0, 1, 0, 0], ?_, ?_, ?_⟩
  · simp only [plantedEnv]
    rw [if_pos]
    rw [List.all_eq_true]
    intro p hp
    cases p with
    | rb G γ => simpa using hparts G γ (Or.inl hp)
    | cpm G γ => simpa using hparts G γ (Or.inr hp)
  · rw [small_edges, hl]
    have hG' : G' = defaulted plantedEnv.test (graphOfEdges [(1, 0), (3, 2)]) := by
      have := gammaOmegaEstimate_graph hest
      rw [this, defaulted_idem]
    subst hG'
    refine ⟨_, _, hest, ?_, ?_⟩
    · have : plantedGamma (1 / 3) 1 (([0, 1] : List Nat).length * 2) (graphOfEdges [(1, 0), (3, 2)] : Graph ℝ).ecount 2 =
          logMean (2 / 3) 2 := by
        unfold plantedGamma logMean
        rw [← Real.log_div (by norm_num) (by norm_num)]
        norm_num [graphOfEdges, Graph.ecount]
        ring
      rw [this]; norm_num
    · unfold plantedOmega; norm_num
  · rw [small_edges, hl]
    refine ⟨_, _, _, _, hpar, ?_, ?_⟩
    · unfold Spec.copying; norm_num
    · unfold Spec.copying; norm_num

end Verif.Props
