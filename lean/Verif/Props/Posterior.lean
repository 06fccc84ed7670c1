import Verif.Proofs.Posterior
import Verif.Props.Explicit3D

/-!
# Property C84: the multilayer estimates and the likelihood of the temporal planted-partition model
-/

namespace Verif.Props
open Verif Verif.Spec Verif.Proofs Finset Real

variable {β : Type} [DecidableEq β] {Gi Gx : Graph ℝ} {layer : List Nat} {T N : Nat}

theorem withinAdj_directed_sum {G : Graph ℝ} (hG : G.WF) (hd : G.directed = true) {c : List β}
    (hc : c.length = G.vcount) :
    withinAdj G c = (G.edges.map fun e => if c[e.1]? = c[e.2]? then (1 : ℝ) else 0).sum := by
  obtain ⟨a, h1, h2⟩ := adjacencyCoefficient_ok (F := ℝ) hG hc
  rw [← h2]
  unfold adjacencyCoefficient at h1
  rw [internalEdgeCount_ok (fun e he => by have := hG.1 e he; omega)] at h1
  simp only [hd, Py.ok_bind, Py.pure_eq] at h1
  have h3 : a = (insideCount G.edges c : ℝ) := by simpa using (Except.ok.inj h1).symm
  rw [h3]
  unfold insideCount
  induction G.edges with
  | nil => simp
  | cons e es ih =>
    rw [List.countP_cons, List.map_cons, List.sum_cons]
    push_cast
    rw [ih, add_comm]
    simp

theorem noCross_of (hG : TemporalNetwork Gi Gx layer T N) : ∀ e ∈ Gi.edges, layer[e.1]? = layer[e.2]? :=
  hG.noCross.resolve_left (by simp [hG.undirected])

theorem total_of (hG : TemporalNetwork Gi Gx layer T N) : (total Gi : ℝ) = 2 * Gi.ecount := by
  rw [total_eq hG.intra]; simp [hG.undirected]

/-- the returned parameters in terms of the coefficients -/
theorem temporal_parameters (hG : TemporalNetwork Gi Gx layer T N) (hw : UnitWeights Gi)
    (fsolve : (ℝ → ℝ) → ℝ → ℝ) {c : List Nat} (hc : c.length = Gi.vcount) {K : Nat} (hK : Contiguous c K) :
    estimateMultilayerSBM fsolve Gi Gx layer c "temporal" none none none none =
      .ok ((affinities (withinAdj Gi c) (withinNullLayered Gi layer c) (2 * Gi.ecount)).1,
        (affinities (withinAdj Gi c) (withinNullLayered Gi layer c) (2 * Gi.ecount)).2,
        copying K (withinAdj Gx c) N T, K) := by
  have hT0 : 0 < T := by have := hG.twoLayers; omega
  have hT1 : ((T : ℝ) - 1) ≠ 0 := by
    have h2 : (2 : ℝ) ≤ T := by exact_mod_cast hG.twoLayers
    linarith
  have hN0 : (N : ℝ) ≠ 0 := by have := hG.nonempty; positivity
  rw [estimateMultilayerSBM_T _ _ _ _ _ _ (contiguous_max hG.layersBelow hT0), Nat.sub_add_cancel hT0,
    estimateMultilayerSBM_unweighted fsolve hG.toMultilayer hG.undirected hw hG.layersBelow hT0 hG.edgeInLayer hc]
  have hX := withinAdj_directed_count hG.inter hG.ordered (c := c) (by rw [hc, hG.vcount])
  unfold persistenceFunctionFromModel ordinalPersistence insideEdges
  simp only [if_true, Py.ok_bind, hG.perLayer]
  rw [internalEdgeCount_ok (fun e he => by have := hG.inter.1 e he; rw [hG.vcount] at this; omega)]
  simp only [Py.ok_bind, pyDiv, mul_eq_zero, hN0, hT1, or_self, if_false, Py.pure_eq, ← hX, partLen_contiguous hK,
    copying_eq K hG.nonempty hG.twoLayers]
  rfl

/-- **C84 (intralayer parameters).** Unweighted temporal network with an edge in each layer: `(θ_in, θ_out)` returned by
`estimate_multilayer_SBM_parameters` are the maximum-likelihood parameters of the planted-partition model whose layers
share them, and if one of them is 0 there are none. -/
theorem c84_intralayer_parameters (hG : TemporalNetwork Gi Gx layer T N) (hw : UnitWeights Gi)
    (fsolve : (ℝ → ℝ) → ℝ → ℝ) {c : List Nat} (hc : c.length = Gi.vcount) {K : Nat} (hK : Contiguous c K)
    {θin θout p : ℝ} {K' : Nat}
    (hr : estimateMultilayerSBM fsolve Gi Gx layer c "temporal" none none none none = .ok (θin, θout, p, K')) (a b : ℝ) :
    LayeredMaximumLikelihood Gi layer c a b ↔ 0 < θin ∧ 0 < θout ∧ a = θin ∧ b = θout := by
  rw [temporal_parameters hG hw fsolve hc hK] at hr
  obtain ⟨e1, e2⟩ := Prod.mk.inj (Except.ok.inj hr)
  obtain ⟨e2, -⟩ := Prod.mk.inj e2
  have hPpos := layered_pos hG c
  have hPle := layered_le hG c
  have hA0 := withinAdj_nonneg Gi c
  have hAle := adj_le hG c
  unfold LayeredMaximumLikelihood
  simp only [layeredLogLikelihood_eq hG.undirected hG.layers (noCross_of hG), total_of hG]
  rw [two_poisson hA0 hAle hPpos hPle, ← e1, ← e2]
  unfold affinities
  dsimp only
  generalize withinAdj Gi c = A at *
  generalize withinNullLayered Gi layer c = P at *
  generalize (2 * (Gi.ecount : ℝ)) = W at *
  by_cases hWP : W = P
  · rw [if_pos hWP]
    constructor
    · rintro ⟨-, -, h, -⟩; exact absurd hWP (ne_of_gt h)
    · rintro ⟨-, h, -⟩; exact absurd h (lt_irrefl _)
  · rw [if_neg hWP]
    have hPW : P < W := lt_of_le_of_ne hPle (Ne.symm hWP)
    constructor
    · rintro ⟨k1, k2, k3, rfl, rfl⟩
      exact ⟨div_pos k1 hPpos, div_pos (by linarith) (by linarith), rfl, rfl⟩
    · rintro ⟨k1, k2, rfl, rfl⟩
      refine ⟨(div_pos_iff_of_pos_right hPpos).mp k1, ?_, hPW, rfl, rfl⟩
      have := (div_pos_iff_of_pos_right (by linarith)).mp k2
      linarith

/-- **C84 (copying probability).** Unweighted temporal network whose coupling edges number `N (T - 1)`, labels `0..K-1`.
With at least two labels and some coupling edge between different labels, the returned `p` is the maximum-likelihood
copying probability.  If all coupling edges join equal labels, `p = 1` is returned and the likelihood increases towards
it. -/
theorem c84_copying_probability (hG : TemporalNetwork Gi Gx layer T N) (hw : UnitWeights Gi)
    (fsolve : (ℝ → ℝ) → ℝ → ℝ) (hx : Gx.ecount = N * (T - 1)) {c : List Nat} (hc : c.length = Gi.vcount) {K : Nat}
    (hK : Contiguous c K) (hK2 : 2 ≤ K) {θin θout p : ℝ} {K' : Nat}
    (hr : estimateMultilayerSBM fsolve Gi Gx layer c "temporal" none none none none = .ok (θin, θout, p, K')) :
    ((∃ e ∈ Gx.edges, c[e.1]? ≠ c[e.2]?) → CouplingMaximumLikelihood Gx c K p) ∧
    ((∀ e ∈ Gx.edges, c[e.1]? = c[e.2]?) → p = 1 ∧ ∀ p₁ p₂, 0 ≤ p₁ → p₁ < p₂ → p₂ < 1 →
      couplingLogProbability Gx c K p₁ < couplingLogProbability Gx c K p₂) := by
  rw [temporal_parameters hG hw fsolve hc hK] at hr
  obtain ⟨-, e2⟩ := Prod.mk.inj (Except.ok.inj hr)
  obtain ⟨-, e3⟩ := Prod.mk.inj e2
  obtain ⟨e3, -⟩ := Prod.mk.inj e3
  have hM : (N : ℝ) * ((T : ℝ) - 1) = (Gx.ecount : ℝ) := by
    have := hG.twoLayers
    rw [hx]
    push_cast [Nat.cast_sub (show 1 ≤ T by omega)]
    ring
  have hM0 : (0 : ℝ) < Gx.ecount := by
    rw [← hM]
    have h1 : (0 : ℝ) < N := by exact_mod_cast hG.nonempty
    have h2 : (2 : ℝ) ≤ T := by exact_mod_cast hG.twoLayers
    exact mul_pos h1 (by linarith)
  have hS := withinAdj_directed_sum hG.inter hG.ordered (c := c) (by rw [hc, hG.vcount])
  have hS0 := withinAdj_nonneg Gx c
  unfold copying at e3
  rw [hM] at e3
  constructor
  · rintro ⟨e, he, hne⟩
    have hlt : withinAdj Gx c < Gx.ecount := by
      rw [hS]
      have h1 : ∀ l : List (Nat × Nat), (l.map fun e => if c[e.1]? = c[e.2]? then (1 : ℝ) else 0).sum ≤ l.length := by
        intro l
        induction l with
        | nil => simp
        | cons x l ih =>
          simp only [List.map_cons, List.sum_cons, List.length_cons]
          push_cast
          split <;> linarith
      obtain ⟨l₁, l₂, hl⟩ := List.append_of_mem he
      unfold Graph.ecount
      rw [hl]
      simp only [List.map_append, List.sum_append, List.map_cons, List.sum_cons, List.length_append, List.length_cons,
        if_neg hne]
      have := h1 l₁
      have := h1 l₂
      push_cast
      linarith
    rw [if_pos ⟨hlt, by omega⟩] at e3
    refine ⟨e3 ▸ le_max_right _ _, ?_, ?_⟩
    · rw [← e3]
      have hK' : (1 : ℝ) < K := by exact_mod_cast (show 1 < K by omega)
      refine max_lt ?_ one_pos
      rw [div_lt_one (by linarith)]
      have : withinAdj Gx c / Gx.ecount < 1 := (div_lt_one hM0).mpr hlt
      have : (K : ℝ) * (withinAdj Gx c / Gx.ecount) < K * 1 := mul_lt_mul_of_pos_left this (by linarith)
      linarith
    · intro p' h0 h1 hne'
      rw [couplingLogProbability_eq, couplingLogProbability_eq, ← hS]
      exact coupling_max hS0 hlt (by omega) e3.symm h0 h1 hne'
  · intro hall
    have heq : withinAdj Gx c = Gx.ecount := by
      rw [hS]
      unfold Graph.ecount
      rw [List.map_congr_left (g := fun _ => (1 : ℝ)) (fun e he => if_pos (hall e he))]
      simp
    rw [if_neg (fun h => absurd h.1 (by rw [heq]; exact lt_irrefl _))] at e3
    refine ⟨e3.symm, fun p₁ p₂ h0 h12 h1 => ?_⟩
    rw [couplingLogProbability_eq, couplingLogProbability_eq, ← hS, heq, sub_self, zero_mul, zero_mul, add_zero, add_zero]
    refine mul_lt_mul_of_pos_left (log_lt_log ?_ ?_) hM0
    · have : 0 ≤ (1 - p₁) / (K : ℝ) := div_nonneg (by linarith) (by positivity)
      have h3 : 0 < (1 - p₁) / (K : ℝ) := div_pos (by linarith) (by have : 0 < K := by omega
                                                                    exact_mod_cast this)
      linarith
    · have hK' : (1 : ℝ) < K := by exact_mod_cast (show 1 < K by omega)
      have : (p₂ + (1 - p₂) / (K : ℝ)) - (p₁ + (1 - p₁) / K) = (p₂ - p₁) * ((K - 1) / K) := by field_simp; ring
      have : 0 < (p₂ - p₁) * (((K : ℝ) - 1) / K) := mul_pos (by linarith) (div_pos (by linarith) (by linarith))
      linarith

/-- the posterior is the multilayer modularity, up to scale and constant, at coupling `2 log(1 + pK/(1-p)) / Δ` -/
theorem posterior_modularity (hG : TemporalNetwork Gi Gx layer T N) {c : List β} (hc : c.length = Gi.vcount) {K : Nat}
    (hK : 0 < K) {a b p : ℝ} (hab : log a - log b ≠ 0) (h0 : 0 ≤ p) (h1 : p < 1) :
    temporalLogPosterior Gi Gx layer c K a b p =
      1 / 2 * (log a - log b) * multilayerModularity Gi Gx layer ((a - b) / (log a - log b))
        (2 * log (1 + p * K / (1 - p)) / (log a - log b)) c +
      (Gi.ecount * (log b - b) + Gx.ecount * log ((1 - p) / K)) := by
  have hS := withinAdj_directed_sum hG.inter hG.ordered (c := c) (by rw [hc, hG.vcount])
  have hK' : (0 : ℝ) < K := by exact_mod_cast hK
  have hq : 0 < (1 - p) / (K : ℝ) := div_pos (by linarith) hK'
  have hlog : log (1 + p * K / (1 - p)) = log (p + (1 - p) / K) - log ((1 - p) / K) := by
    have hq' : 0 < p + (1 - p) / (K : ℝ) := by linarith
    rw [← log_div hq'.ne' hq.ne']
    congr 1
    have : (1 - p) ≠ 0 := by linarith
    field_simp
    ring
  unfold temporalLogPosterior multilayerModularity
  rw [layeredLogLikelihood_eq hG.undirected hG.layers (noCross_of hG), couplingLogProbability_eq, ← hS, total_of hG, hlog]
  field_simp
  ring

/-- **C84 (equivalence, and a finding).** Unweighted temporal network with directed coupling, parameters
`0 < θ_out < θ_in`, `0 ≤ p < 1`, and the values `γ`, `ω` that `gamma_estimate_from_parameters` and
`temporal_multilevel_omega_estimate_from_parameters` return for them: of two partitions the more likely one under the
temporal planted-partition model is the one with the larger multilayer modularity at `(γ, 4 ω)` — four times the returned
coupling. -/
theorem c84_equivalence (hG : TemporalNetwork Gi Gx layer T N) {K : Nat} (hK : 0 < K) {a b p γ ω ωmax : ℝ}
    (hb : 0 < b) (hab : b < a) (h0 : 0 ≤ p) (h1 : p < 1) (hγ : gammaFromParameters a b = some (.fin γ))
    (hω : temporalOmega a b p K ωmax = .ok ω) {c d : List β} (hc : c.length = Gi.vcount) (hd : d.length = Gi.vcount) :
    temporalLogPosterior Gi Gx layer c K a b p ≤ temporalLogPosterior Gi Gx layer d K a b p ↔
      multilayerModularity Gi Gx layer γ (4 * ω) c ≤ multilayerModularity Gi Gx layer γ (4 * ω) d := by
  have ha : 0 < a := hb.trans hab
  have hl : log b < log a := log_lt_log hb hab
  have hne : log a - log b ≠ 0 := by linarith
  obtain ⟨-, -, -, rfl⟩ := ((c27_degenerate_estimates a b).2.2.1 γ).mp hγ
  have hω4 : 4 * ω = 2 * log (1 + p * K / (1 - p)) / (log a - log b) := by
    obtain ⟨t0, -, t2⟩ := c32_temporal_omega a b p K ωmax
    by_cases hp : p = 0
    · rw [t0 hp] at hω
      rw [← Except.ok.inj hω, hp]; simp
    · rw [t2 hp h1] at hω
      split at hω
      · cases hω
      · split at hω
        · cases hω
        · rw [← Except.ok.inj hω]
          unfold couplingFormula
          rw [if_neg hb.ne']
          field_simp
          ring
  rw [posterior_modularity hG hc hK hne h0 h1, posterior_modularity hG hd hK hne h0 h1, hω4, add_le_add_iff_right]
  exact mul_le_mul_iff_right₀ (by linarith)

/-- Two layers of two separate edges, paired differently in the two layers. -/
def gTwist : Graph ℝ := ⟨8, false, [(0, 1), (2, 3), (4, 6), (5, 7)], none⟩

theorem gTwist_temporal : TemporalNetwork gTwist gPairsX [0, 0, 0, 0, 1, 1, 1, 1] 2 4 where
  intra := ⟨by decide, by intro ws h; cases h⟩
  inter := ⟨by decide, by intro ws h; cases h⟩
  vcount := rfl
  layers := rfl
  noCross := Or.inr (by decide)
  undirected := rfl
  ordered := rfl
  layersBelow := fun k => by simp; omega
  twoLayers := le_refl _
  perLayer := rfl
  nonempty := by decide
  edgeInLayer := by decide

theorem gTwist_adj :
    withinAdj gTwist [0, 0, 1, 1, 0, 0, 1, 1] = 4 ∧ withinAdj gTwist [0, 0, 1, 1, 0, 1, 0, 1] = 8 := by
  constructor <;> simp [withinAdj, gTwist, adj, Finset.sum_range_succ] <;> norm_num

theorem gTwist_coupling :
    withinAdj gPairsX [0, 0, 1, 1, 0, 0, 1, 1] = 4 ∧ withinAdj gPairsX [0, 0, 1, 1, 0, 1, 0, 1] = 2 := by
  constructor <;> simp [withinAdj, gPairsX, adj, Finset.sum_range_succ] <;> norm_num

theorem gTwist_null (c : List Nat) : withinNullLayered gTwist [0, 0, 0, 0, 1, 1, 1, 1] c =
    ∑ i ∈ range 8, ∑ j ∈ range 8,
      if c[i]? = c[j]? ∧ [0, 0, 0, 0, 1, 1, 1, 1][i]? = [0, 0, 0, 0, 1, 1, 1, 1][j]? then 1 / 4 else (0 : ℝ) := by
  have hr : ∀ i < 8, rowSum gTwist i = 1 := by decide
  have hc : ∀ i < 8, colSum gTwist i = 1 := by decide
  have ht : ∀ t < 2, layerTotal gTwist [0, 0, 0, 0, 1, 1, 1, 1] t = 4 := by decide
  have hl : ∀ i < 8, [0, 0, 0, 0, 1, 1, 1, 1][i]?.getD 0 < 2 := by decide
  unfold withinNullLayered
  refine Finset.sum_congr rfl fun i hi => Finset.sum_congr rfl fun j hj => ?_
  rw [hr j (Finset.mem_range.mp hj), hc i (Finset.mem_range.mp hi), ht _ (hl i (Finset.mem_range.mp hi))]
  norm_num

theorem gTwist_null_first : withinNullLayered gTwist [0, 0, 0, 0, 1, 1, 1, 1] [0, 0, 1, 1, 0, 0, 1, 1] = 4 := by
  rw [gTwist_null]
  simp [Finset.sum_range_succ]; norm_num

theorem gTwist_null_second : withinNullLayered gTwist [0, 0, 0, 0, 1, 1, 1, 1] [0, 0, 1, 1, 0, 1, 0, 1] = 4 := by
  rw [gTwist_null]
  simp [Finset.sum_range_succ]; norm_num

/-- **C84 (finding).** At the returned coupling itself the equivalence fails: for two partitions of an eight-vertex temporal
network and parameters with estimates `γ`, `ω`, the more likely partition has the smaller multilayer modularity at
`(γ, ω)`. -/
theorem c84_not_at_estimate : ∃ a b p γ ω : ℝ, 0 < b ∧ b < a ∧ 0 < p ∧ p < 1 ∧
    gammaFromParameters a b = some (.fin γ) ∧ temporalOmega a b p 2 1000 = .ok ω ∧
    temporalLogPosterior gTwist gPairsX [0, 0, 0, 0, 1, 1, 1, 1] [0, 0, 1, 1, 0, 1, 0, 1] 2 a b p <
      temporalLogPosterior gTwist gPairsX [0, 0, 0, 0, 1, 1, 1, 1] [0, 0, 1, 1, 0, 0, 1, 1] 2 a b p ∧
    multilayerModularity gTwist gPairsX [0, 0, 0, 0, 1, 1, 1, 1] γ ω [0, 0, 1, 1, 0, 0, 1, 1] <
      multilayerModularity gTwist gPairsX [0, 0, 0, 0, 1, 1, 1, 1] γ ω [0, 0, 1, 1, 0, 1, 0, 1] := by
  obtain ⟨hA, hA'⟩ := gTwist_adj
  obtain ⟨hX, hX'⟩ := gTwist_coupling
  have hP := gTwist_null_first
  have hP' := gTwist_null_second
  have he : 1 < exp 1 := by rw [one_lt_exp_iff]; norm_num
  have he2 : 1 < exp 2 := by rw [one_lt_exp_iff]; norm_num
  have hp0 : 0 < (exp 2 - 1) / (exp 2 + 1) := div_pos (by linarith) (by linarith)
  have hp1 : (exp 2 - 1) / (exp 2 + 1) < 1 := by rw [div_lt_one (by linarith)]; linarith
  have harg : 1 + (exp 2 - 1) / (exp 2 + 1) * (2 : ℕ) / (1 - (exp 2 - 1) / (exp 2 + 1)) = exp 2 := by
    have h1 : exp 2 + 1 ≠ 0 := by linarith
    have h2 : 1 - (exp 2 - 1) / (exp 2 + 1) = 2 / (exp 2 + 1) := by field_simp; ring
    rw [h2]; push_cast; field_simp; ring
  have hω : temporalOmega (exp 1) 1 ((exp 2 - 1) / (exp 2 + 1)) 2 1000 = .ok 1 := by
    rw [(c32_temporal_omega _ _ _ 2 1000).2.2 hp0.ne' hp1, harg, if_neg, if_neg]
    · unfold couplingFormula
      rw [harg]
      simp
    · rintro (⟨h, -⟩ | h) <;> linarith
    · rintro (h | h | h) <;> linarith [exp_pos 1, exp_pos 2]
  have hγ : gammaFromParameters (exp 1) 1 = some (.fin (logMean (exp 1) 1)) := by
    rw [(c27_degenerate_estimates _ _).2.2.1]
    exact ⟨exp_pos 1, one_pos, he.ne', rfl⟩
  refine ⟨exp 1, 1, (exp 2 - 1) / (exp 2 + 1), logMean (exp 1) 1, 1, one_pos, he, hp0, hp1, hγ, hω, ?_, ?_⟩
  · rw [← not_le, c84_equivalence gTwist_temporal (by norm_num) one_pos he hp0.le hp1 hγ hω rfl rfl, not_le]
    unfold multilayerModularity
    rw [hA, hA', hX, hX', hP, hP']
    linarith
  · unfold multilayerModularity
    rw [hA, hA', hX, hX', hP, hP']
    linarith

/-! ### Witnesses -/

/-- the second partition has interior estimates: half of the labels are kept, `p = 0`; with an extra label `p > 0` -/
example : gPairsX.ecount = 4 * (2 - 1) ∧ (∃ e ∈ gPairsX.edges, ([0, 0, 1, 1, 0, 1, 1, 1] : List Nat)[e.1]? ≠
    ([0, 0, 1, 1, 0, 1, 1, 1] : List Nat)[e.2]?) ∧ Contiguous [0, 0, 1, 1, 0, 1, 1, 1] 2 :=
  ⟨rfl, by decide, fun k => by simp; omega⟩
example : copying 2 3 (4 : ℕ) (2 : ℕ) = 1 / 2 := by unfold copying; norm_num

end Verif.Props
