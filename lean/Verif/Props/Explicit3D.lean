import Verif.Spec.Temporal
import Verif.Props.Returns3D
import Verif.Props.Weights

/-!
# Property C69: explicit estimates on unweighted temporal networks; when multilayer pruning returns
-/

namespace Verif.Props
open Verif Verif.Spec Finset

variable {α : Type} [LinearOrder α] {Gi Gx : Graph ℝ} {layer : List Nat} {T N : Nat}

/-- The SBM parameters of an unweighted undirected multilayer network, in terms of the CHAMP coefficients. -/
theorem estimateMultilayerSBM_unweighted (fsolve : (ℝ → ℝ) → ℝ → ℝ) (hm : Multilayer Gi Gx layer)
    (hd : Gi.directed = false) (hw : UnitWeights Gi) (hT : Contiguous layer T) (hT0 : 0 < T)
    (hedge : ∀ t < T, ∃ e ∈ Gi.edges, layer[e.1]? = some t) {c : List Nat} (hc : c.length = Gi.vcount) (model : String) :
    estimateMultilayerSBM fsolve Gi Gx layer c model none (some T) none none = (do
      let persistenceOf ← persistenceFunctionFromModel model Gx (some layer) (some (Gi.vcount / T)) (some T)
        (some ((List.range T).map fun t => layer.count t))
      let pers ← persistenceOf c
      return ((affinities (withinAdj Gi c) (withinNullLayered Gi layer c) (2 * Gi.ecount)).1,
        (affinities (withinAdj Gi c) (withinNullLayered Gi layer c) (2 * Gi.ecount)).2,
        if model = "multiplex" then multiplexP fsolve (partLen c) T pers else temporalP (partLen c) pers, partLen c)) := by
  have hx : ∀ e ∈ Gi.edges, layer[e.1]? = layer[e.2]? := hm.noCross.resolve_left (by simp [hd])
  have hbelow : LayersBelow layer T := fun l hl => (hT l).mp hl
  have hene : Gi.edges ≠ [] := by
    obtain ⟨e, he, -⟩ := hedge 0 hT0
    exact List.ne_nil_of_mem he
  have hP : 0 < withinNullLayered Gi layer c := withinNullLayered_pos (F := ℝ) hm.intra hd hm.layers hene c
  obtain ⟨ws, h1, h2, h3⟩ := unit_zip hw
  rw [estimateMultilayerSBM_eq fsolve hm.intra hm.layers hc h1 model hbelow hT0, h2]
  have hends : EndsIn (Gi.edges.map fun e => (e, (1 : ℝ))) layer.length := by
    intro e he
    obtain ⟨e', he', rfl⟩ := List.mem_map.mp he
    rw [hm.layers]; exact hm.intra.1 e' he'
  have hS := unit_layered (F := ℝ) hm.intra hd hbelow hm.layers hc hx
  have hI : ∑ t ∈ range T, 2 * layerMIn (Gi.edges.map fun e => (e, (1 : ℝ))) layer c t = withinAdj Gi c := by
    unfold layerMIn
    rw [filter_noCross (by
      intro e he
      obtain ⟨e', he', rfl⟩ := List.mem_map.mp he
      exact hx e' he'), ← Finset.mul_sum]
    have : ∑ t ∈ range T, wInside (layerOf (Gi.edges.map fun e => (e, (1 : ℝ))) layer t) c =
        wInside (Gi.edges.map fun e => (e, (1 : ℝ))) c := sum_over_layers hbelow hends _
    rw [this, unit_wInside, withinAdj_undirected hm.intra hd hc]
  have hM : ∑ t ∈ range T, 2 * layerM (Gi.edges.map fun e => (e, (1 : ℝ))) layer t = 2 * (Gi.ecount : ℝ) := by
    rw [← Finset.mul_sum]
    have : ∑ t ∈ range T, layerM (Gi.edges.map fun e => (e, (1 : ℝ))) layer t =
        wTotal (Gi.edges.map fun e => (e, (1 : ℝ))) := sum_over_layers hbelow hends _
    rw [this, unit_wTotal]; rfl
  have hpos : ¬ ∃ t < T, 2 * layerM (Gi.edges.map fun e => (e, (1 : ℝ))) layer t = 0 := by
    rintro ⟨t, ht, h0⟩
    obtain ⟨e, he, hel⟩ := hedge t ht
    unfold layerM wTotal layerOf at h0
    have hmem : (e, (1 : ℝ)) ∈ (Gi.edges.map fun e => (e, (1 : ℝ))).filter fun e => decide (layer[e.1.1]? = some t) := by
      rw [List.mem_filter]
      exact ⟨List.mem_map.mpr ⟨e, he, rfl⟩, by simpa using hel⟩
    have hle := List.single_le_sum (l := (((Gi.edges.map fun e => (e, (1 : ℝ))).filter fun e =>
      decide (layer[e.1.1]? = some t)).map fun e => e.2)) (by
        intro x hx
        obtain ⟨y, hy, rfl⟩ := List.mem_map.mp hx
        obtain ⟨z, -, rfl⟩ := List.mem_map.mp (List.mem_of_mem_filter hy)
        exact zero_le_one) 1 (List.mem_map.mpr ⟨_, hmem, rfl⟩)
    linarith
  unfold thetas
  rw [if_neg hpos, hS, hI, Finset.sum_sub_distrib, Finset.sum_sub_distrib, hS, hI, hM, if_neg hP.ne', Py.ok_bind]
  simp only [affinities, sub_eq_zero]

theorem copying_eq (K : Nat) {C : ℝ} {N T : Nat} (hN : 0 < N) (hT : 2 ≤ T) :
    temporalP K (C / ((N : ℝ) * ((T : ℝ) - 1))) = copying K C N T := by
  have h : (0 : ℝ) < (N : ℝ) * ((T : ℝ) - 1) := by
    have h1 : (0 : ℝ) < N := by exact_mod_cast hN
    have h2 : (2 : ℝ) ≤ T := by exact_mod_cast hT
    exact mul_pos h1 (by linarith)
  unfold temporalP copying
  simp only [div_lt_one h]

theorem withinAdj_directed_count {G : Graph ℝ} (hG : G.WF) (hd : G.directed = true) {c : List Nat}
    (hc : c.length = G.vcount) : withinAdj G c = (insideCount G.edges c : ℝ) := by
  obtain ⟨a, h1, h2⟩ := adjacencyCoefficient_ok (F := ℝ) hG hc
  rw [← h2]
  unfold adjacencyCoefficient at h1
  rw [internalEdgeCount_ok (fun e he => by have := hG.1 e he; omega)] at h1
  simp only [hd, Py.ok_bind, Py.pure_eq] at h1
  simpa using (Except.ok.inj h1).symm

/-- **C69.** Unweighted temporal network.  The estimates of a partition with `K` communities are an explicit function of its
CHAMP coefficients `A`, `P`, `C` and of `K`: `gamma_omega_estimate` computes the gamma estimate from `θ_in = A/P` and
`θ_out = (2M - A)/(2M - P)`, and the omega estimate from these and the copying probability. -/
theorem c69_temporal_estimates (hG : TemporalNetwork Gi Gx layer T N) {test : Graph ℝ → Bool}
    (fsolve : (ℝ → ℝ) → ℝ → ℝ) (hw : CountsAsUnweighted test Gi) {c : List Nat} (hc : c.length = Gi.vcount) {K : Nat}
    (hK : Contiguous c K) (ωmax : ℝ) :
    gammaOmegaEstimate test fsolve Gi Gx layer c ωmax "temporal" =
      (temporalOmega (affinities (withinAdj Gi c) (withinNullLayered Gi layer c) (2 * Gi.ecount)).1
        (affinities (withinAdj Gi c) (withinNullLayered Gi layer c) (2 * Gi.ecount)).2
        (copying K (withinAdj Gx c) N T) K ωmax).map fun ω =>
          ((gammaFromParameters (affinities (withinAdj Gi c) (withinNullLayered Gi layer c) (2 * Gi.ecount)).1
            (affinities (withinAdj Gi c) (withinNullLayered Gi layer c) (2 * Gi.ecount)).2, ω), withOnes Gi) := by
  have hT0 : 0 < T := by have := hG.twoLayers; omega
  have hcl : countLayers layer = .ok T := by
    unfold countLayers
    rw [contiguous_max hG.layersBelow hT0]
    simp only
    rw [Nat.sub_add_cancel hT0]
  have hec : 0 < Gi.ecount := by
    obtain ⟨e, he, -⟩ := hG.edgeInLayer 0 hT0
    exact List.length_pos_of_mem he
  have hens : ensureWeight test Gi.ecount Gi = .ok (withOnes Gi) := by
    by_cases ht : test Gi = true
    · unfold ensureWeight
      rw [if_pos ht]
      have : Gi.weight = some (List.replicate Gi.edges.length 1) := hw ht
      unfold withOnes
      rw [← this]
    · exact ensure_false (by simpa using ht) (Or.inl hec)
  have hm' : Multilayer (withOnes Gi) Gx layer :=
    ⟨⟨hG.intra.1, by intro ws h; rw [← Option.some.inj h]; simp [withOnes]⟩, hG.inter, hG.vcount, hG.layers, hG.noCross⟩
  have hest := estimateMultilayerSBM_unweighted fsolve hm' hG.undirected (unitWeights_withOnes Gi) hG.layersBelow hT0
    hG.edgeInLayer (c := c) hc "temporal"
  have hv : (withOnes Gi).vcount / T = N := hG.perLayer
  have hpf : persistenceFunctionFromModel (F := ℝ) "temporal" Gx (some layer) (some N) (some T)
      (some ((List.range T).map fun t => layer.count t)) = .ok fun c => ordinalPersistence Gx c N T := rfl
  have hNT : ((N : ℝ) * ((T : ℝ) - 1)) ≠ 0 := by
    have h1 : (0 : ℝ) < N := by exact_mod_cast hG.nonempty
    have h2 : (2 : ℝ) ≤ T := by exact_mod_cast hG.twoLayers
    exact (mul_pos h1 (by linarith)).ne'
  have hpers : ordinalPersistence (F := ℝ) Gx c N T = .ok (withinAdj Gx c / ((N : ℝ) * ((T : ℝ) - 1))) := by
    unfold ordinalPersistence insideEdges
    rw [internalEdgeCount_ok (fun e he => by have := hG.inter.1 e he; rw [hc, ← hG.vcount]; exact this), Py.ok_bind]
    unfold pyDiv
    rw [if_neg hNT, withinAdj_directed_count hG.inter hG.ordered (by rw [hc, hG.vcount])]
  rw [hv, hpf, Py.ok_bind] at hest
  simp only [hpers] at hest
  rw [Py.ok_bind, if_neg (by decide), partLen_contiguous hK, copying_eq K hG.nonempty hG.twoLayers] at hest
  simp only [gammaOmegaEstimate_def]
  rw [hcl, Py.ok_bind]
  unfold leidenPartWithMembership
  rw [if_pos hc, Py.ok_bind, hens, Py.ok_bind, hest]
  have hA : withinAdj (withOnes Gi) c = withinAdj Gi c := rfl
  have hP : withinNullLayered (withOnes Gi) layer c = withinNullLayered Gi layer c := rfl
  have hE : (withOnes Gi).ecount = Gi.ecount := rfl
  simp only [hA, hP, hE]
  have hof : omegaFunctionFromModel "temporal" ωmax T =
      .ok fun thetaIn thetaOut p K => temporalOmega thetaIn thetaOut p K ωmax := rfl
  simp only [Py.pure_eq, Py.ok_bind, hof]
  cases temporalOmega (affinities (withinAdj Gi c) (withinNullLayered Gi layer c) (2 * Gi.ecount)).1
        (affinities (withinAdj Gi c) (withinNullLayered Gi layer c) (2 * Gi.ecount)).2
        (copying K (withinAdj Gx c) N T) K ωmax with
  | ok ω => rfl
  | error e => rfl

theorem copying_range (K : Nat) (C : ℝ) {N T : Nat} (hN : 0 < N) (hT : 2 ≤ T) :
    0 ≤ copying K C N T ∧ copying K C N T ≤ 1 := by
  rw [← copying_eq K hN hT]
  exact ⟨(c29_copying_probability K _).1, (c29_copying_probability K _).2.1⟩

/-- The omega estimate for copying probability `q`: 0 for `q = 0`, 1000 for `q = 1`, else a ratio of logarithms. -/
noncomputable def temporalCoupling (θin θout q : ℝ) (K : Nat) : ℝ :=
  if q = 0 then 0 else if q = 1 then 1000 else Real.log (1 + q * K / (1 - q)) / (2 * (Real.log θin - Real.log θout))

section Explicit
variable {test : Graph ℝ → Bool} {fsolve : (ℝ → ℝ) → ℝ → ℝ}

theorem layered_pos (hG : TemporalNetwork Gi Gx layer T N) (c : List α) : 0 < withinNullLayered (F := ℝ) Gi layer c := by
  obtain ⟨e, he, -⟩ := hG.edgeInLayer 0 (by have := hG.twoLayers; omega)
  exact withinNullLayered_pos (F := ℝ) hG.intra hG.undirected hG.layers (List.ne_nil_of_mem he) c

/-- Within layers, the null model puts at most all edges inside communities. -/
theorem withinNullLayered_le (G : Graph ℝ) {layer : List Nat} (hl : layer.length = G.vcount) (c : List α) :
    withinNullLayered (F := ℝ) G layer c ≤ total G := by
  have htot : (total G : ℝ) = ∑ i ∈ range G.vcount, (colSum G i : ℝ) := by
    unfold total colSum
    rw [Finset.sum_comm]
    push_cast; rfl
  unfold withinNullLayered
  rw [htot]
  refine Finset.sum_le_sum fun i hi => ?_
  have hi' : i < layer.length := by rw [hl]; exact Finset.mem_range.mp hi
  have hg : layer[i]? = some layer[i] := List.getElem?_eq_getElem hi'
  have hLT : (layerTotal G layer layer[i] : ℝ) =
      ∑ j ∈ range G.vcount, if layer[i]? = layer[j]? then (rowSum G j : ℝ) else 0 := by
    unfold layerTotal
    push_cast
    refine Finset.sum_congr rfl fun j _ => ?_
    rw [hg]
    by_cases h : layer[j]? = some layer[i]
    · rw [if_pos h.symm]
      simp only [h, if_true]
      unfold rowSum; push_cast; rfl
    · rw [if_neg (fun e => h e.symm)]
      simp [h]
  have hle : ∀ j ∈ range G.vcount, (if c[i]? = c[j]? ∧ layer[i]? = layer[j]? then
      (colSum G i : ℝ) * (rowSum G j : ℝ) / (layerTotal G layer (layer[i]?.getD 0) : ℝ) else 0) ≤
      (colSum G i : ℝ) / (layerTotal G layer layer[i] : ℝ) * (if layer[i]? = layer[j]? then (rowSum G j : ℝ) else 0) := by
    intro j _
    rw [hg, Option.getD_some]
    by_cases h : some layer[i] = layer[j]?
    · by_cases h' : c[i]? = c[j]?
      · rw [if_pos ⟨h', h⟩, if_pos h]
        exact le_of_eq (by ring)
      · rw [if_neg (fun e => h' e.1), if_pos h]
        positivity
    · rw [if_neg (fun e => h e.2), if_neg h, mul_zero]
  refine (Finset.sum_le_sum hle).trans ?_
  rw [← Finset.mul_sum, ← hLT]
  by_cases h0 : (layerTotal G layer layer[i] : ℝ) = 0
  · rw [h0]; simp
  · rw [div_mul_cancel₀ _ h0]

theorem layered_le (hG : TemporalNetwork Gi Gx layer T N) (c : List α) :
    withinNullLayered (F := ℝ) Gi layer c ≤ 2 * Gi.ecount := by
  have htot : (total Gi : ℝ) = 2 * Gi.ecount := by rw [total_eq hG.intra]; simp [hG.undirected]
  exact htot ▸ withinNullLayered_le Gi hG.layers c

/-- The call made by the pruning function for the partition `p`. -/
theorem estimates_eq (hG : TemporalNetwork Gi Gx layer T N) (hw : CountsAsUnweighted test Gi) {p : List α}
    (hp : p.length = Gi.vcount) (ωmax : ℝ) :
    gammaOmegaEstimate test fsolve Gi Gx layer (canon p) ωmax "temporal" =
      (temporalOmega (affinities (withinAdj Gi p) (withinNullLayered Gi layer p) (2 * Gi.ecount)).1
        (affinities (withinAdj Gi p) (withinNullLayered Gi layer p) (2 * Gi.ecount)).2
        (copying p.dedup.length (withinAdj Gx p) N T) p.dedup.length ωmax).map fun ω =>
          ((gammaFromParameters (affinities (withinAdj Gi p) (withinNullLayered Gi layer p) (2 * Gi.ecount)).1
            (affinities (withinAdj Gi p) (withinNullLayered Gi layer p) (2 * Gi.ecount)).2, ω), withOnes Gi) := by
  have hlenc : (canon p).length = Gi.vcount := by rw [canon_length, hp]
  have hA : withinAdj Gi (canon p) = withinAdj Gi p := withinAdj_same (canon_same p) hlenc
  have hX : withinAdj Gx (canon p) = withinAdj Gx p := withinAdj_same (canon_same p) (by rw [hlenc, hG.vcount])
  have hP : withinNullLayered Gi layer (canon p) = withinNullLayered Gi layer p :=
    withinNullLayered_same (canon_same p) hlenc
  rw [c69_temporal_estimates hG fsolve hw hlenc (canon_mem_iff p) ωmax, hA, hX, hP]

theorem withinAdj_nonneg (G : Graph ℝ) (c : List α) : 0 ≤ withinAdj G c :=
  Finset.sum_nonneg fun _ _ => Finset.sum_nonneg fun _ _ => by split <;> positivity

theorem withinAdj_le_total (G : Graph ℝ) (c : List α) : withinAdj G c ≤ (total G : ℝ) := by
  unfold withinAdj total
  push_cast
  refine Finset.sum_le_sum fun _ _ => Finset.sum_le_sum fun _ _ => ?_
  split
  · exact le_refl _
  · positivity

theorem adj_le (hG : TemporalNetwork Gi Gx layer T N) (c : List α) : withinAdj Gi c ≤ 2 * (Gi.ecount : ℝ) := by
  have htot : (total Gi : ℝ) = 2 * Gi.ecount := by rw [total_eq hG.intra]; simp [hG.undirected]
  exact htot ▸ withinAdj_le_total Gi c

theorem affinities_out_nonneg {A P W : ℝ} (hA : A ≤ W) (hP : P ≤ W) : 0 ≤ (affinities A P W).2 := by
  unfold affinities
  dsimp only
  split
  · exact le_refl _
  · exact div_nonneg (by linarith) (by linarith)

theorem affinities_eq_iff {A P W : ℝ} (hW : 0 < W) (hP : 0 < P) (hPW : P < W) :
    A / P = (W - A) / (W - P) ↔ A = P := by
  rw [div_eq_div_iff hP.ne' (by linarith)]
  constructor
  · intro h
    have : W * (A - P) = 0 := by linarith
    rcases mul_eq_zero.mp this with h | h
    · exact absurd h hW.ne'
    · linarith
  · intro h; rw [h]; ring

/-- The denominator of the coupling estimate vanishes exactly if `A = P`. -/
theorem coupling_degenerate {A P W : ℝ} (hW : 0 < W) (hP : 0 < P) (hPW : P ≤ W) :
    (((affinities A P W).2 = 0 ∧ (affinities A P W).1 = 1) ∨ (affinities A P W).1 = (affinities A P W).2) ↔
      A = P ∨ (A = 0 ∧ P = W) := by
  unfold affinities
  dsimp only
  rw [div_eq_one_iff_eq hP.ne']
  rcases hPW.lt_or_eq with h | h
  · rw [if_neg h.ne', affinities_eq_iff hW hP h, div_eq_zero_iff]
    constructor
    · rintro (⟨-, h'⟩ | h')
      · exact Or.inl h'
      · exact Or.inl h'
    · rintro (h' | ⟨-, h'⟩)
      · exact Or.inr h'
      · exact absurd h' h.ne
  · rw [if_pos h.symm, div_eq_zero_iff]
    constructor
    · rintro (⟨-, h'⟩ | h' | h')
      · exact Or.inl h'
      · exact Or.inr ⟨h', h⟩
      · exact absurd h' hP.ne'
    · rintro (h' | ⟨h', -⟩)
      · exact Or.inl ⟨rfl, h'⟩
      · exact Or.inr (Or.inl h')

theorem coupling_arg_pos {q : ℝ} (h0 : 0 ≤ q) (h1 : q < 1) (K : Nat) : ¬ 1 + q * K / (1 - q) ≤ 0 := by
  have : 0 ≤ q * K / (1 - q) := div_nonneg (by positivity) (by linarith)
  linarith

theorem temporalOmega_affinities {A P W : ℝ} (hW : 0 < W) (hP : 0 < P) (hPW : P ≤ W) (hA : 0 ≤ A) (hAW : A ≤ W) {q : ℝ}
    (h0 : 0 ≤ q) (h1 : q ≤ 1) (K : Nat) :
    temporalOmega (affinities A P W).1 (affinities A P W).2 q K 1000 =
      if 0 < q ∧ q < 1 ∧ A = 0 then .error (.valueError "math domain error")
      else if 0 < q ∧ q < 1 ∧ A = P then .error .zeroDivisionError
      else .ok (temporalCoupling (affinities A P W).1 (affinities A P W).2 q K) := by
  obtain ⟨t0, t1, t2⟩ := c32_temporal_omega (affinities A P W).1 (affinities A P W).2 q K 1000
  by_cases hq0 : q = 0
  · rw [t0 hq0, hq0]
    unfold temporalCoupling
    simp
  by_cases hq1 : q < 1
  · have hq : 0 < q := lt_of_le_of_ne h0 (Ne.symm hq0)
    rw [t2 hq0 hq1]
    simp only [hq, hq1, true_and, coupling_arg_pos h0 hq1, false_or, not_lt.mpr (affinities_out_nonneg hAW hPW), or_false]
    have hin : (affinities A P W).1 ≤ 0 ↔ A = 0 := by
      unfold affinities
      dsimp only
      rw [div_le_iff₀ hP, zero_mul]
      exact ⟨fun h => le_antisymm h hA, fun h => h.le⟩
    simp only [hin]
    by_cases hA0 : A = 0
    · rw [if_pos hA0, if_pos hA0]
    · rw [if_neg hA0, if_neg hA0]
      simp only [coupling_degenerate hW hP hPW, hA0, false_and, or_false]
      by_cases hAP : A = P
      · rw [if_pos hAP, if_pos hAP]
      · rw [if_neg hAP, if_neg hAP]
        congr 1
        unfold couplingFormula temporalCoupling
        rw [if_neg hq0, if_neg hq1.ne]
        by_cases ho : (affinities A P W).2 = 0
        · rw [if_pos ho, ho, Real.log_zero, sub_zero]
        · rw [if_neg ho]
  · have hq : q = 1 := le_antisymm h1 (not_lt.mp hq1)
    rw [t1 (not_lt.mp hq1), hq]
    unfold temporalCoupling
    simp

/-- **C69 (errors).** The estimation raises `ValueError` iff the copying probability is strictly between 0 and 1 and there
is no inner edge; `ZeroDivisionError` iff it is strictly between 0 and 1 and the number of inner edges is what the null
model expects; otherwise it returns the gamma estimate for `θ_in`, `θ_out` and the explicit omega estimate. -/
theorem c69_outcome (hG : TemporalNetwork Gi Gx layer T N) (hw : CountsAsUnweighted test Gi) {p : List α}
    (hp : p.length = Gi.vcount) {c : List Nat} (hc : sortedTuple p = .ok c) :
    gammaOmegaEstimate test fsolve Gi Gx layer c defaultOmegaMax "temporal" =
      if 0 < copying p.dedup.length (withinAdj Gx p) N T ∧ copying p.dedup.length (withinAdj Gx p) N T < 1 ∧
        withinAdj Gi p = 0 then .error (.valueError "math domain error")
      else if 0 < copying p.dedup.length (withinAdj Gx p) N T ∧ copying p.dedup.length (withinAdj Gx p) N T < 1 ∧
        withinAdj Gi p = withinNullLayered Gi layer p then .error .zeroDivisionError
      else .ok ((gammaFromParameters (affinities (withinAdj Gi p) (withinNullLayered Gi layer p) (2 * Gi.ecount)).1
          (affinities (withinAdj Gi p) (withinNullLayered Gi layer p) (2 * Gi.ecount)).2,
        temporalCoupling (affinities (withinAdj Gi p) (withinNullLayered Gi layer p) (2 * Gi.ecount)).1
          (affinities (withinAdj Gi p) (withinNullLayered Gi layer p) (2 * Gi.ecount)).2
          (copying p.dedup.length (withinAdj Gx p) N T) p.dedup.length), withOnes Gi) := by
  rw [sortedTuple_eq] at hc
  obtain rfl := Except.ok.inj hc
  have hPpos := layered_pos hG p
  have hPle := layered_le hG p
  have hW : 0 < 2 * (Gi.ecount : ℝ) := lt_of_lt_of_le hPpos hPle
  obtain ⟨h0, h1⟩ := copying_range p.dedup.length (withinAdj Gx p) hG.nonempty hG.twoLayers
  have hdef : defaultOmegaMax = (1000 : ℝ) := rfl
  rw [estimates_eq hG hw hp, hdef,
    temporalOmega_affinities hW hPpos hPle (withinAdj_nonneg Gi p) (adj_le hG p) h0 h1]
  split
  · rfl
  · split <;> rfl

/-- **C69.** A partition has the real numbers `γ`, `ω` as estimates iff the number of its inner edges is neither zero, nor
maximal, nor what the null model expects, and `γ`, `ω` are the values of the explicit formulas. -/
theorem c69_has_estimates (hG : TemporalNetwork Gi Gx layer T N) (hw : CountsAsUnweighted test Gi) {p : List α}
    (hp : p.length = Gi.vcount) (γ ω : ℝ) :
    HasEstimates test fsolve Gi Gx layer "temporal" p γ ω ↔
      0 < withinAdj Gi p ∧ withinAdj Gi p < 2 * Gi.ecount ∧ withinNullLayered Gi layer p < 2 * Gi.ecount ∧
        withinAdj Gi p ≠ withinNullLayered Gi layer p ∧
        γ = logMean (withinAdj Gi p / withinNullLayered Gi layer p)
          ((2 * Gi.ecount - withinAdj Gi p) / (2 * Gi.ecount - withinNullLayered Gi layer p)) ∧
        ω = temporalCoupling (withinAdj Gi p / withinNullLayered Gi layer p)
          ((2 * Gi.ecount - withinAdj Gi p) / (2 * Gi.ecount - withinNullLayered Gi layer p))
          (copying p.dedup.length (withinAdj Gx p) N T) p.dedup.length := by
  have hPpos := layered_pos hG p
  have hPle := layered_le hG p
  have hA0 := withinAdj_nonneg Gi p
  have hAle := adj_le hG p
  have hW : 0 < 2 * (Gi.ecount : ℝ) := lt_of_lt_of_le hPpos hPle
  have hout := c69_outcome (fsolve := fsolve) hG hw hp (sortedTuple_eq p)
  have hiff : HasEstimates test fsolve Gi Gx layer "temporal" p γ ω ↔
      ∃ G', gammaOmegaEstimate test fsolve Gi Gx layer (canon p) defaultOmegaMax "temporal" = .ok ((some (.fin γ), ω), G') := by
    unfold HasEstimates
    rw [sortedTuple_eq]
    constructor
    · rintro ⟨c, G', h, h'⟩
      obtain rfl := Except.ok.inj h
      exact ⟨G', h'⟩
    · rintro ⟨G', h⟩; exact ⟨_, G', rfl, h⟩
  rw [hiff, hout]
  generalize copying p.dedup.length (withinAdj Gx p) N T = q
  generalize hgA : withinAdj Gi p = A at *
  generalize hgP : withinNullLayered Gi layer p = P at *
  generalize hgW : 2 * (Gi.ecount : ℝ) = W at *
  constructor
  · rintro ⟨G', h⟩
    split at h
    · cases h
    · split at h
      · cases h
      · simp only [Except.ok.injEq, Prod.mk.injEq] at h
        obtain ⟨⟨hγ, hω⟩, -⟩ := h
        obtain ⟨a, b, c, d⟩ := ((c27_degenerate_estimates _ _).2.2.1 _).mp hγ
        have hPlt : P < W := by
          rcases hPle.lt_or_eq with h | h
          · exact h
          · exfalso; unfold affinities at b; simp [h] at b
        unfold affinities at a b c d hω
        simp only [if_neg hPlt.ne'] at a b c d hω
        rw [div_pos_iff_of_pos_right hPpos] at a
        rw [div_pos_iff_of_pos_right (by linarith)] at b
        exact ⟨a, by linarith, hPlt, fun h => c ((affinities_eq_iff hW hPpos hPlt).mpr h), d, hω.symm⟩
  · rintro ⟨a, b, hPlt, c, rfl, rfl⟩
    refine ⟨withOnes Gi, ?_⟩
    rw [if_neg (by rintro ⟨-, -, h⟩; exact a.ne' h), if_neg (by rintro ⟨-, -, h⟩; exact c h)]
    have h1 : (affinities A P W).1 = A / P := rfl
    have h2 : (affinities A P W).2 = (W - A) / (W - P) := by unfold affinities; simp [hPlt.ne']
    rw [h1, h2]
    congr 3
    exact ((c27_degenerate_estimates _ _).2.2.1 _).mpr ⟨div_pos a hPpos, div_pos (by linarith) (by linarith),
      fun h => c ((affinities_eq_iff hW hPpos hPlt).mp h), rfl⟩

/-- **C69 (NaN).** The gamma estimate is NaN iff the number of inner edges is exactly what the null model expects (but not
maximal) and the copying probability is 0 or 1. -/
theorem c69_has_nan (hG : TemporalNetwork Gi Gx layer T N) (hw : CountsAsUnweighted test Gi) {p : List α}
    (hp : p.length = Gi.vcount) :
    HasNanEstimate test fsolve Gi Gx layer "temporal" p ↔
      withinAdj Gi p = withinNullLayered Gi layer p ∧ withinAdj Gi p < 2 * Gi.ecount ∧
        (copying p.dedup.length (withinAdj Gx p) N T = 0 ∨ copying p.dedup.length (withinAdj Gx p) N T = 1) := by
  have hPpos := layered_pos hG p
  have hPle := layered_le hG p
  have hA0 := withinAdj_nonneg Gi p
  have hAle := adj_le hG p
  have hW : 0 < 2 * (Gi.ecount : ℝ) := lt_of_lt_of_le hPpos hPle
  obtain ⟨h0, h1⟩ := copying_range p.dedup.length (withinAdj Gx p) hG.nonempty hG.twoLayers
  have hout := c69_outcome (fsolve := fsolve) hG hw hp (sortedTuple_eq p)
  have hiff : HasNanEstimate test fsolve Gi Gx layer "temporal" p ↔
      ∃ ω G', gammaOmegaEstimate test fsolve Gi Gx layer (canon p) defaultOmegaMax "temporal" = .ok ((some .nan, ω), G') := by
    unfold HasNanEstimate
    rw [sortedTuple_eq]
    constructor
    · rintro ⟨c, ω, G', h, h'⟩
      obtain rfl := Except.ok.inj h
      exact ⟨ω, G', h'⟩
    · rintro ⟨ω, G', h⟩; exact ⟨_, ω, G', rfl, h⟩
  rw [hiff, hout]
  generalize copying p.dedup.length (withinAdj Gx p) N T = q at *
  generalize hgA : withinAdj Gi p = A at *
  generalize hgP : withinNullLayered Gi layer p = P at *
  generalize hgW : 2 * (Gi.ecount : ℝ) = W at *
  constructor
  · rintro ⟨ω, G', h⟩
    split at h
    · cases h
    · rename_i hn1
      split at h
      · cases h
      · rename_i hn2
        simp only [Except.ok.injEq, Prod.mk.injEq] at h
        obtain ⟨⟨hγ, -⟩, -⟩ := h
        obtain ⟨a, b, c⟩ := (c27_degenerate_estimates _ _).2.1.mp hγ
        have hPlt : P < W := by
          rcases hPle.lt_or_eq with h | h
          · exact h
          · exfalso; unfold affinities at b; simp [h] at b
        have hin : 0 ≤ (affinities A P W).1 := div_nonneg hA0 hPpos.le
        have hon := affinities_out_nonneg hAle hPle
        have hAP : A = P := by
          rcases c with h | h | h
          · unfold affinities at h
            simp only [if_neg hPlt.ne'] at h
            exact (affinities_eq_iff hW hPpos hPlt).mp h
          · linarith
          · linarith
        refine ⟨hAP, hAP ▸ hPlt, ?_⟩
        by_contra hcon
        push Not at hcon
        exact hn2 ⟨lt_of_le_of_ne h0 (Ne.symm hcon.1), lt_of_le_of_ne h1 hcon.2, hAP⟩
  · rintro ⟨hAP, hPlt, hq⟩
    have hq' : ¬ (0 < q ∧ q < 1) := by rintro ⟨a, b⟩; rcases hq with h | h <;> linarith
    rw [if_neg (fun h => hq' ⟨h.1, h.2.1⟩), if_neg (fun h => hq' ⟨h.1, h.2.1⟩)]
    refine ⟨_, _, congrArg Except.ok (Prod.ext (Prod.ext ?_ rfl) rfl)⟩
    have hPlt' : P < W := hAP ▸ hPlt
    refine (c27_degenerate_estimates _ _).2.1.mpr ?_
    have h1 : (affinities A P W).1 = 1 := by unfold affinities; rw [hAP]; exact div_self hPpos.ne'
    have h2 : (affinities A P W).2 = 1 := by
      unfold affinities; rw [hAP]; simp only [if_neg hPlt'.ne']; exact div_self (by linarith)
    rw [h1, h2]
    exact ⟨one_ne_zero, one_ne_zero, Or.inl rfl⟩

/-- The partition makes the parameter estimation fail: its copying probability is strictly between 0 and 1, and it has no
inner edge or exactly as many as the null model expects. -/
def Failing (Gi Gx : Graph ℝ) (layer : List Nat) (N T : Nat) (p : List α) : Prop :=
  0 < copying p.dedup.length (withinAdj Gx p) N T ∧ copying p.dedup.length (withinAdj Gx p) N T < 1 ∧
    (withinAdj Gi p = 0 ∨ withinAdj Gi p = withinNullLayered Gi layer p)

theorem c69_fails_iff (hG : TemporalNetwork Gi Gx layer T N) (hw : CountsAsUnweighted test Gi) {p : List α}
    (hp : p.length = Gi.vcount) {c : List Nat} (hc : sortedTuple p = .ok c) :
    (∃ e, gammaOmegaEstimate test fsolve Gi Gx layer c defaultOmegaMax "temporal" = .error e) ↔
      Failing Gi Gx layer N T p := by
  rw [c69_outcome hG hw hp hc]
  unfold Failing
  constructor
  · rintro ⟨e, h⟩
    split at h
    · rename_i h'; exact ⟨h'.1, h'.2.1, Or.inl h'.2.2⟩
    · split at h
      · rename_i h'; exact ⟨h'.1, h'.2.1, Or.inr h'.2.2⟩
      · cases h
  · rintro ⟨h0, h1, h2⟩
    split
    · exact ⟨_, rfl⟩
    · rename_i hn
      split
      · exact ⟨_, rfl⟩
      · rename_i hn'
        rcases h2 with h | h
        · exact absurd ⟨h0, h1, h⟩ hn
        · exact absurd ⟨h0, h1, h⟩ hn'

variable {env : PruneEnv} {parts : List (List α)} {W : Window} {restrict : Option Nat}

theorem TemporalNetwork_edges (hG : TemporalNetwork Gi Gx layer T N) :
    layer ≠ [] ∧ ∀ t ∈ layer, ∃ e ∈ Gi.edges, layer[e.1]? = some t := by
  refine ⟨?_, fun t ht => hG.edgeInLayer t ((hG.layersBelow t).mp ht)⟩
  exact List.ne_nil_of_mem ((hG.layersBelow 0).mpr (by have := hG.twoLayers; omega))

/-- **C69 (the pipeline returns).** Unweighted temporal network, exact solvers, window with non-empty interior: if no
candidate is failing, multilayer pruning returns. -/
theorem c69_returns (he : SoundPruneEnv env) (hx : ExactEnv env.toChampEnv) (hG : TemporalNetwork Gi Gx layer T N)
    (hw : CountsAsUnweighted env.test Gi) (hp : ∀ p ∈ parts, p.length = Gi.vcount) (hγ : W.γ₀ < W.γf) (hω : W.ω₀ < W.ωf)
    (hok : ∀ p, Candidate parts restrict p → ¬ Failing Gi Gx layer N T p) :
    ∃ out G', pruneToMultilayerStable env Gi Gx layer "temporal" (.memberships parts) W.γ₀ W.γf W.ω₀ W.ωf restrict false =
      (some (.ok (out, G')) : Option _) := by
  obtain ⟨hn, hedge⟩ := TemporalNetwork_edges hG
  obtain ⟨r, hr, hrr⟩ := c43_returns he hx hG.toMultilayer hG.undirected hn hedge hp hγ hω "temporal" restrict
  cases r with
  | ok r => exact ⟨r.1, r.2, hr⟩
  | error e =>
    obtain ⟨p, γ, ω, c, hpc, -, hc, hE⟩ := hrr e rfl
    exact absurd ((c69_fails_iff hG hw (hp p hpc.1) hc).mp ⟨e, hE⟩) (hok p hpc)

/-- **C69 (the pipeline raises).** A failing candidate with coefficients of its own that is strictly best anywhere inside
the window makes the whole call raise `ValueError` or `ZeroDivisionError`. -/
theorem c69_raises (he : SoundPruneEnv env) (hx : ExactEnv env.toChampEnv) (hG : TemporalNetwork Gi Gx layer T N)
    (hw : CountsAsUnweighted env.test Gi) (hp : ∀ p ∈ parts, p.length = Gi.vcount) (hγ : W.γ₀ < W.γf) (hω : W.ω₀ < W.ωf)
    {p : List α} (hpc : Candidate parts restrict p)
    (hdist : ∀ q, Candidate parts restrict q → SameMultilayer Gi Gx layer q p → SamePartition q p) {γ ω : ℝ}
    (hb : BestInside Gi Gx layer (Candidate parts restrict) W p γ ω) (hf : Failing Gi Gx layer N T p) :
    ∃ e, (e = .valueError "math domain error" ∨ e = .zeroDivisionError) ∧
      pruneToMultilayerStable env Gi Gx layer "temporal" (.memberships parts) W.γ₀ W.γf W.ω₀ W.ωf restrict false =
        (some (.error e) : Option _) := by
  obtain ⟨hn, hedge⟩ := TemporalNetwork_edges hG
  obtain ⟨e₀, hE⟩ := (c69_fails_iff (fsolve := env.fsolve) hG hw (hp p hpc.1) (sortedTuple_eq p)).mpr hf
  obtain ⟨e, he'⟩ := c43_raises he hx hG.toMultilayer hG.undirected hn hedge hp hγ hω "temporal" hpc hdist hb
    (sortedTuple_eq p) hE
  refine ⟨e, ?_, he'⟩
  obtain ⟨r, hr, hrr⟩ := c43_returns he hx hG.toMultilayer hG.undirected hn hedge hp hγ hω "temporal" restrict
  rw [he'] at hr
  obtain ⟨q, γ', ω', c, hqc, -, hc, hqE⟩ := hrr e (Option.some.inj hr).symm
  rw [c69_outcome hG hw (hp q hqc.1) hc] at hqE
  split at hqE
  · exact Or.inl (Except.error.inj hqE).symm
  · split at hqE
    · exact Or.inr (Except.error.inj hqE).symm
    · cases hqE

/-- **C37 (the pipeline).** A candidate with coefficients of its own that is strictly best anywhere inside the window, has
exactly as many inner edges as the null model expects (not maximal), and copying probability 0 or 1, is returned as
stable although its gamma estimate is NaN. -/
theorem c37_pipeline_returns_nan (he : SoundPruneEnv env) (hx : ExactEnv env.toChampEnv)
    (hG : TemporalNetwork Gi Gx layer T N) (hw : CountsAsUnweighted env.test Gi) (hp : ∀ p ∈ parts, p.length = Gi.vcount)
    (hγ : W.γ₀ < W.γf) (hω : W.ω₀ < W.ωf) (hok : ∀ p, Candidate parts restrict p → ¬ Failing Gi Gx layer N T p)
    {p : List α} (hpc : Candidate parts restrict p)
    (hdist : ∀ q, Candidate parts restrict q → SameMultilayer Gi Gx layer q p → SamePartition q p) {γ ω : ℝ}
    (hb : BestInside Gi Gx layer (Candidate parts restrict) W p γ ω)
    (hA : withinAdj Gi p = withinNullLayered Gi layer p) (hlt : withinAdj Gi p < 2 * Gi.ecount)
    (hq : copying p.dedup.length (withinAdj Gx p) N T = 0 ∨ copying p.dedup.length (withinAdj Gx p) N T = 1) :
    HasNanEstimate env.test env.fsolve Gi Gx layer "temporal" p ∧
    ∃ out G' c, sortedTuple p = .ok c ∧ c ∈ out ∧
      pruneToMultilayerStable env Gi Gx layer "temporal" (.memberships parts) W.γ₀ W.γf W.ω₀ W.ωf restrict false =
        (some (.ok (out, G')) : Option _) := by
  obtain ⟨out, G', h⟩ := c69_returns he hx hG hw hp hγ hω hok
  have hnan := (c69_has_nan (fsolve := env.fsolve) hG hw (hp p hpc.1)).mpr ⟨hA, hlt, hq⟩
  exact ⟨hnan, out, G', canon p, sortedTuple_eq p, (c44_unique_coefficients he hG.toMultilayer hp h hpc (sortedTuple_eq p)
    hdist).mpr (Or.inr ⟨hnan, γ, ω, hb⟩), h⟩

end Explicit

/-! ### Witnesses -/

theorem gIntraR_temporal : TemporalNetwork gIntraR gInterR [0, 0, 0, 1, 1, 1] 2 3 where
  toMultilayer := gIntraR_multilayer
  undirected := rfl
  ordered := rfl
  layersBelow := fun k => by simp; omega
  twoLayers := le_refl _
  perLayer := rfl
  nonempty := by decide
  edgeInLayer := by decide

/-- The estimates of `{0,1},{2}` copied to both layers: `A = 4`, `P = 5`, full persistence. -/
example : HasEstimates pruneEnv.test pruneEnv.fsolve gIntraR gInterR [0, 0, 0, 1, 1, 1] "temporal" [0, 0, 1, 0, 0, 1]
    (logMean (4 / 5) ((8 - 4) / (8 - 5))) 1000 := by
  have hA : withinAdj gIntraR [0, 0, 1, 0, 0, 1] = 4 := by
    simp [withinAdj, gIntraR, adj, Finset.sum_range_succ]; norm_num
  have hX : withinAdj gInterR [0, 0, 1, 0, 0, 1] = 3 := by
    simp [withinAdj, gInterR, adj, Finset.sum_range_succ]; norm_num
  have hP : withinNullLayered gIntraR [0, 0, 0, 1, 1, 1] [0, 0, 1, 0, 0, 1] = 5 := by
    simp [withinNullLayered, gIntraR, adj, rowSum, colSum, layerTotal, Finset.sum_range_succ]; norm_num
  have hec : 2 * (gIntraR.ecount : ℝ) = 8 := by norm_num [gIntraR, Graph.ecount]
  rw [c69_has_estimates gIntraR_temporal (fun h => by cases h) rfl, hA, hP, hX, hec]
  have hd : ([0, 0, 1, 0, 0, 1] : List Nat).dedup.length = 2 := by decide
  refine ⟨by norm_num, by norm_num, by norm_num, by norm_num, rfl, ?_⟩
  rw [hd]
  unfold temporalCoupling copying
  norm_num

/-- No inner edge and copying probability 1/2: a failing partition, alone or not. -/
theorem failing_example : Failing gIntraR gInterR [0, 0, 0, 1, 1, 1] 3 2 [0, 1, 2, 0, 1, 0] := by
  have hA : withinAdj gIntraR [0, 1, 2, 0, 1, 0] = 0 := by
    simp [withinAdj, gIntraR, adj, Finset.sum_range_succ]
  have hX : withinAdj gInterR [0, 1, 2, 0, 1, 0] = 2 := by
    simp [withinAdj, gInterR, adj, Finset.sum_range_succ]; norm_num
  have hd : ([0, 1, 2, 0, 1, 0] : List Nat).dedup.length = 3 := by decide
  have hq : copying 3 2 (3 : Nat) (2 : Nat) = 1 / 2 := by unfold copying; norm_num
  unfold Failing
  rw [hA, hX, hd, hq]
  exact ⟨by norm_num, by norm_num, Or.inl rfl⟩

theorem best_alone {Gi Gx : Graph ℝ} {layer : List Nat} {p : List Nat} {W : Window} {γ ω : ℝ} (h1 : W.γ₀ < γ) (h2 : γ < W.γf)
    (h3 : W.ω₀ < ω) (h4 : ω < W.ωf) : BestInside Gi Gx layer (Candidate [p] none) W p γ ω := by
  refine ⟨⟨⟨h1, h2⟩, h3, h4⟩, fun q hq hn => ?_⟩
  obtain rfl := List.mem_singleton.mp hq.1
  exact absurd (fun _ _ => rfl) hn

/-- Pruning this single partition raises. -/
example : ∃ e, (e = .valueError "math domain error" ∨ e = .zeroDivisionError) ∧
    pruneToMultilayerStable pruneEnv gIntraR gInterR [0, 0, 0, 1, 1, 1] "temporal" (.memberships [[0, 1, 2, 0, 1, 0]]) 0 2 0 2
      none false = (some (.error e) : Option _) :=
  c69_raises (W := ⟨0, 2, 0, 2⟩) (γ := 1) (ω := 1) pruneEnv_sound exactEnv_exact gIntraR_temporal (fun h => by cases h)
    (by decide) (by norm_num) (by norm_num) (p := [0, 1, 2, 0, 1, 0]) ⟨by simp, by simp⟩
    (fun q hq _ => by obtain rfl := List.mem_singleton.mp hq.1; exact ⟨rfl, fun _ _ _ _ => Iff.rfl⟩)
    (best_alone (by norm_num) (by norm_num) (by norm_num) (by norm_num)) failing_example

/-- Two layers of two separate edges, all four vertices coupled. -/
def gPairs : Graph ℝ := ⟨8, false, [(0, 1), (2, 3), (4, 5), (6, 7)], none⟩
/-- The coupling of `gPairs`. -/
def gPairsX : Graph ℝ := ⟨8, true, [(0, 4), (1, 5), (2, 6), (3, 7)], none⟩

theorem gPairs_temporal : TemporalNetwork gPairs gPairsX [0, 0, 0, 0, 1, 1, 1, 1] 2 4 where
  intra := ⟨by decide, by intro ws h; cases h⟩
  inter := ⟨by decide, by intro ws h; cases h⟩
  vcount := rfl
  layers := rfl
  noCross := Or.inr (by decide)
  undirected := rfl
  ordered := rfl
  layersBelow := fun k => by simp; omega
  twoLayers := le_refl _
  perLayer := rfl
  nonempty := by decide
  edgeInLayer := by decide

/-- `A = P = 4 < 8` and no coupling edge inside a community: NaN, and returned as stable. -/
example : HasNanEstimate pruneEnv.test pruneEnv.fsolve gPairs gPairsX [0, 0, 0, 0, 1, 1, 1, 1] "temporal"
      [0, 0, 1, 1, 2, 3, 2, 3] ∧
    ∃ out G' c, sortedTuple [0, 0, 1, 1, 2, 3, 2, 3] = .ok c ∧ c ∈ out ∧
      pruneToMultilayerStable pruneEnv gPairs gPairsX [0, 0, 0, 0, 1, 1, 1, 1] "temporal"
        (.memberships [[0, 0, 1, 1, 2, 3, 2, 3]]) 0 2 0 2 none false = (some (.ok (out, G')) : Option _) := by
  have hA : withinAdj gPairs [0, 0, 1, 1, 2, 3, 2, 3] = 4 := by
    simp [withinAdj, gPairs, adj, Finset.sum_range_succ]; norm_num
  have hX : withinAdj gPairsX [0, 0, 1, 1, 2, 3, 2, 3] = 0 := by
    simp [withinAdj, gPairsX, adj, Finset.sum_range_succ]
  have hP : withinNullLayered gPairs [0, 0, 0, 0, 1, 1, 1, 1] [0, 0, 1, 1, 2, 3, 2, 3] = 4 := by
    simp [withinNullLayered, gPairs, adj, rowSum, colSum, layerTotal, Finset.sum_range_succ]; norm_num
  have hd : ([0, 0, 1, 1, 2, 3, 2, 3] : List Nat).dedup.length = 4 := by decide
  have hq : copying ([0, 0, 1, 1, 2, 3, 2, 3] : List Nat).dedup.length (withinAdj gPairsX [0, 0, 1, 1, 2, 3, 2, 3]) (4 : Nat)
      (2 : Nat) = 0 := by
    rw [hd, hX]; unfold copying; norm_num
  refine c37_pipeline_returns_nan (W := ⟨0, 2, 0, 2⟩) (γ := 1) (ω := 1) pruneEnv_sound exactEnv_exact gPairs_temporal
    (fun h => by cases h) (by decide) (by norm_num) (by norm_num) (fun q hqc hf => ?_) ⟨by simp, by simp⟩
    (fun q hq _ => by obtain rfl := List.mem_singleton.mp hq.1; exact ⟨rfl, fun _ _ _ _ => Iff.rfl⟩)
    (best_alone (by norm_num) (by norm_num) (by norm_num) (by norm_num)) (by rw [hA, hP])
    (by rw [hA]; norm_num [gPairs, Graph.ecount]) (Or.inl hq)
  obtain rfl := List.mem_singleton.mp hqc.1
  have := hf.1
  rw [hq] at this
  exact absurd this (lt_irrefl _)

end Verif.Props
