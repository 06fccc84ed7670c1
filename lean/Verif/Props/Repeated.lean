import Verif.Spec.Repeated
import Verif.Props.Warnings
import Verif.Props.Invariance
import Verif.Props.Weights
import Verif.Props.Prune3D

/-!
# Property C93: whole-number weights as repeated edges
-/

namespace Verif.Props
open Verif Spec Finset

section
variable {F : Type} [Field F] {α : Type} [DecidableEq α] {G : Graph F} {ks : List Nat}

/-! ### Modularity -/

theorem sum_map_flatMap_replicate {β : Type} (f : β → F) (l : List (β × Nat)) :
    ((l.flatMap fun e => List.replicate e.2 e.1).map f).sum = (l.map fun e => (e.2 : F) * f e.1).sum := by
  induction l with
  | nil => rfl
  | cons e l ih =>
    rw [List.flatMap_cons, List.map_append, List.sum_append, ih, List.map_cons, List.sum_cons, List.map_replicate,
      List.sum_replicate, nsmul_eq_mul]

theorem count_eq_ones {β : Type} [DecidableEq β] [BEq β] [LawfulBEq β] (a : β) (l : List β) :
    ((l.count a : Nat) : F) = (l.map fun b => if b = a then (1 : F) else 0).sum := by
  induction l with
  | nil => simp
  | cons b l ih =>
    rw [List.count_cons, List.map_cons, List.sum_cons, ← ih]
    by_cases h : b = a
    · simp [h]; ring
    · simp [h]

theorem zip_cast (es : List (Nat × Nat)) (ks : List Nat) :
    es.zip (ks.map fun (k : Nat) => (k : F)) = (es.zip ks).map fun e => (e.1, (e.2 : F)) := by
  rw [List.zip_map_right]; rfl

theorem count_repeated (i j : Nat) :
    ((((repeated G ks).edges).count (i, j) : Nat) : F) = weightAlong (wholeWeights G ks) i j := by
  unfold weightAlong wholeWeights repeated
  simp only [Option.getD_some]
  rw [count_eq_ones, sum_map_flatMap_replicate, zip_cast, List.map_map]
  congr 1
  refine List.map_congr_left fun e _ => ?_
  simp only [Function.comp]
  split <;> simp

theorem adj_repeated (i j : Nat) : ((adj (repeated G ks) i j : Nat) : F) = weightedAdj (wholeWeights G ks) i j := by
  unfold adj weightedAdj
  have hd : (repeated G ks).directed = (wholeWeights G ks).directed := rfl
  rw [hd]
  split
  · exact count_repeated i j
  · rw [Nat.cast_add, count_repeated, count_repeated]

/-- **C93 (modularity).** The modularity of a partition in the graph with repeated edges is its weighted modularity. -/
theorem c93_modularity (G : Graph F) (ks : List Nat) (γ : F) (c : List α) :
    modularity (repeated G ks) γ c = weightedModularity (wholeWeights G ks) γ c := by
  unfold modularity weightedModularity colSum rowSum total
  simp only [Nat.cast_sum, adj_repeated]
  rfl

/-- **C93 (multilayer modularity).** The same for multilayer modularity and the intralayer graph. -/
theorem c93_multilayer_modularity (G Gx : Graph F) (ks : List Nat) {layer : List Nat} (hl : layer.length = G.vcount)
    (γ ω : F) (c : List α) :
    multilayerModularity (repeated G ks) Gx layer γ ω c = weightedMultilayerModularity (wholeWeights G ks) Gx layer γ ω c := by
  unfold multilayerModularity weightedMultilayerModularity withinAdj withinNullLayered colSum rowSum layerTotal
  have hv : (repeated G ks).vcount = (wholeWeights G ks).vcount := rfl
  rw [hv]
  simp only [Nat.cast_sum, adj_repeated, Nat.cast_ite, Nat.cast_zero]
  congr 3
  refine Finset.sum_congr rfl fun i hi => Finset.sum_congr rfl fun j _ => ?_
  have hil : i < layer.length := hl ▸ Finset.mem_range.mp hi
  have hget : some (layer[i]?.getD 0) = layer[i]? := by rw [List.getElem?_eq_getElem hil]; rfl
  rw [hget]

theorem repeated_wf (hG : G.WF) : (repeated G ks).WF := by
  refine ⟨fun e he => ?_, fun ws h => by cases h⟩
  obtain ⟨a, ha, he⟩ := List.mem_flatMap.mp he
  rw [(List.mem_replicate.mp he).2]
  exact hG.1 _ (List.of_mem_zip ha).1

theorem wholeWeights_wf (hG : G.WF) (hk : ks.length = G.edges.length) : (wholeWeights G ks).WF := by
  refine ⟨hG.1, fun ws h => ?_⟩
  cases h
  rw [List.length_map]; exact hk

end

/-! ### Estimates -/

section
variable {F : Type} [Field F] [LinearOrder F] [IsStrictOrderedRing F] {c layer : List Nat} {G : Graph F} {ks : List Nat}

/-- every edge repeated, each copy with weight 1 -/
def unitCopies (es : List ((Nat × Nat) × Nat)) : List ((Nat × Nat) × F) :=
  es.flatMap fun e => List.replicate e.2 (e.1, 1)

/-- every edge with its number as weight -/
def castWeights (es : List ((Nat × Nat) × Nat)) : List ((Nat × Nat) × F) := es.map fun e => (e.1, (e.2 : F))

theorem sum_unitCopies (es : List ((Nat × Nat) × Nat)) (h : (Nat × Nat) × F → F) (hlin : ∀ e w, h (e, w) = w * h (e, 1)) :
    ((unitCopies es).map h).sum = ((castWeights es).map h).sum := by
  induction es with
  | nil => rfl
  | cons e es ih =>
    show ((List.replicate e.2 (e.1, (1 : F)) ++ unitCopies es).map h).sum = (((e.1, (e.2 : F)) :: castWeights es).map h).sum
    rw [List.map_append, List.sum_append, ih, List.map_cons, List.sum_cons, List.map_replicate, List.sum_replicate,
      nsmul_eq_mul, hlin e.1 (e.2 : F)]

theorem wTotal_unitCopies (es : List ((Nat × Nat) × Nat)) : wTotal (F := F) (unitCopies es) = wTotal (castWeights es) :=
  sum_unitCopies es _ fun _ _ => (mul_one _).symm

theorem wInside_unitCopies (es : List ((Nat × Nat) × Nat)) (c : List Nat) :
    wInside (F := F) (unitCopies es) c = wInside (castWeights es) c :=
  sum_unitCopies es _ fun e w => by
    by_cases h : c[e.1]? = c[e.2]? <;> simp [h]

theorem wStrength_unitCopies (es : List ((Nat × Nat) × Nat)) (c : List Nat) (r : Nat) :
    wStrength (F := F) (unitCopies es) c r = wStrength (castWeights es) c r :=
  sum_unitCopies es _ fun e w => by
    by_cases h : c[e.1]? = some r <;> by_cases h' : c[e.2]? = some r <;> simp [h, h'] <;> ring

theorem strengthSq_unitCopies (es : List ((Nat × Nat) × Nat)) (c : List Nat) :
    strengthSq (F := F) (unitCopies es) c = strengthSq (castWeights es) c := by
  unfold strengthSq
  exact Finset.sum_congr rfl fun r _ => by rw [wStrength_unitCopies]

theorem filter_unitCopies (es : List ((Nat × Nat) × Nat)) (q : Nat × Nat → Bool) :
    (unitCopies (F := F) es).filter (fun e => q e.1) = unitCopies (es.filter fun e => q e.1) := by
  induction es with
  | nil => rfl
  | cons e es ih =>
    show (List.replicate e.2 (e.1, (1 : F)) ++ unitCopies es).filter _ = _
    rw [List.filter_append, ih]
    by_cases h : q e.1 = true
    · rw [List.filter_cons_of_pos (by simpa using h)]
      have : (List.replicate e.2 (e.1, (1 : F))).filter (fun e => q e.1) = List.replicate e.2 (e.1, 1) :=
        List.filter_eq_self.mpr fun a ha => by rw [(List.mem_replicate.mp ha).2]; exact h
      rw [this]; rfl
    · rw [List.filter_cons_of_neg (by simpa using h)]
      have : (List.replicate e.2 (e.1, (1 : F))).filter (fun e => q e.1) = [] :=
        List.filter_eq_nil_iff.mpr fun a ha => by rw [(List.mem_replicate.mp ha).2]; exact h
      rw [this]; rfl

theorem filter_castWeights (es : List ((Nat × Nat) × Nat)) (q : Nat × Nat → Bool) :
    (castWeights (F := F) es).filter (fun e => q e.1) = castWeights (es.filter fun e => q e.1) := by
  unfold castWeights
  rw [List.filter_map]; rfl

theorem layerOf_unitCopies (es : List ((Nat × Nat) × Nat)) (t : Nat) : layerOf (unitCopies (F := F) es) layer t =
    unitCopies (es.filter fun e => decide (layer[e.1.1]? = some t)) :=
  filter_unitCopies es fun e => decide (layer[e.1]? = some t)

theorem layerOf_castWeights (es : List ((Nat × Nat) × Nat)) (t : Nat) : layerOf (castWeights (F := F) es) layer t =
    castWeights (es.filter fun e => decide (layer[e.1.1]? = some t)) :=
  filter_castWeights es fun e => decide (layer[e.1]? = some t)

theorem zip_repeated : (repeated G ks).edges.zip (List.replicate (repeated G ks).edges.length (1 : F)) =
    unitCopies (G.edges.zip ks) := by
  have hz : ∀ l : List (Nat × Nat), l.zip (List.replicate l.length (1 : F)) = l.map fun e => (e, (1 : F)) := by
    intro l
    induction l with
    | nil => rfl
    | cons a l ih => rw [List.length_cons, List.replicate_succ, List.zip_cons_cons, ih]; rfl
  rw [hz]
  unfold unitCopies repeated
  simp only
  rw [List.map_flatMap]
  refine List.flatMap_congr fun e _ => ?_
  rw [List.map_replicate]

/-- **C93 (single-layer block-model estimates).** Whole-number weights give the same block-model parameters, or the same
exception, as repeated edges with weight 1. -/
theorem c93_single_layer (hG : G.WF) (hk : ks.length = G.edges.length) (hc : c.length = G.vcount) :
    estimateSinglelayerSBM (withOnes (repeated G ks)) c none = estimateSinglelayerSBM (wholeWeights G ks) c none := by
  have hw2 : (withOnes (repeated G ks)).WF := ⟨(repeated_wf hG).1, fun ws h => by cases h; simp [withOnes]⟩
  rw [estimateSinglelayerSBM_eq hw2 hc rfl, estimateSinglelayerSBM_eq (wholeWeights_wf hG hk) hc rfl]
  have e1 : (withOnes (repeated G ks)).edges.zip (List.replicate (repeated G ks).edges.length (1 : F)) =
      unitCopies (G.edges.zip ks) := zip_repeated
  have e2 : (wholeWeights G ks).edges.zip (ks.map fun (k : Nat) => (k : F)) = castWeights (G.edges.zip ks) := zip_cast _ _
  have e3 : (List.replicate (repeated G ks).edges.length (1 : F)).sum = (ks.map fun (k : Nat) => (k : F)).sum := by
    have h1 : wTotal ((repeated G ks).edges.zip (List.replicate (repeated G ks).edges.length (1 : F))) =
        (List.replicate (repeated G ks).edges.length (1 : F)).sum := by
      unfold wTotal
      congr 1
      rw [List.map_snd_zip (by simp)]
    have h2 : wTotal ((wholeWeights G ks).edges.zip (ks.map fun (k : Nat) => (k : F))) = (ks.map fun (k : Nat) => (k : F)).sum := by
      unfold wTotal
      congr 1
      rw [List.map_snd_zip (by rw [List.length_map, hk]; exact le_refl _)]
    rw [← h1, ← h2, zip_repeated, e2, wTotal_unitCopies]
  rw [e1, e2, e3, strengthSq_unitCopies, wInside_unitCopies]

/-- **C93 (multilayer block-model estimates).** The same for multilayer estimates and the weights of the intralayer graph. -/
theorem c93_multilayer (fsolve : (F → F) → F → F) {Gx : Graph F} (hG : G.WF) (hk : ks.length = G.edges.length)
    (hl : layer.length = G.vcount) (hc : c.length = G.vcount) (model : String) :
    estimateMultilayerSBM fsolve (withOnes (repeated G ks)) Gx layer c model none none none none =
      estimateMultilayerSBM fsolve (wholeWeights G ks) Gx layer c model none none none none := by
  have hw2 : (withOnes (repeated G ks)).WF := ⟨(repeated_wf hG).1, fun ws h => by cases h; simp [withOnes]⟩
  cases hM : layer.max? with
  | none => unfold estimateMultilayerSBM orCompute countLayers; rw [hM]; rfl
  | some M =>
    have hT : LayersBelow layer (M + 1) := fun l hl => by
      have := (List.max?_eq_some_iff.mp hM).2 l hl
      omega
    rw [estimateMultilayerSBM_T _ _ _ _ _ _ hM, estimateMultilayerSBM_T _ _ _ _ _ _ hM,
      estimateMultilayerSBM_eq fsolve (wholeWeights_wf hG hk) hl hc rfl model hT (by omega),
      estimateMultilayerSBM_eq fsolve hw2 hl hc rfl model hT (by omega)]
    have e1 : (withOnes (repeated G ks)).edges.zip (List.replicate (repeated G ks).edges.length (1 : F)) =
        unitCopies (G.edges.zip ks) := zip_repeated
    have e2 : (wholeWeights G ks).edges.zip (ks.map fun (k : Nat) => (k : F)) = castWeights (G.edges.zip ks) := zip_cast _ _
    have hMt : layerM (F := F) (unitCopies (G.edges.zip ks)) layer = layerM (castWeights (G.edges.zip ks)) layer := by
      funext t
      unfold layerM
      rw [layerOf_unitCopies, layerOf_castWeights, wTotal_unitCopies]
    have hIt : layerMIn (F := F) (unitCopies (G.edges.zip ks)) layer c = layerMIn (castWeights (G.edges.zip ks)) layer c := by
      funext t
      unfold layerMIn
      rw [filter_unitCopies _ (fun e => decide (layer[e.1]? = layer[e.2]?)),
        filter_castWeights _ (fun e => decide (layer[e.1]? = layer[e.2]?)), layerOf_unitCopies, layerOf_castWeights,
        wInside_unitCopies]
    have hSt : layerSq (F := F) (unitCopies (G.edges.zip ks)) layer c = layerSq (castWeights (G.edges.zip ks)) layer c := by
      funext t
      unfold layerSq
      rw [layerOf_unitCopies, layerOf_castWeights, strengthSq_unitCopies]
    rw [e1, e2, hMt, hIt, hSt]
    rfl

end

section
variable {G Gx : Graph ℝ} {ks layer c : List Nat} {test : Graph ℝ → Bool}

theorem vcount_pos_or_edgeless (hG : G.WF) : 0 < G.vcount ∨ G.edges = [] := by
  rcases Nat.eq_zero_or_pos G.vcount with h | h
  · right
    cases he : G.edges with
    | nil => rfl
    | cons e es => have := (hG.1 e (by simp [he])).1; omega
  · exact Or.inl h

/-- **C93 (gamma estimate).** `gamma_estimate` of the graph with whole-number weights is that of the graph without weights in
which the edges are repeated. -/
theorem c93_gamma_estimate (hG : G.WF) (hk : ks.length = G.edges.length) (ht : test (wholeWeights G ks) = true)
    (ht' : CountsAsUnweighted test (repeated G ks)) (c : List Nat) :
    (gammaEstimate test (repeated G ks) c).map Prod.fst = (gammaEstimate test (wholeWeights G ks) c).map Prod.fst := by
  unfold gammaEstimate
  have h1 : ensureWeight test (wholeWeights G ks).vcount (wholeWeights G ks) = .ok (wholeWeights G ks) := by
    unfold ensureWeight; rw [if_pos ht]
  rw [ensure_unweighted ht' (vcount_pos_or_edgeless (repeated_wf hG)), h1, Py.ok_bind, Py.ok_bind]
  unfold leidenPartWithMembership
  have hv : (withOnes (repeated G ks)).vcount = G.vcount := rfl
  have hv' : (wholeWeights G ks).vcount = G.vcount := rfl
  rw [hv, hv']
  split
  · rename_i hc
    rw [Py.ok_bind, Py.ok_bind, c93_single_layer hG hk hc]
    cases estimateSinglelayerSBM (wholeWeights G ks) c none <;> rfl
  · rfl

/-- **C93 (gamma and omega estimates).** The same for `gamma_omega_estimate` and the weights of the intralayer graph. -/
theorem c93_gamma_omega_estimate (fsolve : (ℝ → ℝ) → ℝ → ℝ) (hG : G.WF) (hk : ks.length = G.edges.length)
    (hl : layer.length = G.vcount) (ht : test (wholeWeights G ks) = true) (ht' : CountsAsUnweighted test (repeated G ks))
    (c : List Nat) (ωmax : ℝ) (model : String) :
    (gammaOmegaEstimate test fsolve (repeated G ks) Gx layer c ωmax model).map Prod.fst =
      (gammaOmegaEstimate test fsolve (wholeWeights G ks) Gx layer c ωmax model).map Prod.fst := by
  rw [gammaOmegaEstimate_def, gammaOmegaEstimate_def]
  cases hT : countLayers layer with
  | error e => rfl
  | ok T =>
    rw [Py.ok_bind, Py.ok_bind]
    unfold leidenPartWithMembership
    have hv : (repeated G ks).vcount = G.vcount := rfl
    have hv' : (wholeWeights G ks).vcount = G.vcount := rfl
    rw [hv, hv']
    split
    · rename_i hc
      have h1 : ensureWeight test (wholeWeights G ks).ecount (wholeWeights G ks) = .ok (wholeWeights G ks) := by
        unfold ensureWeight; rw [if_pos ht]
      have h2 : ensureWeight test (repeated G ks).ecount (repeated G ks) = .ok (withOnes (repeated G ks)) :=
        ensure_unweighted ht' (by
          unfold Graph.ecount
          cases (repeated G ks).edges with
          | nil => exact Or.inr rfl
          | cons e es => exact Or.inl (by simp))
      rw [Py.ok_bind, Py.ok_bind, h1, h2, Py.ok_bind, Py.ok_bind,
        estimateMultilayerSBM_countLayers _ _ _ _ _ _ hT, estimateMultilayerSBM_countLayers _ _ _ _ _ _ hT,
        c93_multilayer fsolve hG hk hl hc model]
      cases estimateMultilayerSBM fsolve (wholeWeights G ks) Gx layer c model none none none none with
      | error e => rfl
      | ok r =>
        obtain ⟨a, b, p, K⟩ := r
        rw [Py.ok_bind, Py.ok_bind]
        cases omegaFunctionFromModel model ωmax T with
        | error e => rfl
        | ok f =>
          show (do
            let omega ← f a b p K
            pure ((gammaFromParameters a b, omega), withOnes (repeated G ks)) : Py _).map Prod.fst = (do
            let omega ← f a b p K
            pure ((gammaFromParameters a b, omega), wholeWeights G ks) : Py _).map Prod.fst
          cases f a b p K <;> rfl
    · rfl

/-! ### The unit of the weights -/

theorem weightAlong_rescale (k : ℝ) (i j : Nat) : weightAlong (rescale k G) i j = k * weightAlong G i j := by
  unfold weightAlong rescale
  cases G.weight with
  | none => simp
  | some ws =>
    simp only [Option.map_some, Option.getD_some]
    rw [zip_scale, List.map_map, ← List.sum_map_mul_left]
    congr 1
    refine List.map_congr_left fun e _ => ?_
    simp only [Function.comp]
    split <;> simp

/-- **C93 (unit).** Multiplying all weights by `k ≠ 0` multiplies the weighted modularity of every partition by `k`: with
`k > 0` nothing changes in how partitions compare. -/
theorem c93_unit {α : Type} [DecidableEq α] {k : ℝ} (hk : k ≠ 0) (G : Graph ℝ) (γ : ℝ) (c : List α) :
    weightedModularity (rescale k G) γ c = k * weightedModularity G γ c := by
  have hA : ∀ i j, weightedAdj (rescale k G) i j = k * weightedAdj G i j := by
    intro i j
    unfold weightedAdj
    have hd : (rescale k G).directed = G.directed := rfl
    rw [hd, weightAlong_rescale, weightAlong_rescale]
    split <;> ring
  unfold weightedModularity
  have hv : (rescale k G).vcount = G.vcount := rfl
  rw [hv, Finset.mul_sum]
  refine Finset.sum_congr rfl fun i _ => ?_
  rw [Finset.mul_sum]
  refine Finset.sum_congr rfl fun j _ => ?_
  simp only [hA, ← Finset.mul_sum]
  split
  · generalize ∑ v ∈ range G.vcount, weightedAdj G v i = a
    generalize ∑ v ∈ range G.vcount, weightedAdj G j v = b
    generalize ∑ u ∈ range G.vcount, ∑ v ∈ range G.vcount, weightedAdj G u v = m
    rw [show k * a * (k * b) / (k * m) = k * (a * b / m) from by
      rw [show k * a * (k * b) = k * (k * (a * b)) from by ring, mul_div_mul_left _ _ hk, mul_div_assoc]]
    ring
  · simp

end

/-! ### Pruning weighted networks -/

section
variable {G G' : Graph ℝ} {α : Type} [LinearOrder α] {env : PruneEnv} {parts : List (List α)} {γ₀ γf : ℝ}
  {restrict : Option Nat} {st : Bool} {out : List (List Nat)} {ws : List ℝ} {ks : List Nat} {k : ℝ}

theorem rescale_whole (hw : G.weight = some ws) (hks : ws.map (k * ·) = ks.map fun (n : Nat) => (n : ℝ)) :
    rescale k G = wholeWeights G ks := by
  unfold rescale wholeWeights
  rw [hw, Option.map_some, hks]

theorem estimate_repeated (hG : G.WF) (hk : 0 < k) (hw : G.weight = some ws)
    (hks : ws.map (k * ·) = ks.map fun (n : Nat) => (n : ℝ)) (ht : env.test G = true) (ht' : env.test (rescale k G) = true)
    (hu : CountsAsUnweighted env.test (repeated G ks)) (c : List Nat) :
    (gammaEstimate env.test (repeated G ks) c).map Prod.fst = (gammaEstimate env.test G c).map Prod.fst := by
  have hlen : ks.length = G.edges.length := by
    rw [← hG.2 ws hw]
    simpa using (congrArg List.length hks).symm
  rw [c93_gamma_estimate hG hlen (rescale_whole hw hks ▸ ht') hu, ← rescale_whole hw hks,
    c73_gamma_estimate env.test hk.ne' hG (ht'.trans ht.symm)]

theorem map_fst_ok {β γ : Type} {x : Py (β × γ)} {b : β} (h : x.map Prod.fst = .ok b) : ∃ c, x = .ok (b, c) := by
  cases x with
  | error e => cases h
  | ok r => exact ⟨r.2, congrArg Except.ok (Prod.ext (Except.ok.inj h) rfl)⟩

theorem weighted_le (hk : 0 < k) (hw : G.weight = some ws) (hks : ws.map (k * ·) = ks.map fun (n : Nat) => (n : ℝ))
    {β δ : Type} [DecidableEq β] [DecidableEq δ] (γ : ℝ) (p : List β) (q : List δ) :
    modularity (repeated G ks) γ q ≤ modularity (repeated G ks) γ p ↔ weightedModularity G γ q ≤ weightedModularity G γ p := by
  rw [c93_modularity, c93_modularity, ← rescale_whole hw hks, c93_unit hk.ne', c93_unit hk.ne']
  exact mul_le_mul_iff_right₀ hk

/-- **C93 (pruning weighted networks).** For a weighted graph whose weights are whole multiples of a common unit,
`prune_to_stable_partitions` applied to the graph with repeated edges returns only partitions that are candidates and have
the largest *weighted* modularity of all candidates at their own *weighted* gamma estimate, which lies in the window. -/
theorem c93_prune_sound (he : SoundPruneEnv env) (hG : G.WF) (hk : 0 < k) (hw : G.weight = some ws)
    (hks : ws.map (k * ·) = ks.map fun (n : Nat) => (n : ℝ)) (ht : env.test G = true) (ht' : env.test (rescale k G) = true)
    (hu : CountsAsUnweighted env.test (repeated G ks)) (hp : ∀ p ∈ parts, p.length = G.vcount)
    (h : pruneToStable env (repeated G ks) (.memberships parts) γ₀ γf restrict st = (some (.ok (out, G')) : Option _)) :
    ∀ c ∈ out, (∃ p, Candidate parts restrict p ∧ sortedTuple p = .ok c) ∧
      ∃ γ H, gammaEstimate env.test G c = .ok (some (.fin γ), H) ∧ γ₀ ≤ γ ∧ γ ≤ γf ∧
        ∀ q, Candidate parts restrict q → weightedModularity G γ q ≤ weightedModularity G γ c := by
  intro c hc
  obtain ⟨h1, γ, h2, h3, h4, h5⟩ := c38_sound he (repeated_wf hG) hp h c hc
  have hest := estimate_repeated hG hk hw hks ht ht' hu c
  rw [h2] at hest
  obtain ⟨H, hH⟩ := map_fst_ok hest.symm
  exact ⟨h1, γ, H, hH, h3, h4, fun q hq => (weighted_le hk hw hks γ c q).mp (h5 q hq)⟩

/-- **C93 (pruning weighted networks, exact).** If moreover candidates that describe different partitions differ in weighted
modularity at some resolution, the returned partitions are exactly the candidates that strictly beat all others in weighted
modularity somewhere inside the window and are not beaten at their own weighted estimate, which lies in the window. -/
theorem c93_prune_exact (he : SoundPruneEnv env) (hG : G.WF) (hk : 0 < k) (hw : G.weight = some ws)
    (hks : ws.map (k * ·) = ks.map fun (n : Nat) => (n : ℝ)) (ht : env.test G = true) (ht' : env.test (rescale k G) = true)
    (hu : CountsAsUnweighted env.test (repeated G ks)) (hp : ∀ p ∈ parts, p.length = G.vcount)
    (hdist : ∀ p q, Candidate parts restrict p → Candidate parts restrict q →
      (∀ γ, weightedModularity G γ p = weightedModularity G γ q) → SamePartition p q)
    (h : pruneToStable env (repeated G ks) (.memberships parts) γ₀ γf restrict st = (some (.ok (out, G')) : Option _))
    (c : List Nat) :
    c ∈ out ↔ ∃ p, Candidate parts restrict p ∧ sortedTuple p = .ok c ∧
      (∃ g, γ₀ < g ∧ g < γf ∧ ∀ q, Candidate parts restrict q → ¬ SamePartition q p →
        weightedModularity G g q < weightedModularity G g p) ∧
      ∃ γ H, gammaEstimate env.test G c = .ok (some (.fin γ), H) ∧ γ₀ ≤ γ ∧ γ ≤ γf ∧
        ∀ q, Candidate parts restrict q → weightedModularity G γ q ≤ weightedModularity G γ p := by
  have hle := fun (γ : ℝ) (p q : List α) => weighted_le hk hw hks γ p q
  have hsame : ∀ p q : List α, SameModularity (repeated G ks) p q ↔
      ∀ γ, weightedModularity G γ p = weightedModularity G γ q := by
    intro p q
    refine forall_congr' fun γ => ?_
    rw [le_antisymm_iff, le_antisymm_iff, hle, hle]
  have hiff : ∀ p q, Candidate parts restrict p → Candidate parts restrict q →
      (SameModularity (repeated G ks) q p ↔ SamePartition q p) := by
    intro p q hpc hqc
    constructor
    · intro hs; exact hdist q p hqc hpc ((hsame q p).mp hs)
    · intro hs γ; exact modularity_same (G := repeated G ks) hs (hp q hqc.1) γ
  rw [c39_characterisation he (repeated_wf hG) hp (fun p q hpc hqc hs => (hiff q p hqc hpc).mp hs) h c]
  refine exists_congr fun p => and_congr_right fun hpc => and_congr_right fun hpr => ?_
  constructor
  · rintro ⟨⟨g, g1, g2, g3⟩, γ, ⟨c', H, hc', hest⟩, w1, w2, hbest⟩
    obtain rfl : c' = c := Except.ok.inj (hc'.symm.trans hpr)
    refine ⟨⟨g, g1, g2, fun q hq hne => ?_⟩, ?_⟩
    · have := g3 q hq fun hs => hne ((hiff p q hpc hq).mp hs)
      rw [← not_le] at this ⊢
      rwa [← hle]
    · have h1 := estimate_repeated hG hk hw hks ht ht' hu c'
      rw [hest] at h1
      obtain ⟨H', hH'⟩ := map_fst_ok h1.symm
      exact ⟨γ, H', hH', w1, w2, fun q hq => (hle γ p q).mp (hbest q hq)⟩
  · rintro ⟨⟨g, g1, g2, g3⟩, γ, H, hest, w1, w2, hbest⟩
    refine ⟨⟨g, g1, g2, fun q hq hne => ?_⟩, γ, ?_, w1, w2, fun q hq => (hle γ p q).mpr (hbest q hq)⟩
    · have := g3 q hq fun hs => hne ((hiff p q hpc hq).mpr hs)
      rw [← not_le] at this ⊢
      rwa [hle]
    · have h1 := estimate_repeated hG hk hw hks ht ht' hu c
      rw [hest] at h1
      obtain ⟨H', hH'⟩ := map_fst_ok h1
      exact ⟨c, H', hpr, hH'⟩

/-- **C93 (multilayer pruning with weights).** Whole-number intralayer weights: `prune_to_multilayer_stable_partitions`
applied to the graph with repeated edges returns only candidates that have the largest *weighted* multilayer modularity of all
candidates at their own *weighted* estimates (omega cut off below `omega_end`), or whose weighted gamma estimate is NaN. -/
theorem c93_prune_multilayer_sound (he : SoundPruneEnv env) {Gx : Graph ℝ} {layer : List Nat}
    (hM : Multilayer G Gx layer) (hlen : ks.length = G.edges.length)
    (ht : env.test (wholeWeights G ks) = true) (hu : CountsAsUnweighted env.test (repeated G ks))
    (hp : ∀ p ∈ parts, p.length = G.vcount) {W : Window} {model : String}
    (h : pruneToMultilayerStable env (repeated G ks) Gx layer model (.memberships parts) W.γ₀ W.γf W.ω₀ W.ωf restrict st =
      (some (.ok (out, G')) : Option _)) :
    ∀ c ∈ out, (∃ p, Candidate parts restrict p ∧ sortedTuple p = .ok c) ∧
      ∃ g ω H, gammaOmegaEstimate env.test env.fsolve (wholeWeights G ks) Gx layer c defaultOmegaMax model =
          .ok ((some g, ω), H) ∧
        (g = .nan ∨ ∃ γ, g = .fin γ ∧ (W.γ₀ < γ ∧ γ < W.γf) ∧ W.ω₀ < min ω (W.ωf - 1 / 1000) ∧
          ∀ q, Candidate parts restrict q →
            weightedMultilayerModularity (wholeWeights G ks) Gx layer γ (min ω (W.ωf - 1 / 1000)) q ≤
              weightedMultilayerModularity (wholeWeights G ks) Gx layer γ (min ω (W.ωf - 1 / 1000)) c) := by
  have hMr : Multilayer (repeated G ks) Gx layer := by
    refine ⟨repeated_wf hM.intra, hM.inter, hM.vcount, hM.layers, ?_⟩
    rcases hM.noCross with h | h
    · exact Or.inl h
    · refine Or.inr fun e he => ?_
      obtain ⟨a, ha, he⟩ := List.mem_flatMap.mp he
      rw [(List.mem_replicate.mp he).2]
      exact h _ (List.of_mem_zip ha).1
  intro c hc
  obtain ⟨h1, g, ω, h2, h3⟩ := c43_sound he hMr hp h c hc
  have hest := c93_gamma_omega_estimate (Gx := Gx) env.fsolve hM.intra hlen hM.layers ht hu c defaultOmegaMax model
  rw [h2] at hest
  obtain ⟨H, hH⟩ := map_fst_ok hest.symm
  refine ⟨h1, g, ω, H, hH, ?_⟩
  rcases h3 with h3 | ⟨γ, hg, hb, hopt⟩
  · exact Or.inl h3
  · refine Or.inr ⟨γ, hg, hb.1.1, hb.1.2.1, fun q hq => ?_⟩
    rw [← c93_multilayer_modularity G Gx ks hM.layers, ← c93_multilayer_modularity G Gx ks hM.layers]
    exact hopt q hq

end

/-! ### The hypotheses are met -/

/-- Weights 1/2, 1, 3/2 on a path: in units of 1/2 they are 1, 2, 3. -/
example : let G : Graph ℝ := ⟨4, false, [(0, 1), (1, 2), (2, 3)], some [1 / 2, 1, 3 / 2]⟩
    G.WF ∧ G.weight = some [1 / 2, 1, 3 / 2] ∧ [1 / 2, 1, 3 / 2].map ((2 : ℝ) * ·) = [1, 2, 3].map (fun (n : Nat) => (n : ℝ)) ∧
      (repeated G [1, 2, 3]).edges = [(0, 1), (1, 2), (1, 2), (2, 3), (2, 3), (2, 3)] ∧
      (fun H : Graph ℝ => H.weight.isSome) G = true ∧ (fun H : Graph ℝ => H.weight.isSome) (rescale 2 G) = true ∧
      CountsAsUnweighted (fun H : Graph ℝ => H.weight.isSome) (repeated G [1, 2, 3]) := by
  refine ⟨⟨?_, ?_⟩, rfl, ?_, rfl, rfl, rfl, ?_⟩
  · simp
  · rintro ws h; cases h; rfl
  · norm_num
  · intro h; cases h

end Verif.Props
