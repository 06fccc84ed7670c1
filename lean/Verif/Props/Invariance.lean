import Verif.Props.Estimation
import Verif.Proofs.Prune
import Verif.Props.Champ3D
import Verif.Spec.Partition

/-!
# Properties C72, C73: the estimates depend only on the partition, and not on the unit of the weights
-/

namespace Verif.Props
open Verif Verif.Spec Finset

set_option linter.unusedSectionVars false

section Field
variable {F : Type} [Field F] [LinearOrder F] [IsStrictOrderedRing F]

/-! ## Relabelling -/

theorem same_iff {c d : List Nat} (h : SamePartition c d) {i j : Nat} (hi : i < c.length) (hj : j < c.length) :
    c[i]? = c[j]? ↔ d[i]? = d[j]? := h.2 i j hi hj

/-- a label of `c` translated to `d` -/
def translate (c d : List Nat) (r : Nat) : Nat := (d[c.idxOf r]?).getD 0

theorem translate_getElem {c d : List Nat} (h : SamePartition c d) {i r : Nat} (hi : c[i]? = some r) :
    d[i]? = some (translate c d r) := by
  have hr : r ∈ c := List.mem_of_getElem? hi
  have hlt : c.idxOf r < c.length := List.idxOf_lt_length_of_mem hr
  have hil : i < c.length := (List.getElem?_eq_some_iff.mp hi).1
  have h1 : c[c.idxOf r]? = some r := by rw [List.getElem?_eq_getElem hlt]; simp
  have h2 := (same_iff h hil hlt).mp (hi.trans h1.symm)
  rw [h2]
  have : c.idxOf r < d.length := h.1 ▸ hlt
  unfold translate
  rw [List.getElem?_eq_getElem this]; rfl

theorem translate_iff {c d : List Nat} (h : SamePartition c d) {i r : Nat} (hi : i < c.length) (hr : r ∈ c) :
    c[i]? = some r ↔ d[i]? = some (translate c d r) := by
  refine ⟨translate_getElem h, fun h' => ?_⟩
  have hlt : c.idxOf r < c.length := List.idxOf_lt_length_of_mem hr
  have h1 : c[c.idxOf r]? = some r := by rw [List.getElem?_eq_getElem hlt]; simp
  rw [← h1, same_iff h hi hlt, h', translate_getElem h h1]

theorem SamePartition.symm {c d : List Nat} (h : SamePartition c d) : SamePartition d c :=
  ⟨h.1.symm, fun i j hi hj => (h.2 i j (h.1 ▸ hi) (h.1 ▸ hj)).symm⟩

theorem translate_translate {c d : List Nat} (h : SamePartition c d) {r : Nat} (hr : r ∈ c) :
    translate d c (translate c d r) = r := by
  have hlt : c.idxOf r < c.length := List.idxOf_lt_length_of_mem hr
  have h1 : c[c.idxOf r]? = some r := by rw [List.getElem?_eq_getElem hlt]; simp
  have h2 := translate_getElem (SamePartition.symm h) (translate_getElem h h1)
  rw [h1] at h2
  exact (Option.some.inj h2).symm

theorem wInside_relabel {es : List ((Nat × Nat) × F)} {c d : List Nat} (he : EndsIn es c.length)
    (h : SamePartition c d) : wInside es c = wInside es d := by
  unfold wInside
  congr 1
  apply List.map_congr_left
  intro e hmem
  simp only [same_iff h (he e hmem).1 (he e hmem).2]

theorem wStrength_relabel {es : List ((Nat × Nat) × F)} {c d : List Nat} (he : EndsIn es c.length)
    (h : SamePartition c d) {r : Nat} (hr : r ∈ c) : wStrength es c r = wStrength es d (translate c d r) := by
  unfold wStrength
  congr 1
  apply List.map_congr_left
  intro e hmem
  simp only [translate_iff h (he e hmem).1 hr, translate_iff h (he e hmem).2 hr]

theorem strengthSq_relabel {es : List ((Nat × Nat) × F)} {c d : List Nat} (he : EndsIn es c.length)
    (h : SamePartition c d) {K : Nat} (hc : Contiguous c K) (hd : Contiguous d K) :
    strengthSq es c = strengthSq es d := by
  unfold strengthSq
  rw [partLen_contiguous hc, partLen_contiguous hd]
  have hmem : ∀ {c d : List Nat}, SamePartition c d → ∀ r ∈ c, translate c d r ∈ d := by
    intro c d h r hr
    have hlt : c.idxOf r < c.length := List.idxOf_lt_length_of_mem hr
    exact List.mem_of_getElem? (translate_getElem h (by rw [List.getElem?_eq_getElem hlt]; simp) :
      d[c.idxOf r]? = some (translate c d r))
  refine sum_nbij' (translate c d) (translate d c) ?_ ?_ ?_ ?_ ?_
  · intro r hr
    exact mem_range.mpr ((hd _).mp (hmem h r ((hc r).mpr (mem_range.mp hr))))
  · intro r hr
    exact mem_range.mpr ((hc _).mp (hmem (SamePartition.symm h) r ((hd r).mpr (mem_range.mp hr))))
  · intro r hr
    exact translate_translate h ((hc r).mpr (mem_range.mp hr))
  · intro r hr
    exact translate_translate (SamePartition.symm h) ((hd r).mpr (mem_range.mp hr))
  · intro r hr
    rw [wStrength_relabel he h ((hc r).mpr (mem_range.mp hr))]

theorem zip_endsIn {G : Graph F} (hG : G.WF) {c : List Nat} (hc : c.length = G.vcount) (ws : List F) :
    EndsIn (G.edges.zip ws) c.length := by
  intro e he
  rw [hc]
  exact hG.1 e.1 (List.of_mem_zip he).1

/-- without the weight attribute the estimation fails before it looks at the partition -/
theorem estimateSinglelayerSBM_none {G : Graph F} (h : G.weight = none) (c : List Nat) :
    estimateSinglelayerSBM G c none = .error .keyError := by
  unfold estimateSinglelayerSBM Graph.esWeight orCompute
  rw [h]; rfl

/-- **C72.** `estimate_singlelayer_SBM_parameters` depends only on the partition: two memberships with labels `0..K-1` that
describe the same partition of the vertices give the same outcome (values or exception). -/
theorem c72_single_layer {G : Graph F} (hG : G.WF) {c d : List Nat} (hc : c.length = G.vcount)
    (h : SamePartition c d) {K : Nat} (hcK : Contiguous c K) (hdK : Contiguous d K) :
    estimateSinglelayerSBM G c none = estimateSinglelayerSBM G d none := by
  cases hw : G.weight with
  | none => rw [estimateSinglelayerSBM_none hw, estimateSinglelayerSBM_none hw]
  | some ws =>
    have he := zip_endsIn hG hc ws
    rw [estimateSinglelayerSBM_eq hG hc hw, estimateSinglelayerSBM_eq hG (h.1 ▸ hc) hw,
      strengthSq_relabel he h hcK hdK, wInside_relabel he h, partLen_contiguous hcK, partLen_contiguous hdK]

theorem insideEdges_relabel {Gx : Graph F} {c d : List Nat} (hx : ∀ e ∈ Gx.edges, e.1 < c.length ∧ e.2 < c.length)
    (h : SamePartition c d) : insideEdges Gx c = insideEdges Gx d := by
  unfold insideEdges
  rw [internalEdgeCount_ok hx, internalEdgeCount_ok (h.1 ▸ hx)]
  congr 1
  unfold insideCount
  apply List.countP_congr
  intro e he
  simp only [decide_eq_true_eq]
  exact same_iff h (hx e he).1 (hx e he).2

theorem foldlM_congr_mem {α β : Type} {f g : β → α → Py β} {l : List α} (h : ∀ a ∈ l, ∀ b, f b a = g b a) (b : β) :
    l.foldlM f b = l.foldlM g b := by
  induction l generalizing b with
  | nil => rfl
  | cons a l ih =>
    rw [List.foldlM_cons, List.foldlM_cons, h a (by simp)]
    congr 1
    funext b'
    exact ih (fun a' ha' => h a' (List.mem_cons_of_mem _ ha')) b'

theorem getElem_relabel {c d : List Nat} (h : SamePartition c d) {i j : Nat} (hi : i < c.length) (hj : j < c.length) :
    c[i] = c[j] ↔ d[i]'(h.1 ▸ hi) = d[j]'(h.1 ▸ hj) := by
  have := same_iff h hi hj
  have hi' : i < d.length := h.1 ▸ hi
  have hj' : j < d.length := h.1 ▸ hj
  rwa [List.getElem?_eq_getElem hi, List.getElem?_eq_getElem hj, List.getElem?_eq_getElem hi',
    List.getElem?_eq_getElem hj', Option.some.injEq, Option.some.injEq] at this

theorem multilevelPersistence_relabel {Gx : Graph F} {c d : List Nat}
    (hx : ∀ e ∈ Gx.edges, e.1 < c.length ∧ e.2 < c.length) (h : SamePartition c d) (layer Nt : List Nat) (T : Nat) :
    multilevelPersistence Gx c layer Nt T = multilevelPersistence Gx d layer Nt T := by
  unfold multilevelPersistence
  congr 1
  apply foldlM_congr_mem
  intro e he acc
  obtain ⟨h1, h2⟩ := hx e he
  congr 1
  funext l
  rw [pyGet_lt h1, pyGet_lt h2, pyGet_lt (h.1 ▸ h1 : e.1 < d.length), pyGet_lt (h.1 ▸ h2 : e.2 < d.length)]
  simp only [Py.ok_bind]
  simp only [getElem_relabel h h1 h2]

theorem layerMIn_relabel {es : List ((Nat × Nat) × F)} {c d : List Nat} (he : EndsIn es c.length)
    (h : SamePartition c d) (layer : List Nat) (t : Nat) : layerMIn es layer c t = layerMIn es layer d t :=
  wInside_relabel (EndsIn.filter (EndsIn.filter he _) _) h

theorem multilayer_relabel_weighted (fsolve : (F → F) → F → F) {Gi Gx : Graph F} {layer : List Nat} (hG : Gi.WF)
    (hX : Gx.WF) (hv : Gx.vcount = Gi.vcount) (hl : layer.length = Gi.vcount) {c d : List Nat} (hc : c.length = Gi.vcount)
    (h : SamePartition c d) {K : Nat} (hcK : Contiguous c K) (hdK : Contiguous d K) (model : String) {M : Nat}
    (hM : layer.max? = some M) {ws : List F} (hw : Gi.weight = some ws) :
    estimateMultilayerSBM fsolve Gi Gx layer c model none (some (M + 1)) none none =
      estimateMultilayerSBM fsolve Gi Gx layer d model none (some (M + 1)) none none := by
  have he := zip_endsIn hG hc ws
  have hT : LayersBelow layer (M + 1) := fun l hl => by
    have := (List.max?_eq_some_iff.mp hM).2 l hl
    omega
  have hx : ∀ e ∈ Gx.edges, e.1 < c.length ∧ e.2 < c.length := by rw [hc, ← hv]; exact hX.1
  rw [estimateMultilayerSBM_eq fsolve hG hl hc hw model hT (by omega),
    estimateMultilayerSBM_eq fsolve hG hl (h.1 ▸ hc) hw model hT (by omega)]
  have h1 : layerMIn (Gi.edges.zip ws) layer c = layerMIn (Gi.edges.zip ws) layer d :=
    funext fun t => layerMIn_relabel he h layer t
  have h2 : layerSq (Gi.edges.zip ws) layer c = layerSq (Gi.edges.zip ws) layer d :=
    funext fun t => strengthSq_relabel (EndsIn.filter he _) h hcK hdK
  have h3 : ∀ f : Py (List Nat → Py F),
      f = persistenceFunctionFromModel model Gx (some layer) (some (Gi.vcount / (M + 1))) (some (M + 1))
        (some ((List.range (M + 1)).map fun t => layer.count t)) →
      (f >>= fun g => g c) = (f >>= fun g => g d) := by
    intro f hf
    subst hf
    unfold persistenceFunctionFromModel
    by_cases m1 : model = "temporal"
    · simp only [m1, if_true, Py.ok_bind]
      unfold ordinalPersistence
      rw [insideEdges_relabel hx h]
    · by_cases m2 : model = "multilevel"
      · rw [if_neg m1, if_pos m2, Py.ok_bind, Py.ok_bind]
        exact multilevelPersistence_relabel hx h _ _ _
      · by_cases m3 : model = "multiplex"
        · rw [if_neg m1, if_neg m2, if_pos m3, Py.ok_bind, Py.ok_bind]
          unfold categoricalPersistence
          beta_reduce
          rw [insideEdges_relabel hx h]
        · simp only [m1, m2, m3, if_false]
          rfl
  have h4 := h3 _ rfl
  rw [h1, h2, partLen_contiguous hcK, partLen_contiguous hdK]
  congr 1
  funext r
  have key : ∀ (f : Py (List Nat → Py F)) (g : F → Py (F × F × F × Nat)), (f >>= fun p => p c) = (f >>= fun p => p d) →
      (f >>= fun p => p c >>= g) = (f >>= fun p => p d >>= g) := by
    intro f g hfg
    cases f with
    | error e => rfl
    | ok p => exact congrArg (· >>= g) hfg
  exact key _ _ h4

/-- **C72.** `estimate_multilayer_SBM_parameters` depends only on the partition, for each of the three models. -/
theorem c72_multilayer (fsolve : (F → F) → F → F) {Gi Gx : Graph F} {layer : List Nat} (hG : Gi.WF) (hX : Gx.WF)
    (hv : Gx.vcount = Gi.vcount) (hl : layer.length = Gi.vcount) {c d : List Nat} (hc : c.length = Gi.vcount)
    (h : SamePartition c d) {K : Nat} (hcK : Contiguous c K) (hdK : Contiguous d K) (model : String) :
    estimateMultilayerSBM fsolve Gi Gx layer c model none none none none =
      estimateMultilayerSBM fsolve Gi Gx layer d model none none none none := by
  cases hM : layer.max? with
  | none =>
    have hT : countLayers layer = .error (.valueError "max() arg is an empty sequence") := by unfold countLayers; rw [hM]
    unfold estimateMultilayerSBM
    simp only [orCompute, hT, Py.error_bind]
  | some M =>
    rw [estimateMultilayerSBM_T _ _ _ _ _ _ hM, estimateMultilayerSBM_T _ _ _ _ _ _ hM]
    cases hw : Gi.weight with
    | none =>
      by_cases he : Gi.edges = []
      · have key : ∀ c, estimateMultilayerSBM fsolve Gi Gx layer c model none (some (M + 1)) none none =
            estimateMultilayerSBM fsolve { Gi with weight := some [] } Gx layer c model none (some (M + 1)) none none := by
          intro c
          unfold estimateMultilayerSBM Graph.weightedEdges
          simp only [hw, he, if_true, List.zip_nil_left]
        rw [key, key]
        exact multilayer_relabel_weighted fsolve (Gi := { Gi with weight := some [] })
          ⟨hG.1, fun ws h => by cases h; simp [he]⟩ hX hv hl hc h hcK hdK model hM rfl
      · unfold estimateMultilayerSBM Graph.weightedEdges
        simp only [hw, he, if_false, Py.error_bind]
    | some ws => exact multilayer_relabel_weighted fsolve hG hX hv hl hc h hcK hdK model hM hw

/-! ## Rescaling the weights -/

/-- The same graph with all edge weights multiplied by `k`. -/
def rescale (k : F) (G : Graph F) : Graph F := { G with weight := G.weight.map fun ws => ws.map (k * ·) }

theorem rescale_wf {k : F} {G : Graph F} (hG : G.WF) : (rescale k G).WF := by
  refine ⟨hG.1, fun ws h => ?_⟩
  unfold rescale at h
  cases hw : G.weight with
  | none => rw [hw] at h; cases h
  | some ws' =>
    rw [hw] at h
    cases h
    rw [List.length_map]
    exact hG.2 ws' hw

theorem zip_scale (k : F) (es : List (Nat × Nat)) (ws : List F) :
    es.zip (ws.map (k * ·)) = (es.zip ws).map fun e => (e.1, k * e.2) := by
  rw [List.zip_map_right]; rfl

theorem sum_scale (k : F) (ws : List F) : (ws.map (k * ·)).sum = k * ws.sum := List.sum_map_mul_left _ _ _ |>.trans (by simp)

theorem wTotal_scale (k : F) (es : List ((Nat × Nat) × F)) : wTotal (es.map fun e => (e.1, k * e.2)) = k * wTotal es := by
  unfold wTotal
  rw [List.map_map, ← List.sum_map_mul_left]; rfl

theorem wInside_scale (k : F) (es : List ((Nat × Nat) × F)) (c : List Nat) :
    wInside (es.map fun e => (e.1, k * e.2)) c = k * wInside es c := by
  unfold wInside
  rw [List.map_map, ← List.sum_map_mul_left]
  congr 1
  apply List.map_congr_left
  intro e _
  simp only [Function.comp, mul_ite, mul_zero]

theorem wStrength_scale (k : F) (es : List ((Nat × Nat) × F)) (c : List Nat) (r : Nat) :
    wStrength (es.map fun e => (e.1, k * e.2)) c r = k * wStrength es c r := by
  unfold wStrength
  rw [List.map_map, ← List.sum_map_mul_left]
  congr 1
  apply List.map_congr_left
  intro e _
  simp only [Function.comp, mul_ite, mul_zero, mul_add]

theorem strengthSq_scale (k : F) (es : List ((Nat × Nat) × F)) (c : List Nat) :
    strengthSq (es.map fun e => (e.1, k * e.2)) c = k ^ 2 * strengthSq es c := by
  unfold strengthSq
  rw [mul_sum]
  apply sum_congr rfl
  intro r _
  rw [wStrength_scale]; ring

theorem layerOf_scale (k : F) (es : List ((Nat × Nat) × F)) (layer : List Nat) (t : Nat) :
    layerOf (es.map fun e => (e.1, k * e.2)) layer t = (layerOf es layer t).map fun e => (e.1, k * e.2) := by
  unfold layerOf
  rw [List.filter_map]; rfl

/-- **C73.** The single-layer estimation does not depend on the unit of the weights: multiplying all edge weights by a
nonzero number leaves the outcome (values or exception) unchanged. -/
theorem c73_single_layer {k : F} (hk : k ≠ 0) {G : Graph F} (hG : G.WF) {c : List Nat} (hc : c.length = G.vcount) :
    estimateSinglelayerSBM (rescale k G) c none = estimateSinglelayerSBM G c none := by
  cases hw : G.weight with
  | none =>
    rw [estimateSinglelayerSBM_none hw, estimateSinglelayerSBM_none (by unfold rescale; rw [hw]; rfl)]
  | some ws =>
    have hw' : (rescale k G).weight = some (ws.map (k * ·)) := by unfold rescale; rw [hw]; rfl
    rw [estimateSinglelayerSBM_eq hG hc hw, estimateSinglelayerSBM_eq (rescale_wf hG) hc hw']
    show (if 2 * (ws.map (k * ·)).sum = 0 then _ else _) = _
    have e1 : (rescale k G).edges.zip (ws.map (k * ·)) = (G.edges.zip ws).map fun e => (e.1, k * e.2) := zip_scale _ _ _
    simp only [e1, sum_scale, strengthSq_scale, wInside_scale]
    generalize ws.sum = m
    generalize strengthSq (G.edges.zip ws) c = S
    generalize wInside (G.edges.zip ws) c = I
    by_cases hm : 2 * m = 0
    · rw [if_pos hm, if_pos (by linear_combination k * hm)]
    · have hm0 : m ≠ 0 := fun h => hm (by rw [h, mul_zero])
      have hm' : 2 * (k * m) ≠ 0 := by
        have := mul_ne_zero hk hm
        intro h; apply this; linear_combination h
      have h2 : (2 : F) ≠ 0 := fun h => hm (by rw [h, zero_mul])
      rw [if_neg hm, if_neg hm']
      have hd : k ^ 2 * S / (2 * (k * m)) = k * (S / (2 * m)) := by field_simp
      rw [hd]
      have hz : ∀ x : F, k * x = 0 ↔ x = 0 := fun x => by simp [hk]
      have ho : 2 * (k * m) - k * (S / (2 * m)) = k * (2 * m - S / (2 * m)) := by ring
      have ho' : 2 * (k * m) - k * (2 * I) = k * (2 * m - 2 * I) := by ring
      have hi' : 2 * (k * I) = k * (2 * I) := by ring
      simp only [ho, ho', hi', hz, mul_div_mul_left _ _ hk]

theorem thetas_scale {k : F} (hk : k ≠ 0) (T : Nat) (M I S : Nat → F) :
    thetas T (fun t => k * M t) (fun t => k * I t) (fun t => k ^ 2 * S t) = thetas T M I S := by
  unfold thetas
  have hz : ∀ t, 2 * (k * M t) = 0 ↔ 2 * M t = 0 := by
    intro t
    have : 2 * (k * M t) = k * (2 * M t) := by ring
    rw [this]; simp [hk]
  simp only [hz]
  by_cases hex : ∃ t < T, 2 * M t = 0
  · rw [if_pos hex, if_pos hex]
  · rw [if_neg hex, if_neg hex]
    push Not at hex
    have hd : ∀ t ∈ range T, k ^ 2 * S t / (2 * (k * M t)) = k * (S t / (2 * M t)) := by
      intro t ht
      have := hex t (mem_range.mp ht)
      have h2 : (2 : F) ≠ 0 := fun h => this (by rw [h, zero_mul])
      have hm : M t ≠ 0 := fun h => this (by rw [h, mul_zero])
      field_simp
    have s1 : ∑ t ∈ range T, k ^ 2 * S t / (2 * (k * M t)) = k * ∑ t ∈ range T, S t / (2 * M t) := by
      rw [mul_sum]; exact sum_congr rfl hd
    have s2 : ∑ t ∈ range T, 2 * (k * I t) = k * ∑ t ∈ range T, 2 * I t := by
      rw [mul_sum]; exact sum_congr rfl fun t _ => by ring
    have s3 : ∑ t ∈ range T, (2 * (k * M t) - 2 * (k * I t)) = k * ∑ t ∈ range T, (2 * M t - 2 * I t) := by
      rw [mul_sum]; exact sum_congr rfl fun t _ => by ring
    have s4 : ∑ t ∈ range T, (2 * (k * M t) - k ^ 2 * S t / (2 * (k * M t))) =
        k * ∑ t ∈ range T, (2 * M t - S t / (2 * M t)) := by
      rw [mul_sum]
      exact sum_congr rfl fun t ht => by rw [hd t ht]; ring
    have hz' : ∀ x : F, k * x = 0 ↔ x = 0 := fun x => by simp [hk]
    simp only [s1, s2, s3, s4, hz', mul_div_mul_left _ _ hk]

/-- **C73.** The multilayer estimation does not depend on the unit of the intralayer weights. -/
theorem c73_multilayer {k : F} (hk : k ≠ 0) (fsolve : (F → F) → F → F) {Gi Gx : Graph F} {layer : List Nat} (hG : Gi.WF)
    (hl : layer.length = Gi.vcount) {c : List Nat} (hc : c.length = Gi.vcount) (model : String) :
    estimateMultilayerSBM fsolve (rescale k Gi) Gx layer c model none none none none =
      estimateMultilayerSBM fsolve Gi Gx layer c model none none none none := by
  cases hw : Gi.weight with
  | none =>
    have : rescale k Gi = Gi := by
      unfold rescale; rw [hw]; cases Gi; simp only at hw; subst hw; rfl
    rw [this]
  | some ws =>
    have hw' : (rescale k Gi).weight = some (ws.map (k * ·)) := by unfold rescale; rw [hw]; rfl
    cases hM : layer.max? with
    | none => unfold estimateMultilayerSBM orCompute countLayers; rw [hM]; rfl
    | some M =>
      have hT : LayersBelow layer (M + 1) := fun l hl => by
        have := (List.max?_eq_some_iff.mp hM).2 l hl
        omega
      rw [estimateMultilayerSBM_T _ _ _ _ _ _ hM, estimateMultilayerSBM_T _ _ _ _ _ _ hM,
        estimateMultilayerSBM_eq fsolve hG hl hc hw model hT (by omega),
        estimateMultilayerSBM_eq fsolve (rescale_wf hG) hl hc hw' model hT (by omega)]
      have e1 : (rescale k Gi).edges.zip (ws.map (k * ·)) = (Gi.edges.zip ws).map fun e => (e.1, k * e.2) :=
        zip_scale _ _ _
      have hMt : layerM ((Gi.edges.zip ws).map fun e => (e.1, k * e.2)) layer =
          fun t => k * layerM (Gi.edges.zip ws) layer t := by
        funext t
        unfold layerM
        rw [layerOf_scale, wTotal_scale]
      have hIt : layerMIn ((Gi.edges.zip ws).map fun e => (e.1, k * e.2)) layer c =
          fun t => k * layerMIn (Gi.edges.zip ws) layer c t := by
        funext t
        unfold layerMIn
        rw [List.filter_map, layerOf_scale, wInside_scale]; rfl
      have hSt : layerSq ((Gi.edges.zip ws).map fun e => (e.1, k * e.2)) layer c =
          fun t => k ^ 2 * layerSq (Gi.edges.zip ws) layer c t := by
        funext t
        unfold layerSq
        rw [layerOf_scale, strengthSq_scale]
      rw [e1, hMt, hIt, hSt, thetas_scale hk]
      rfl

example : estimateSinglelayerSBM gBarbell [0, 0, 0, 1, 1, 1] none = estimateSinglelayerSBM gBarbell [1, 1, 1, 0, 0, 0] none :=
  c72_single_layer gBarbell_wf rfl ⟨rfl, fun i j hi hj => (by decide : ∀ i < 6, ∀ j < 6,
      ([0, 0, 0, 1, 1, 1][i]? = [0, 0, 0, 1, 1, 1][j]? ↔ [1, 1, 1, 0, 0, 0][i]? = [1, 1, 1, 0, 0, 0][j]?)) i hi j hj⟩ (K := 2) (fun k => by simp; omega) (fun k => by simp; omega)
/-- The labels must be `0..K-1`: with a gap the outcome changes when the only used label is not 0. -/
example : estimateSinglelayerSBM gBarbell (List.replicate 6 0) none = .ok (1, 0) ∧
    estimateSinglelayerSBM gBarbell (List.replicate 6 1) none = .error .zeroDivisionError := by decide +kernel
example : estimateSinglelayerSBM (rescale 3 gBarbell) [0, 0, 0, 1, 1, 1] none = .ok (12 / 7, 2 / 7) := by
  rw [c73_single_layer (by norm_num) gBarbell_wf rfl]; decide +kernel
/-- A zero factor is excluded with reason: all weights become 0. -/
example : estimateSinglelayerSBM (rescale 0 gBarbell) [0, 0, 0, 1, 1, 1] none = .error .zeroDivisionError := by
  decide +kernel
example : estimateMultilayerSBM (fun _ x => x) (rescale 5 gLayers) gCopies [0, 0, 0, 1, 1, 1] [1, 1, 0, 1, 1, 0] "temporal"
    none none none none = .ok (4 / 5, 4 / 3, 1, 2) := by decide +kernel

end Field

/-! ## The API: `gamma_estimate` and `gamma_omega_estimate` -/

theorem setEsWeight_wf {F : Type} {G G' : Graph F} (hG : G.WF) {vals : List F} (h : G.setEsWeight vals = .ok G') :
    G'.WF := by
  unfold Graph.setEsWeight at h
  split at h
  · cases h
  · rename_i hne
    cases h
    refine ⟨hG.1, fun ws h => ?_⟩
    cases h
    push Not at hne
    by_cases hv : vals = []
    · rw [hne hv]; rfl
    · have hpos := List.length_pos_of_ne_nil hv
      show (List.filterMap _ _).length = G.edges.length
      have : ∀ i ∈ List.range G.edges.length, (vals[i % vals.length]?).isSome = true := by
        intro i _
        rw [List.getElem?_eq_getElem (Nat.mod_lt i hpos)]; rfl
      rw [List.length_filterMap_eq_countP, List.countP_eq_length.mpr this, List.length_range]

theorem ensureWeight_wf {F : Type} [One F] {test : Graph F → Bool} {n : Nat} {G G' : Graph F} (hG : G.WF)
    (h : ensureWeight test n G = .ok G') : G'.WF := by
  unfold ensureWeight at h
  split at h
  · cases h; exact hG
  · exact setEsWeight_wf hG h

theorem estimateMultilayerSBM_countLayers {F : Type} [Field F] [LinearOrder F] (fsolve : (F → F) → F → F)
    (Gi Gx : Graph F) (layer c : List Nat) (model : String) {T : Nat} (h : countLayers layer = .ok T) :
    estimateMultilayerSBM fsolve Gi Gx layer c model none (some T) none none =
      estimateMultilayerSBM fsolve Gi Gx layer c model none none none none := by
  unfold estimateMultilayerSBM orCompute
  simp only [h, Py.ok_bind]

/-- **C72.** `gamma_estimate(G, partition)`: two memberships with labels `0..K-1` that describe the same partition give
the same estimate (and exception) and leave the same graph. -/
theorem c72_gamma_estimate (test : Graph ℝ → Bool) {G : Graph ℝ} (hG : G.WF) {c d : List Nat} (hc : c.length = G.vcount)
    (h : SamePartition c d) {K : Nat} (hcK : Contiguous c K) (hdK : Contiguous d K) :
    gammaEstimate test G c = gammaEstimate test G d := by
  unfold gammaEstimate
  cases hw : ensureWeight test G.vcount G with
  | error e => rfl
  | ok G' =>
    have hv := (ensureWeight_vcount hw).1
    rw [Py.ok_bind, Py.ok_bind]
    unfold leidenPartWithMembership
    rw [if_pos (hc.trans hv.symm), if_pos ((h.1 ▸ hc).trans hv.symm), Py.ok_bind, Py.ok_bind,
      c72_single_layer (ensureWeight_wf hG hw) (hc.trans hv.symm) h hcK hdK]

/-- **C72.** `gamma_omega_estimate(G_intralayer, G_interlayer, layer_vec, membership)` depends only on the partition. -/
theorem c72_gamma_omega_estimate (test : Graph ℝ → Bool) (fsolve : (ℝ → ℝ) → ℝ → ℝ) {Gi Gx : Graph ℝ}
    {layer : List Nat} (hm : Multilayer Gi Gx layer) {c d : List Nat} (hc : c.length = Gi.vcount)
    (h : SamePartition c d) {K : Nat} (hcK : Contiguous c K) (hdK : Contiguous d K) (ωmax : ℝ) (model : String) :
    gammaOmegaEstimate test fsolve Gi Gx layer c ωmax model = gammaOmegaEstimate test fsolve Gi Gx layer d ωmax model := by
  rw [gammaOmegaEstimate_def, gammaOmegaEstimate_def]
  cases hT : countLayers layer with
  | error e => rw [Py.error_bind, Py.error_bind]
  | ok T =>
    rw [Py.ok_bind, Py.ok_bind]
    unfold leidenPartWithMembership
    rw [if_pos hc, if_pos (h.1.symm.trans hc), Py.ok_bind, Py.ok_bind]
    cases hw : ensureWeight test Gi.ecount Gi with
    | error e => rw [Py.error_bind, Py.error_bind]
    | ok G' =>
      have hv := (ensureWeight_vcount hw).1
      rw [Py.ok_bind, Py.ok_bind, estimateMultilayerSBM_countLayers _ _ _ _ _ _ hT,
        estimateMultilayerSBM_countLayers _ _ _ _ _ _ hT,
        c72_multilayer fsolve (ensureWeight_wf hm.intra hw) hm.inter (hm.vcount.trans hv.symm)
          (hm.layers.trans hv.symm) (hc.trans hv.symm) h hcK hdK model]

theorem Py.map_error' {α β : Type} (f : α → β) (e : PyErr) : Except.map f (Except.error e : Py α) = .error e := rfl
theorem Py.map_ok' {α β : Type} (f : α → β) (a : α) : Except.map f (Except.ok a : Py α) = .ok (f a) := rfl

theorem ensureWeight_rescale {test : Graph ℝ → Bool} {n : Nat} {k : ℝ} {G : Graph ℝ}
    (ht : test (rescale k G) = test G) :
    ensureWeight test n (rescale k G) = (ensureWeight test n G).map fun G' => if test G then rescale k G' else G' := by
  unfold ensureWeight
  rw [ht]
  cases test G with
  | true => rfl
  | false =>
    simp only [Bool.false_eq_true, if_false]
    unfold Graph.setEsWeight rescale
    simp only
    split <;> rfl

/-- **C73.** `gamma_estimate` does not depend on the unit of the weights (whatever igraph answers to `'weight' in G.es`,
as long as the answer does not depend on the values). -/
theorem c73_gamma_estimate (test : Graph ℝ → Bool) {k : ℝ} (hk : k ≠ 0) {G : Graph ℝ} (hG : G.WF)
    (ht : test (rescale k G) = test G) (c : List Nat) :
    (gammaEstimate test (rescale k G) c).map Prod.fst = (gammaEstimate test G c).map Prod.fst := by
  unfold gammaEstimate
  have hr : (rescale k G).vcount = G.vcount := rfl
  rw [hr, ensureWeight_rescale ht]
  cases hw : ensureWeight test G.vcount G with
  | error e => rfl
  | ok G' =>
    have hv := (ensureWeight_vcount hw).1
    cases htG : test G with
    | false => rfl
    | true =>
      show ((leidenPartWithMembership (rescale k G') c >>= fun community => estimateSinglelayerSBM (rescale k G')
        community none >>= fun r => (pure (gammaFromParameters r.1 r.2, rescale k G') : Py _)).map Prod.fst) =
        (leidenPartWithMembership G' c >>= fun community => estimateSinglelayerSBM G' community none >>= fun r =>
          (pure (gammaFromParameters r.1 r.2, G') : Py _)).map Prod.fst
      unfold leidenPartWithMembership
      have hr' : (rescale k G').vcount = G'.vcount := rfl
      rw [hr']
      split
      · rename_i hc
        rw [Py.ok_bind, Py.ok_bind, c73_single_layer hk (ensureWeight_wf hG hw) hc]
        cases estimateSinglelayerSBM G' c none <;> rfl
      · rfl

/-- **C73.** `gamma_omega_estimate` does not depend on the unit of the intralayer weights. -/
theorem c73_gamma_omega_estimate (test : Graph ℝ → Bool) (fsolve : (ℝ → ℝ) → ℝ → ℝ) {k : ℝ} (hk : k ≠ 0)
    {Gi Gx : Graph ℝ} {layer : List Nat} (hG : Gi.WF) (hl : layer.length = Gi.vcount)
    (ht : test (rescale k Gi) = test Gi) (c : List Nat) (ωmax : ℝ) (model : String) :
    (gammaOmegaEstimate test fsolve (rescale k Gi) Gx layer c ωmax model).map Prod.fst =
      (gammaOmegaEstimate test fsolve Gi Gx layer c ωmax model).map Prod.fst := by
  rw [gammaOmegaEstimate_def, gammaOmegaEstimate_def]
  cases hT : countLayers layer with
  | error e => rw [Py.error_bind, Py.error_bind]
  | ok T =>
    rw [Py.ok_bind, Py.ok_bind]
    have hr : (rescale k Gi).vcount = Gi.vcount := rfl
    have hr2 : (rescale k Gi).ecount = Gi.ecount := rfl
    unfold leidenPartWithMembership
    rw [hr, hr2, ensureWeight_rescale ht]
    split
    · rename_i hc
      rw [Py.ok_bind, Py.ok_bind]
      cases hw : ensureWeight test Gi.ecount Gi with
      | error e => rw [Py.error_bind, Py.map_error', Py.error_bind]
      | ok G' =>
        have hv := (ensureWeight_vcount hw).1
        cases htG : test Gi with
        | false => rw [Py.map_ok']; simp only [Py.ok_bind, Bool.false_eq_true, if_false]
        | true =>
          rw [Py.map_ok', Py.ok_bind, Py.ok_bind, if_pos rfl]
          show (estimateMultilayerSBM fsolve (rescale k G') Gx layer c model none (some T) none none >>= fun r =>
            omegaFunctionFromModel model ωmax T >>= fun u => u r.1 r.2.1 r.2.2.1 r.2.2.2 >>= fun ω =>
              (pure ((gammaFromParameters r.1 r.2.1, ω), rescale k G') : Py _)).map Prod.fst =
            (estimateMultilayerSBM fsolve G' Gx layer c model none (some T) none none >>= fun r =>
            omegaFunctionFromModel model ωmax T >>= fun u => u r.1 r.2.1 r.2.2.1 r.2.2.2 >>= fun ω =>
              (pure ((gammaFromParameters r.1 r.2.1, ω), G') : Py _)).map Prod.fst
          rw [estimateMultilayerSBM_countLayers _ _ _ _ _ _ hT, estimateMultilayerSBM_countLayers _ _ _ _ _ _ hT,
            c73_multilayer hk fsolve (ensureWeight_wf hG hw) (hl.trans hv.symm) (hc.trans hv.symm) model]
          cases estimateMultilayerSBM fsolve G' Gx layer c model none none none none with
          | error e => rw [Py.error_bind, Py.error_bind]
          | ok r =>
            rw [Py.ok_bind, Py.ok_bind]
            cases omegaFunctionFromModel model ωmax T with
            | error e => rw [Py.error_bind, Py.error_bind]
            | ok u =>
              rw [Py.ok_bind, Py.ok_bind]
              cases u r.1 r.2.1 r.2.2.1 r.2.2.2 <;> rfl
    · rw [Py.error_bind, Py.error_bind]

/-- The hypotheses are met by the three-vertices-per-layer witness of C28 (over the reals). -/
example : Multilayer gIntraR gInterR [0, 0, 0, 1, 1, 1] ∧ SamePartition [0, 0, 1, 0, 1, 1] [1, 1, 0, 1, 0, 0] ∧
    Contiguous [0, 0, 1, 0, 1, 1] 2 ∧ Contiguous [1, 1, 0, 1, 0, 0] 2 :=
  ⟨gIntraR_multilayer, ⟨rfl, fun i j hi hj => (by decide : ∀ i < 6, ∀ j < 6, ([0, 0, 1, 0, 1, 1][i]? =
      [0, 0, 1, 0, 1, 1][j]? ↔ [1, 1, 0, 1, 0, 0][i]? = [1, 1, 0, 1, 0, 0][j]?)) i hi j hj⟩, fun k => by simp; omega, fun k => by simp; omega⟩
/-- igraph's answer depending only on the presence of the attribute is admissible. -/
example (k : ℝ) (G : Graph ℝ) : (fun H : Graph ℝ => H.weight.isSome) (rescale k G) =
    (fun H : Graph ℝ => H.weight.isSome) G := by
  simp only [rescale, Option.isSome_map]

end Verif.Props
