import Mathlib.Tactic.FieldSimp
import Mathlib.Tactic.Positivity
import Mathlib.Algebra.Order.BigOperators.Group.Finset
import Mathlib.Algebra.Order.BigOperators.Group.List
import Verif.Proofs.Consistency
import Verif.Props.Estimation

/-!
# Properties C31, C49, C50: accepted multilayer graphs
-/

namespace Verif.Props
open Verif Verif.Spec Finset
variable {F : Type} [Field F] [LinearOrder F] [IsStrictOrderedRing F]

/-! ### C49 -/

open Classical in
/-- The documented rules violated by the arguments (specification). -/
noncomputable def violatedRules (Gi Gx : Graph F) (layer : List Nat) (model : String) (mt : List F) (T N : Nat)
    (Nt : List Nat) : List Rule :=
  (documentedRules Gi Gx layer model mt T N Nt).filter fun r => ¬ r.holds

open Classical in
/-- **C49.** For every graph pair whose edges the layer vector covers, every model string and `T ≥ 1`: the check passes iff
no documented rule is violated, and otherwise raises `ValueError` with exactly the messages of the violated rules, in
order. -/
theorem c49_reports_violated_rules (Gi Gx : Graph F) {layer : List Nat} (model : String) (mt : List F) {T : Nat}
    (hT : T ≠ 0) (N : Nat) (Nt : List Nat) (hends : ∀ e ∈ Gi.edges, e.1 < layer.length ∧ e.2 < layer.length) :
    (violatedRules Gi Gx layer model mt T N Nt = [] →
      checkConsistency Gi Gx layer model mt T (some N) (some Nt) = .ok ()) ∧
    (violatedRules Gi Gx layer model mt T N Nt ≠ [] →
      checkConsistency Gi Gx layer model mt T (some N) (some Nt) = .error (.valueError
        ("Input graph is malformed\n" ++
          "\n".intercalate ((violatedRules Gi Gx layer model mt T N Nt).map fun r => r.message)))) := by
  unfold checkConsistency
  rw [evalRules_ok Gi Gx model mt hT N Nt hends, Py.ok_bind]
  unfold violatedRules
  generalize documentedRules Gi Gx layer model mt T N Nt = rs
  have h1 : ((rs.map fun r => (truth r.holds, r.message)).all fun r => r.1) = true ↔
      (rs.filter fun r => decide (¬ r.holds)) = [] := by
    rw [List.filter_eq_nil_iff]
    simp
  have h2 : (((rs.map fun r => (truth r.holds, r.message)).filter fun r => !r.1).map fun r => r.2) =
      (rs.filter fun r => decide (¬ r.holds)).map fun r => r.message := by
    clear h1
    induction rs with
    | nil => rfl
    | cons r rs ih =>
      by_cases hr : r.holds
      · have : truth r.holds = true := (truth_iff _).mpr hr
        rw [List.map_cons, this]
        simp only [List.filter_cons, hr]
        simpa using ih
      · have : truth r.holds = false := by rw [Bool.eq_false_iff]; simpa using hr
        rw [List.map_cons, this]
        simp only [List.filter_cons, hr]
        simpa using ih
  constructor
  · intro h
    rw [if_pos (h1.mpr h)]; rfl
  · intro h
    rw [if_neg (fun h' => h (h1.mp h')), h2]

/-- **C49 (every input).** Without any assumption on the layer vector: the check passes iff all documented rules hold;
in particular a layer vector that does not cover the edges is never accepted (although the exception is then an
`IndexError` rather than the documented `ValueError`). -/
theorem c49_passes_iff {Gi : Graph F} (hG : Gi.WF) (Gx : Graph F) (layer : List Nat) (model : String) (mt : List F)
    {T : Nat} (hT : T ≠ 0) (N : Nat) (Nt : List Nat) :
    checkConsistency Gi Gx layer model mt T (some N) (some Nt) = .ok () ↔
      ∀ r ∈ documentedRules Gi Gx layer model mt T N Nt, r.holds := by
  have main : (∀ e ∈ Gi.edges, e.1 < layer.length ∧ e.2 < layer.length) →
      (checkConsistency Gi Gx layer model mt T (some N) (some Nt) = .ok () ↔
        ∀ r ∈ documentedRules Gi Gx layer model mt T N Nt, r.holds) := by
    intro hends
    obtain ⟨h1, h2⟩ := c49_reports_violated_rules Gi Gx model mt hT N Nt hends
    have : violatedRules Gi Gx layer model mt T N Nt = [] ↔
        ∀ r ∈ documentedRules Gi Gx layer model mt T N Nt, r.holds := by
      unfold violatedRules
      rw [List.filter_eq_nil_iff]; simp
    constructor
    · intro h
      by_contra hcon
      rw [h2 (fun h => hcon (this.mp h))] at h
      cases h
    · intro h; exact h1 (this.mpr h)
  constructor
  · intro h
    refine (main ?_).mp h
    unfold checkConsistency at h
    obtain ⟨out, ho, h⟩ := Py.bind_ok' h
    have hall : out.all (fun r => r.1) = true := by
      by_contra hcon
      rw [if_neg hcon] at h; cases h
    have := evalRules_true ho hall (pyAll (sameLayer layer) Gi.edges, _)
      (List.mem_cons_of_mem _ (List.mem_cons_of_mem _ (List.mem_cons_of_mem _ (List.mem_cons_of_mem _
        (List.mem_cons_of_mem _ List.mem_cons_self)))))
    intro e he
    exact (sameLayer_true (pyAll_true this e he)).2
  · intro h
    refine (main ?_).mpr h
    have hl : layer.length = Gi.vcount := h _ (List.mem_cons_of_mem _ (List.mem_cons_of_mem _ (List.mem_cons_of_mem _
      List.mem_cons_self)))
    intro e he
    rw [hl]; exact hG.1 e he

/-- **C49 (in the iterative algorithm).** With `T`, `N`, `Nt`, `m_t` computed from the graph as the iterative algorithm
does, the preparation succeeds iff the graph is an acceptable multilayer graph of that model; it then yields the number of
layers, the layers' weights and the layers' sizes. -/
theorem c49_accepts_iff {Gi : Graph F} (hG : Gi.WF) (Gx : Graph F) {layer : List Nat} (model : String) {ws : List F}
    (hw : Gi.weight = some ws) {T : Nat} (hTmem : T - 1 ∈ layer) (hTle : ∀ l ∈ layer, l < T) :
    ((∃ r, prepareMultilayer Gi Gx layer model = .ok r) ↔ Accepted Gi Gx ws layer model T) ∧
    ∀ r, prepareMultilayer Gi Gx layer model = .ok r →
      r = (T, (List.range T).map (fun t => wTotal (layerOf (Gi.edges.zip ws) layer t)), Gi.vcount / T,
        (List.range T).map fun t => layer.count t) := by
  have hT0 : T ≠ 0 := by have := hTle _ hTmem; omega
  have hmax : layer.max? = some (T - 1) := by
    rw [List.max?_eq_some_iff]
    exact ⟨hTmem, fun b hb => by have := hTle b hb; omega⟩
  have hcl : countLayers layer = .ok T := by
    unfold countLayers
    rw [hmax]
    simp only [Except.ok.injEq]; omega
  have hes : Gi.weightedEdges = .ok (Gi.edges.zip ws) := by unfold Graph.weightedEdges; rw [hw]
  have hN : vcountFloorDiv Gi.vcount T = .ok (Gi.vcount / T) := by unfold vcountFloorDiv; rw [if_neg hT0]
  -- the rules as a structure
  have hrules : (∀ r ∈ documentedRules Gi Gx layer model
      ((List.range T).map fun t => wTotal (layerOf (Gi.edges.zip ws) layer t)) T (Gi.vcount / T)
      ((List.range T).map fun t => layer.count t), r.holds) ↔ Accepted Gi Gx ws layer model T := by
    unfold documentedRules
    simp only [List.mem_cons, List.not_mem_nil, or_false, forall_eq_or_imp, forall_eq, List.mem_map, List.mem_range,
      forall_exists_index, and_imp, forall_apply_eq_imp_iff₂]
    constructor
    · rintro ⟨h1, h2, h3, h4, h5, h6, h7, h8, h9, h10, h11, h12, h13⟩
      refine ⟨h1, h2, h3, h4, h5, h6, fun h => ⟨(h8 h).2, h9 h, h7 h⟩, fun h => ⟨h10 h, fun v hv => ?_⟩,
        fun h => ⟨h12 h, h13 h⟩⟩
      have := h11 h v hv
      rwa [if_pos h2] at this
    · rintro ⟨h1, h2, h3, h4, h5, h6, h7, h8, h9⟩
      refine ⟨h1, h2, h3, h4, h5, h6, fun h => (h7 h).2.2, fun h => ⟨h3 ▸ (h7 h).1, (h7 h).1⟩, fun h => (h7 h).2.1,
        fun h => (h8 h).1, fun h v hv => ?_, fun h => (h9 h).1, fun h => (h9 h).2⟩
      rw [if_pos h2]
      exact (h8 h).2 v hv
  -- the body
  have hbody : (∀ e ∈ Gi.edges, e.1 < layer.length ∧ e.2 < layer.length) →
      prepareMultilayer Gi Gx layer model = (do
        checkConsistency Gi Gx layer model ((List.range T).map fun t => wTotal (layerOf (Gi.edges.zip ws) layer t)) T
          (some (Gi.vcount / T)) (some ((List.range T).map fun t => layer.count t))
        return (T, (List.range T).map (fun t => wTotal (layerOf (Gi.edges.zip ws) layer t)), Gi.vcount / T,
          (List.range T).map fun t => layer.count t)) := by
    intro hends
    unfold prepareMultilayer
    have hE : EndsIn (Gi.edges.zip ws) layer.length := fun e he => hends e.1 (List.of_mem_zip he).1
    rw [hcl, Py.ok_bind, hes, Py.ok_bind, layerWeights_ok hE hTle, Py.ok_bind, hN, Py.ok_bind, layerSizes_ok hTle,
      Py.ok_bind]
  have hcov : ∀ r, prepareMultilayer Gi Gx layer model = .ok r →
      ∀ e ∈ Gi.edges, e.1 < layer.length ∧ e.2 < layer.length := by
    intro r h
    unfold prepareMultilayer at h
    obtain ⟨_, _, h⟩ := Py.bind_ok' h
    obtain ⟨_, _, h⟩ := Py.bind_ok' h
    obtain ⟨_, _, h⟩ := Py.bind_ok' h
    obtain ⟨_, _, h⟩ := Py.bind_ok' h
    obtain ⟨_, _, h⟩ := Py.bind_ok' h
    obtain ⟨_, hch, h⟩ := Py.bind_ok' h
    unfold checkConsistency at hch
    obtain ⟨out, ho, hch⟩ := Py.bind_ok' hch
    have hall : out.all (fun r => r.1) = true := by
      by_contra hcon
      rw [if_neg hcon] at hch; cases hch
    have := evalRules_true ho hall (pyAll (sameLayer layer) Gi.edges, _)
      (List.mem_cons_of_mem _ (List.mem_cons_of_mem _ (List.mem_cons_of_mem _ (List.mem_cons_of_mem _
        (List.mem_cons_of_mem _ List.mem_cons_self)))))
    intro e he
    exact (sameLayer_true (pyAll_true this e he)).2
  refine ⟨⟨?_, ?_⟩, ?_⟩
  · rintro ⟨r, h⟩
    have hc := hcov r h
    rw [hbody hc] at h
    obtain ⟨_, hch, _⟩ := Py.bind_ok' h
    exact hrules.mp ((c49_passes_iff hG Gx layer model _ hT0 _ _).mp hch)
  · intro h
    have hc : ∀ e ∈ Gi.edges, e.1 < layer.length ∧ e.2 < layer.length := fun e he => by
      rw [h.vector]; exact hG.1 e he
    rw [hbody hc, (c49_passes_iff hG Gx layer model _ hT0 _ _).mpr (hrules.mpr h)]
    exact ⟨_, rfl⟩
  · intro r h
    rw [hbody (hcov r h)] at h
    obtain ⟨_, _, h⟩ := Py.bind_ok' h
    injection h with h
    exact h.symm

example : ∃ r, prepareMultilayer gLayers gCopies [0, 0, 0, 1, 1, 1] "temporal" = .ok r :=
  ⟨(2, [2, 2], 3, [3, 3]), by decide +kernel⟩
example : Accepted gLayers gCopies [1, 1, 1, 1] [0, 0, 0, 1, 1, 1] "temporal" 2 :=
  (c49_accepts_iff (ws := [1, 1, 1, 1]) ⟨by decide, by intro ws h; cases h; rfl⟩ gCopies "temporal" rfl (T := 2)
    (by decide) (by decide)).1.mp ⟨(2, [2, 2], 3, [3, 3]), by decide +kernel⟩
/-- Two rules violated at once: an undirected interlayer graph with too few edges. -/
example : checkConsistency gLayers ⟨6, false, [(0, 3)], none⟩ [0, 0, 0, 1, 1, 1] "temporal" [2, 2] 2 (some 3)
    (some [3, 3]) = .error (.valueError ("Input graph is malformed\nInterlayer graph should be directed\n" ++
      "Interlayer temporal graph must contain (nodes per layer) * (number of layers - 1) edges")) := by decide +kernel
/-- A layer vector that is too short: `IndexError` instead of the documented message. -/
example : checkConsistency gLayers gCopies [0, 0, 0, 1, 1] "temporal" [2, 2] 2 (some 3) (some [3, 3]) =
    .error .indexError := by decide +kernel

/-! ### C50 -/

theorem strengthSq_pos {es : List ((Nat × Nat) × F)} {c : List Nat} (h : EndsIn es c.length) (hpos : 0 < wTotal es) :
    0 < strengthSq es c := by
  unfold strengthSq
  have hsum : ∑ r ∈ range (partLen c), wStrength es c r = 2 * wTotal es := sum_wStrength h le_rfl
  rcases (Finset.sum_nonneg (s := range (partLen c)) fun r _ => sq_nonneg (wStrength es c r)).lt_or_eq with h0 | h0
  · exact h0
  · exfalso
    have hz := (Finset.sum_eq_zero_iff_of_nonneg fun r _ => sq_nonneg (wStrength es c r)).mp h0.symm
    have : ∑ r ∈ range (partLen c), wStrength es c r = 0 :=
      Finset.sum_eq_zero fun r hr => pow_eq_zero_iff (two_ne_zero) |>.mp (hz r hr)
    rw [this] at hsum
    linarith

/-- In an accepted graph every layer contains a vertex. -/
theorem accepted_count_pos {Gi Gx : Graph F} {ws : List F} {layer : List Nat} {model : String}
    {T : Nat} (h : Accepted Gi Gx ws layer model T) {t : Nat} (ht : t < T) : 0 < layer.count t := by
  rw [List.count_pos_iff]
  by_contra hcon
  have : layerOf (Gi.edges.zip ws) layer t = [] := by
    unfold layerOf
    rw [List.filter_eq_nil_iff]
    intro e _
    simp only [decide_eq_true_eq]
    intro h'
    exact hcon (List.mem_of_getElem? h')
  have := h.weights t ht
  rw [‹layerOf _ _ _ = []›] at this
  simp [wTotal] at this

/-- **C50.** If the preparation of the iterative algorithm accepts the graph, then for each of the three models and every
membership of the right length the SBM estimation on it – with the prepared parameters or with parameters recomputed from
the graph – returns: it raises neither `ZeroDivisionError` nor anything else. -/
theorem c50_no_crash (fsolve : (F → F) → F → F) {Gi Gx : Graph F} (hi : Gi.WF) (hx : Gx.WF)
    {ws : List F} (hw : Gi.weight = some ws) {layer : List Nat} {model : String}
    (hmodel : model = "temporal" ∨ model = "multilevel" ∨ model = "multiplex") {T N : Nat} {mt : List F} {Nt : List Nat}
    (hprep : prepareMultilayer Gi Gx layer model = .ok (T, mt, N, Nt)) {c : List Nat} (hc : c.length = Gi.vcount) :
    ∃ θin θout p, estimateMultilayerSBM fsolve Gi Gx layer c model (some N) (some T) (some Nt) (some mt) =
        .ok (θin, θout, p, partLen c) ∧
      estimateMultilayerSBM fsolve Gi Gx layer c model none none none none = .ok (θin, θout, p, partLen c) := by
  -- number of layers
  have hTl : T - 1 ∈ layer ∧ (∀ l ∈ layer, l < T) ∧ layer.max? = some (T - 1) ∧ 0 < T := by
    unfold prepareMultilayer at hprep
    obtain ⟨T', hT', h⟩ := Py.bind_ok' hprep
    obtain ⟨_, _, h⟩ := Py.bind_ok' h
    obtain ⟨_, _, h⟩ := Py.bind_ok' h
    obtain ⟨_, _, h⟩ := Py.bind_ok' h
    obtain ⟨_, _, h⟩ := Py.bind_ok' h
    obtain ⟨_, _, h⟩ := Py.bind_ok' h
    injection h with h
    have : T' = T := congrArg Prod.fst h
    subst this
    unfold countLayers at hT'
    cases hm : layer.max? with
    | none => rw [hm] at hT'; cases hT'
    | some M =>
      rw [hm] at hT'
      injection hT' with hT'
      subst hT'
      obtain ⟨h1, h2⟩ := List.max?_eq_some_iff.mp hm
      exact ⟨h1, fun l hl => Nat.lt_succ_of_le (h2 l hl), rfl, Nat.succ_pos _⟩
  obtain ⟨hmem, hle, hmax, hT0⟩ := hTl
  obtain ⟨hacc, hval⟩ := c49_accepts_iff hi Gx model hw hmem hle
  have ha : Accepted Gi Gx ws layer model T := hacc.mp ⟨_, hprep⟩
  have hv := hval _ hprep
  injection hv with _ hv
  injection hv with hmt hv
  injection hv with hN hNt
  have hE : EndsIn (Gi.edges.zip ws) layer.length := fun e he => by
    rw [ha.vector]; exact hi.1 e.1 (List.of_mem_zip he).1
  have hEc : EndsIn (Gi.edges.zip ws) c.length := fun e he => by
    rw [hc]; exact hi.1 e.1 (List.of_mem_zip he).1
  have hsame : estimateMultilayerSBM fsolve Gi Gx layer c model (some N) (some T) (some Nt) (some mt) =
      estimateMultilayerSBM fsolve Gi Gx layer c model none (some T) none none := by
    unfold estimateMultilayerSBM
    simp only [orCompute, Py.ok_bind]
    have e1 : vcountFloorDiv Gi.vcount T = .ok N := by unfold vcountFloorDiv; rw [if_neg hT0.ne', hN]
    have e2 : Gi.weightedEdges = .ok (Gi.edges.zip ws) := by unfold Graph.weightedEdges; rw [hw]
    simp only [e1, e2, Py.ok_bind, layerWeights_ok hE hle, layerSizes_ok hle, ← hmt, ← hNt]
  have hnone : estimateMultilayerSBM fsolve Gi Gx layer c model none none none none =
      estimateMultilayerSBM fsolve Gi Gx layer c model none (some T) none none := by
    rw [estimateMultilayerSBM_T _ _ _ _ _ _ hmax, Nat.sub_add_cancel hT0]
  rw [hsame, hnone]
  -- thetas
  have hM : ∀ t < T, 0 < layerM (Gi.edges.zip ws) layer t := ha.weights
  have hS : ∀ t < T, 0 < layerSq (Gi.edges.zip ws) layer c t := fun t ht =>
    strengthSq_pos (hEc.filter _) (ha.weights t ht)
  have hth : ∃ a b, thetas T (layerM (Gi.edges.zip ws) layer) (layerMIn (Gi.edges.zip ws) layer c)
      (layerSq (Gi.edges.zip ws) layer c) = .ok (a, b) := by
    unfold thetas
    rw [if_neg, if_neg]
    · exact ⟨_, _, rfl⟩
    · have : 0 < ∑ t ∈ range T, layerSq (Gi.edges.zip ws) layer c t / (2 * layerM (Gi.edges.zip ws) layer t) := by
        apply Finset.sum_pos
        · intro t ht
          have ht := mem_range.mp ht
          exact div_pos (hS t ht) (mul_pos two_pos (hM t ht))
        · exact ⟨0, mem_range.mpr hT0⟩
      exact this.ne'
    · rintro ⟨t, ht, h0⟩
      have := hM t ht
      linarith
  obtain ⟨a, b, hab⟩ := hth
  have hT1 : ((T : F) - 1) ≠ 0 := by
    have : (2 : F) ≤ T := by exact_mod_cast ha.layers
    intro h; linarith
  have hNpos : model ≠ "multilevel" → ((Gi.vcount / T : Nat) : F) ≠ 0 := by
    intro hne
    have h0 := accepted_count_pos ha hT0
    have : layer.count 0 = Gi.vcount / T := by
      rcases hmodel with h | h | h
      · exact (ha.temporal h).2.1 0 hT0
      · exact absurd h hne
      · exact (ha.multiplex h).1 0 hT0
    rw [← this]
    exact_mod_cast h0.ne'
  have hxe : ∀ e ∈ Gx.edges, e.1 < c.length ∧ e.2 < c.length := fun e he => by
    rw [hc, ← ha.sameSize]; exact hx.1 e he
  have hpers : ∃ f q, persistenceFunctionFromModel model Gx (some layer) (some (Gi.vcount / T)) (some T)
      (some ((List.range T).map fun t => layer.count t)) = .ok f ∧ f c = .ok q := by
    have d1 : ("multilevel" : String) ≠ "temporal" := by decide
    have d2 : ("multiplex" : String) ≠ "temporal" := by decide
    have d3 : ("multiplex" : String) ≠ "multilevel" := by decide
    rcases hmodel with rfl | rfl | rfl
    · refine ⟨_, insideCount Gx.edges c / (((Gi.vcount / T : Nat) : F) * ((T : F) - 1)),
        by unfold persistenceFunctionFromModel; rw [if_pos rfl], ?_⟩
      unfold ordinalPersistence insideEdges
      rw [internalEdgeCount_ok hxe, Py.ok_bind]
      unfold pyDiv
      rw [if_neg (mul_ne_zero (hNpos d1.symm) hT1)]
    · have hq := multilevelPersistence_eq (F := F) hxe (by rw [ha.vector, hc]) hle
        (fun t ht => by have := accepted_count_pos ha ht; exact_mod_cast this.ne') hT1
      exact ⟨_, _, by unfold persistenceFunctionFromModel; rw [if_neg d1, if_pos rfl], hq⟩
    · refine ⟨_, insideCount Gx.edges c / (((Gi.vcount / T : Nat) : F) * (T : F) * ((T : F) - 1)),
        by unfold persistenceFunctionFromModel; rw [if_neg d2, if_neg d3, if_pos rfl], ?_⟩
      unfold categoricalPersistence insideEdges
      rw [internalEdgeCount_ok hxe, Py.ok_bind]
      unfold pyDiv
      rw [if_neg (mul_ne_zero (mul_ne_zero (hNpos d3) (by exact_mod_cast hT0.ne')) hT1)]
  obtain ⟨f, q, hf, hq⟩ := hpers
  rw [estimateMultilayerSBM_eq fsolve hi ha.vector hc hw model hle hT0, hab]
  simp only [Py.ok_bind, hf, hq]
  exact ⟨_, _, _, rfl, rfl⟩

example : ∃ r, prepareMultilayer gLayers gCopies [0, 0, 0, 1, 1, 1] "temporal" = .ok r ∧
    gLayers.WF ∧ gCopies.WF :=
  ⟨(2, [2, 2], 3, [3, 3]), by decide +kernel, ⟨by decide, by intro ws h; cases h; rfl⟩,
    ⟨by decide, by intro ws h; cases h⟩⟩

/-! ### C31 -/

/-- Number of interlayer edges inside a community (specification). -/
def keptEdges (Gx : Graph F) (c : List Nat) : Nat := (Gx.edges.filter fun e => decide (c[e.1]? = c[e.2]?)).length

/-- **C31 (temporal, multiplex).** On an accepted temporal or multiplex graph the persistence of every membership is
defined and is the fraction of interlayer edges inside communities; so it lies in `[0, 1]` and is 1 iff no interlayer edge
joins different communities. -/
theorem c31_persistence_is_fraction {Gi Gx : Graph F} (hx : Gx.WF) {ws : List F} {layer : List Nat} {model : String}
    (hmodel : model = "temporal" ∨ model = "multiplex") {T : Nat} (ha : Accepted Gi Gx ws layer model T) {c : List Nat}
    (hc : c.length = Gi.vcount) (Nt : Option (List Nat)) :
    ∃ f x, persistenceFunctionFromModel model Gx (some layer) (some (Gi.vcount / T)) (some T) Nt = .ok f ∧
      f c = .ok x ∧ x = (keptEdges Gx c : F) / (Gx.ecount : F) ∧ 0 ≤ x ∧ x ≤ 1 ∧
      (x = 1 ↔ ∀ e ∈ Gx.edges, c[e.1]? = c[e.2]?) := by
  have hT0 : 0 < T := by have := ha.layers; omega
  have hN0 : 0 < Gi.vcount / T := by
    have h0 := accepted_count_pos ha hT0
    rcases hmodel with h | h
    · rw [(ha.temporal h).2.1 0 hT0] at h0; exact h0
    · rw [(ha.multiplex h).1 0 hT0] at h0; exact h0
  have hTc : ((T - 1 : Nat) : F) = (T : F) - 1 := by rw [Nat.cast_sub (by omega), Nat.cast_one]
  have hxe : ∀ e ∈ Gx.edges, e.1 < c.length ∧ e.2 < c.length := fun e he => by
    rw [hc, ← ha.sameSize]; exact hx.1 e he
  have hkept : insideCount Gx.edges c = keptEdges Gx c := by
    unfold insideCount keptEdges; rw [List.countP_eq_length_filter]
  have hle : keptEdges Gx c ≤ Gx.ecount := List.length_filter_le _ _
  have hpos : 0 < Gx.ecount := by
    rcases hmodel with h | h
    · rw [(ha.temporal h).2.2]
      exact Nat.mul_pos hN0 (by have := ha.layers; omega)
    · rw [(ha.multiplex h).2]
      exact Nat.mul_pos (Nat.mul_pos hN0 hT0) (by have := ha.layers; omega)
  have hposF : (0 : F) < Gx.ecount := by exact_mod_cast hpos
  have hfinal : ∀ x : F, x = (keptEdges Gx c : F) / (Gx.ecount : F) → x = (keptEdges Gx c : F) / (Gx.ecount : F) ∧
      0 ≤ x ∧ x ≤ 1 ∧ (x = 1 ↔ ∀ e ∈ Gx.edges, c[e.1]? = c[e.2]?) := by
    rintro x rfl
    refine ⟨rfl, by positivity, ?_, ?_⟩
    · rw [div_le_one hposF]; exact_mod_cast hle
    · rw [div_eq_one_iff_eq hposF.ne', Nat.cast_inj]
      unfold keptEdges Graph.ecount
      rw [List.length_filter_eq_length_iff]
      simp
  have d2 : ("multiplex" : String) ≠ "temporal" := by decide
  have d3 : ("multiplex" : String) ≠ "multilevel" := by decide
  rcases hmodel with rfl | rfl
  · refine ⟨_, (keptEdges Gx c : F) / (Gx.ecount : F), by unfold persistenceFunctionFromModel; rw [if_pos rfl], ?_,
      hfinal _ rfl⟩
    unfold ordinalPersistence insideEdges
    rw [internalEdgeCount_ok hxe, Py.ok_bind, hkept, ← hTc, ← Nat.cast_mul, ← (ha.temporal rfl).2.2]
    unfold pyDiv
    rw [if_neg hposF.ne']
  · refine ⟨_, (keptEdges Gx c : F) / (Gx.ecount : F),
      by unfold persistenceFunctionFromModel; rw [if_neg d2, if_neg d3, if_pos rfl], ?_, hfinal _ rfl⟩
    unfold categoricalPersistence insideEdges
    rw [internalEdgeCount_ok hxe, Py.ok_bind, hkept, ← hTc, ← Nat.cast_mul, ← Nat.cast_mul, ← (ha.multiplex rfl).2]
    unfold pyDiv
    rw [if_neg hposF.ne']

/-- Number of interlayer edges into layer `t` that stay in their community (specification). -/
def keptInto (Gx : Graph F) (layer c : List Nat) (t : Nat) : Nat :=
  (Gx.edges.filter fun e => decide (layer[e.2]? = some t ∧ c[e.1]? = c[e.2]?)).length

omit [IsStrictOrderedRing F] [LinearOrder F] [Field F] in
/-- At most one interlayer edge enters each vertex, so at most `count` edges enter a layer. -/
theorem into_le_count {Gx : Graph F} {layer : List Nat} (h : ∀ v < layer.length, inEdges Gx v ≤ 1)
    (hx : ∀ e ∈ Gx.edges, e.2 < layer.length) (t : Nat) :
    (Gx.edges.filter fun e => decide (layer[e.2]? = some t)).length ≤ layer.count t := by
  have hcount : layer.count t = ((List.range layer.length).filter fun v => decide (layer[v]? = some t)).length := by
    have hmap : layer.map some = (List.range layer.length).map fun i => layer[i]? := by
      apply List.ext_getElem?
      intro i
      rw [List.getElem?_map, List.getElem?_map]
      by_cases hi : i < layer.length
      · rw [List.getElem?_range hi, List.getElem?_eq_getElem hi]; simp
      · rw [List.getElem?_eq_none (by omega), List.getElem?_eq_none (by simp; omega)]; rfl
    have h1 : layer.count t = (layer.map some).count (some t) :=
      (List.count_map_of_injective layer some (Option.some_injective _) t).symm
    rw [h1, hmap, List.count, List.countP_map, List.countP_eq_length_filter]
    congr 1
    apply List.filter_congr
    intro v _
    simp [Function.comp, beq_eq_decide]
  rw [hcount, ← List.length_map (f := fun e : Nat × Nat => e.2)]
  apply List.Subperm.length_le
  apply List.Nodup.subperm
  · have hnd : (Gx.edges.map fun e => e.2).Nodup := by
      rw [List.nodup_iff_count_le_one]
      intro v
      by_cases hv : v < layer.length
      · refine le_trans (le_of_eq ?_) (h v hv)
        unfold inEdges
        rw [List.count, List.countP_map, List.countP_eq_length_filter]
        congr 1
      · rw [List.count_eq_zero_of_not_mem]
        · omega
        · intro hm
          obtain ⟨e, he, rfl⟩ := List.mem_map.mp hm
          exact hv (hx e he)
    exact hnd.sublist (List.Sublist.map _ List.filter_sublist)
  · intro v hv
    obtain ⟨e, he, rfl⟩ := List.mem_map.mp hv
    obtain ⟨h1, h2⟩ := List.mem_filter.mp he
    exact List.mem_filter.mpr ⟨List.mem_range.mpr (hx e h1), h2⟩

/-- **C31 (multilevel).** On an accepted multilevel graph the persistence of every membership is defined, is the sum over
the layers of (kept interlayer edges into the layer)/(vertices of the layer), divided by `T - 1`, and lies in
`[0, T/(T-1)]`; if some layer receives no interlayer edge it lies in `[0, 1]`. -/
theorem c31_multilevel_persistence {Gi Gx : Graph F} (hx : Gx.WF) {ws : List F} {layer : List Nat} {T : Nat}
    (ha : Accepted Gi Gx ws layer "multilevel" T) (hle : ∀ l ∈ layer, l < T) {c : List Nat} (hc : c.length = Gi.vcount)
    (N : Option Nat) :
    ∃ f x, persistenceFunctionFromModel "multilevel" Gx (some layer) N (some T)
        (some ((List.range T).map fun t => layer.count t)) = .ok f ∧
      f c = .ok x ∧
      x = (∑ t ∈ range T, (keptInto Gx layer c t : F) / (layer.count t : F)) / ((T : F) - 1) ∧
      0 ≤ x ∧ x ≤ (T : F) / ((T : F) - 1) ∧
      ((∃ t < T, ∀ e ∈ Gx.edges, layer[e.2]? ≠ some t) → x ≤ 1) := by
  have hT0 : 0 < T := by have := ha.layers; omega
  have hTF : (0 : F) < (T : F) - 1 := by
    have : (2 : F) ≤ T := by exact_mod_cast ha.layers
    linarith
  have hxe : ∀ e ∈ Gx.edges, e.1 < c.length ∧ e.2 < c.length := fun e he => by
    rw [hc, ← ha.sameSize]; exact hx.1 e he
  have hpos : ∀ t < T, (0 : F) < (layer.count t : Nat) := fun t ht => by exact_mod_cast accepted_count_pos ha ht
  have hq := multilevelPersistence_eq (F := F) hxe (by rw [ha.vector, hc]) hle (fun t ht => (hpos t ht).ne') hTF.ne'
  have d1 : ("multilevel" : String) ≠ "temporal" := by decide
  have hk : ∀ t, Gx.edges.countP (fun e => decide (layer[e.2]? = some t ∧ c[e.1]? = c[e.2]?)) = keptInto Gx layer c t :=
    fun t => by rw [List.countP_eq_length_filter]; rfl
  simp only [hk] at hq
  have hterm : ∀ t < T, (keptInto Gx layer c t : F) / (layer.count t : F) ≤ 1 := by
    intro t ht
    rw [div_le_one (hpos t ht)]
    have h1 : keptInto Gx layer c t ≤ (Gx.edges.filter fun e => decide (layer[e.2]? = some t)).length := by
      unfold keptInto
      rw [← List.countP_eq_length_filter, ← List.countP_eq_length_filter]
      apply List.countP_mono_left
      intro e _ h
      simp only [decide_eq_true_eq] at h ⊢
      exact h.1
    have h2 := into_le_count (Gx := Gx) (layer := layer) (by
      rw [ha.vector, ← ha.sameSize]; exact (ha.multilevel rfl).2) (fun e he => by
      rw [ha.vector, ← hc]; exact (hxe e he).2) t
    exact_mod_cast h1.trans h2
  have hterm0 : ∀ t, (0 : F) ≤ (keptInto Gx layer c t : F) / (layer.count t : F) := fun t => by positivity
  have hsum : ∑ t ∈ range T, (keptInto Gx layer c t : F) / (layer.count t : F) ≤ T := by
    calc _ ≤ ∑ _t ∈ range T, (1 : F) := Finset.sum_le_sum fun t ht => hterm t (mem_range.mp ht)
      _ = T := by simp
  refine ⟨_, _, by unfold persistenceFunctionFromModel; rw [if_neg d1, if_pos rfl], hq, rfl,
    div_nonneg (Finset.sum_nonneg fun t _ => hterm0 t) hTF.le, div_le_div_of_nonneg_right hsum hTF.le, ?_⟩
  rintro ⟨t, ht, hnone⟩
  rw [div_le_one hTF]
  have hz : keptInto Gx layer c t = 0 := by
    unfold keptInto
    rw [List.length_eq_zero_iff, List.filter_eq_nil_iff]
    intro e he
    simp only [decide_eq_true_eq]
    exact fun h => hnone e he h.1
  rw [← Finset.add_sum_erase _ _ (mem_range.mpr ht), hz]
  have : ∑ s ∈ (range T).erase t, (keptInto Gx layer c s : F) / (layer.count s : F) ≤
      ∑ _s ∈ (range T).erase t, (1 : F) :=
    Finset.sum_le_sum fun s hs => hterm s (mem_range.mp (Finset.mem_of_mem_erase hs))
  rw [Finset.sum_const, Finset.card_erase_of_mem (mem_range.mpr ht), Finset.card_range, nsmul_eq_mul, mul_one,
    Nat.cast_sub hT0, Nat.cast_one] at this
  simpa using this

example : Accepted gLayers gCopies [1, 1, 1, 1] [0, 0, 0, 1, 1, 1] "multilevel" 2 :=
  (c49_accepts_iff (ws := [1, 1, 1, 1]) ⟨by decide, by intro ws h; cases h; rfl⟩ gCopies "multilevel" rfl (T := 2)
    (by decide) (by decide)).1.mp ⟨(2, [2, 2], 3, [3, 3]), by decide +kernel⟩
example : multilevelPersistence gCopies [0, 0, 1, 0, 1, 1] [0, 0, 0, 1, 1, 1] [3, 3] 2 = .ok (2 / 3) := by decide +kernel
/-- A multilevel persistence above 1: interlayer edges in both directions. -/
example : multilevelPersistence (⟨4, true, [(0, 2), (1, 3), (2, 0), (3, 1)], none⟩ : Graph ℚ) [0, 0, 0, 0] [0, 0, 1, 1]
    [2, 2] 2 = .ok 2 := by decide +kernel

end Verif.Props
