import Mathlib.Data.Rat.Defs
import Mathlib.Algebra.Order.Ring.Rat
import Mathlib.Analysis.Complex.ExponentialBounds
import Verif.Proofs.Omega
import Verif.Spec.Multilayer

/-!
# Properties C24–C30, C32–C34: SBM parameter estimation
-/

set_option linter.unusedSectionVars false

namespace Verif.Props
open Verif Verif.Spec Finset

section Rational
variable {F : Type} [Field F] [LinearOrder F] [IsStrictOrderedRing F]

theorem unit_zip {G : Graph F} (hw : UnitWeights G) :
    ∃ ws, G.weight = some ws ∧ G.edges.zip ws = G.edges.map (fun e => (e, 1)) ∧ ws.sum = (G.ecount : F) :=
  ⟨_, hw, zip_replicate_one _, by simp [Graph.ecount]⟩

theorem contiguous_single {c : List Nat} (h : Contiguous c 1) : ∀ x ∈ c, ∀ y ∈ c, x = y := by
  intro x hx y hy
  have h1 := (h x).mp hx
  have h2 := (h y).mp hy
  omega

/-- **C24.** Unweighted undirected graph with an edge, labels `0..K-1`.  Let `A`, `P` be the CHAMP coefficients of the
partition and `m` the edge count.  Whenever `estimate_singlelayer_SBM_parameters` returns `(ω_in, ω_out)`:
`ω_in = A/P`, `ω_out = (2m - A)/(2m - P)` (`0` for one community), `P ω_in + (2m - P) ω_out = 2m`, and
`ω_in > 1` iff the modularity at `γ = 1` is positive iff (for more than one community) `ω_out < 1`. -/
theorem c24_sbm_matches_champ {G : Graph F} (hG : G.WF) (hd : G.directed = false) (he : 0 < G.ecount)
    (hw : UnitWeights G) {c : List Nat} (hc : c.length = G.vcount) {K : Nat} (hK : Contiguous c K)
    {ωin ωout : F} (hr : estimateSinglelayerSBM G c none = .ok (ωin, ωout)) :
    ∃ A P : F, partitionCoefficients2DSerial G [c] = .ok ([A], [.fin P]) ∧
      ωin = A / P ∧ ωout = (if 1 < K then (2 * G.ecount - A) / (2 * G.ecount - P) else 0) ∧
      P * ωin + (2 * G.ecount - P) * ωout = 2 * G.ecount ∧
      (1 < ωin ↔ 0 < modularity G 1 c) ∧ (1 < K → (ωout < 1 ↔ 0 < modularity G 1 c)) := by
  have hcoef := coefficients2D_ok (α := Nat) hG he (parts := [c]) (by simpa using hc)
  have hPpos := withinNull_pos (F := F) hG hd he hc
  have htot : (total G : F) = 2 * G.ecount := by rw [total_eq hG]; simp [hd]
  have hPle : withinNull G c ≤ 2 * (G.ecount : F) := htot ▸ withinNull_le G c
  have hmod : modularity G 1 c = withinAdj G c - withinNull G c := by rw [modularity_eq]; ring
  obtain ⟨ws, h1, h2, h3⟩ := unit_zip hw
  have hin : 2 * wInside (G.edges.map fun e => (e, (1 : F))) c = withinAdj G c := by
    rw [unit_wInside, withinAdj_undirected hG hd hc]
  have heq := estimateSinglelayerSBM_eq hG hc h1
  rw [h2, h3, unit_strengthSq hG hd hc, hin, partLen_contiguous hK, hr] at heq
  refine ⟨withinAdj G c, withinNull G c, hcoef, ?_⟩
  have h20 : (2 * (G.ecount : F)) ≠ 0 := by
    have : (0 : F) < G.ecount := by exact_mod_cast he
    positivity
  rw [if_neg h20, if_neg hPpos.ne'] at heq
  by_cases hK1 : 1 < K
  · rw [if_pos hK1] at heq
    split at heq
    · cases heq
    · rename_i hne
      injection heq with heq
      have e1 : ωin = _ := congrArg Prod.fst heq
      have e2 : ωout = _ := congrArg Prod.snd heq
      simp only at e1 e2
      have hlt : 0 < 2 * (G.ecount : F) - withinNull G c := lt_of_le_of_ne (by linarith) (Ne.symm hne)
      refine ⟨e1, by rw [if_pos hK1]; exact e2, ?_, ?_, fun _ => ?_⟩
      · rw [e1, e2]; field_simp; ring
      · rw [e1, hmod, one_lt_div hPpos]; constructor <;> intro h <;> linarith
      · rw [e2, hmod, div_lt_one hlt]; constructor <;> intro h <;> linarith
  · rw [if_neg hK1] at heq
    injection heq with heq
    have e1 : ωin = _ := congrArg Prod.fst heq
    have e2 : ωout = _ := congrArg Prod.snd heq
    simp only at e1 e2
    have hcst : ∀ i j, i < G.vcount → j < G.vcount → c[i]? = c[j]? := by
      intro i j hi hj
      have hi' : i < c.length := by omega
      have hj' : j < c.length := by omega
      have b1 := (hK _).mp (List.getElem_mem hi')
      have b2 := (hK _).mp (List.getElem_mem hj')
      rw [List.getElem?_eq_getElem hi', List.getElem?_eq_getElem hj']
      congr 1; omega
    have hA := withinAdj_all (F := F) hcst
    have hP := withinNull_all (F := F) hcst
    refine ⟨e1, by rw [if_neg hK1]; exact e2, ?_, ?_, fun h => absurd h hK1⟩
    · rw [e1, e2, hA, hP, htot]; field_simp; ring
    · rw [e1, hmod, one_lt_div hPpos]; constructor <;> intro h <;> linarith

/-- Two triangles joined by an edge. -/
def gBarbell : Graph ℚ :=
  ⟨6, false, [(0, 1), (1, 2), (0, 2), (3, 4), (4, 5), (3, 5), (2, 3)], some (List.replicate 7 1)⟩

theorem gBarbell_wf : gBarbell.WF := ⟨by decide, by intro ws h; cases h; rfl⟩

example : gBarbell.WF ∧ gBarbell.directed = false ∧ 0 < gBarbell.ecount ∧ UnitWeights gBarbell ∧
    Contiguous [0, 0, 0, 1, 1, 1] 2 :=
  ⟨gBarbell_wf, rfl, by decide, rfl, fun k => by simp; omega⟩
example : estimateSinglelayerSBM gBarbell [0, 0, 0, 1, 1, 1] none = .ok (12 / 7, 2 / 7) := by decide +kernel
example : partitionCoefficients2DSerial gBarbell [[0, 0, 0, 1, 1, 1]] = .ok ([12], [.fin 7]) := by decide +kernel

/-- **C24 (finding).** Directedness plays no role in the estimate: a directed graph gets the undirected estimate. -/
theorem c24_direction_ignored (G : Graph F) (c : List Nat) (m : Option F) (d : Bool) :
    estimateSinglelayerSBM { G with directed := d } c m = estimateSinglelayerSBM G c m := rfl

/-- **C25.** Positive weights, any membership of the vertices: the estimation raises `ZeroDivisionError` iff there is no
edge, or some label other than 0 is used (leidenalg then counts more than one community) and a single community contains
both ends of every edge; in every other case it returns. -/
theorem c25_zero_division {G : Graph F} (hG : G.WF) {ws : List F} (hw : G.weight = some ws) (hpos : ∀ w ∈ ws, 0 < w)
    {c : List Nat} (hc : c.length = G.vcount) :
    (estimateSinglelayerSBM G c none = .error .zeroDivisionError ↔
      G.edges = [] ∨ (∃ k ∈ c, k ≠ 0) ∧ ∃ r, ∀ e ∈ G.edges, c[e.1]? = some r ∧ c[e.2]? = some r) ∧
    (estimateSinglelayerSBM G c none ≠ .error .zeroDivisionError → ∃ r, estimateSinglelayerSBM G c none = .ok r) := by
  have hends : EndsIn (G.edges.zip ws) c.length := by
    intro e he
    rw [hc]
    exact hG.1 e.1 (List.of_mem_zip he).1
  have hlen := hG.2 ws hw
  have hzpos : ∀ e ∈ G.edges.zip ws, 0 < e.2 := fun e he => hpos _ (List.of_mem_zip he).2
  have hws : ws.sum = wTotal (G.edges.zip ws) := by
    unfold wTotal
    congr 1
    exact (List.map_snd_zip (by omega)).symm
  have hall : ∀ r : Nat, (∀ e ∈ G.edges.zip ws, c[e.1.1]? = some r ∧ c[e.1.2]? = some r) ↔
      ∀ e ∈ G.edges, c[e.1]? = some r ∧ c[e.2]? = some r := by
    intro r
    have hm : (G.edges.zip ws).map Prod.fst = G.edges := List.map_fst_zip (by omega)
    constructor
    · intro h e he
      rw [← hm] at he
      obtain ⟨x, hx, rfl⟩ := List.mem_map.mp he
      exact h x hx
    · intro h e he
      exact h e.1 (List.of_mem_zip he).1
  have hK : 1 < partLen c ↔ ∃ k ∈ c, k ≠ 0 := by
    constructor
    · intro h
      unfold partLen at h
      cases hM : c.max? with
      | none => rw [hM] at h; simp at h
      | some M =>
        have h' : 1 < M + 1 := by rw [hM] at h; exact h
        exact ⟨M, (List.max?_eq_some_iff.mp hM).1, by omega⟩
    · rintro ⟨k, hk, hk0⟩
      have := lt_partLen hk
      omega
  rw [estimateSinglelayerSBM_eq hG hc hw, hws]
  by_cases hE : G.edges = []
  · have : wTotal (G.edges.zip ws) = 0 := by rw [hE]; simp [wTotal]
    rw [this, if_pos (by ring)]
    simp [hE]
  · have hz : G.edges.zip ws ≠ [] := by
      intro h
      have := congrArg List.length h
      rw [List.length_zip, List.length_nil, hlen, min_self] at this
      exact hE (List.length_eq_zero_iff.mp this)
    have hT := wTotal_pos hzpos hz
    have hsum := sum_wStrength (F := F) hends le_rfl
    have h2 : (2 * wTotal (G.edges.zip ws)) ≠ 0 := by positivity
    obtain ⟨q1, q2⟩ := sum_sq_eq_sq_sum (F := F) (n := partLen c) (κ := wStrength (G.edges.zip ws) c)
      (fun r _ => wStrength_nonneg (fun e he => (hzpos e he).le) c r) (by rw [hsum]; positivity)
    rw [hsum] at q1 q2
    have hSpos : 0 < strengthSq (G.edges.zip ws) c := by
      unfold strengthSq
      by_contra hcon
      have hz0 : ∀ r ∈ range (partLen c), wStrength (G.edges.zip ws) c r ^ 2 = 0 := by
        rw [← Finset.sum_eq_zero_iff_of_nonneg (fun r _ => sq_nonneg _)]
        exact le_antisymm (not_lt.mp hcon) (Finset.sum_nonneg fun r _ => sq_nonneg _)
      have : ∑ r ∈ range (partLen c), wStrength (G.edges.zip ws) c r = 0 :=
        Finset.sum_eq_zero fun r hr => by simpa using hz0 r hr
      rw [hsum] at this; exact h2 this
    rw [if_neg h2, if_neg (div_pos hSpos (by positivity)).ne']
    have hden : 2 * wTotal (G.edges.zip ws) - strengthSq (G.edges.zip ws) c / (2 * wTotal (G.edges.zip ws)) = 0 ↔
        ∃ r, ∀ e ∈ G.edges, c[e.1]? = some r ∧ c[e.2]? = some r := by
      have h1 : 2 * wTotal (G.edges.zip ws) - strengthSq (G.edges.zip ws) c / (2 * wTotal (G.edges.zip ws)) = 0 ↔
          strengthSq (G.edges.zip ws) c = (2 * wTotal (G.edges.zip ws)) ^ 2 := by
        rw [sub_eq_zero, eq_div_iff h2, pow_two]; exact eq_comm
      rw [h1]
      unfold strengthSq
      rw [q2]
      constructor
      · rintro ⟨r, _, hr⟩
        exact ⟨r, (hall r).mp ((wStrength_le hzpos c r).2.mp hr)⟩
      · rintro ⟨r, hr⟩
        refine ⟨r, ?_, (wStrength_le hzpos c r).2.mpr ((hall r).mpr hr)⟩
        obtain ⟨e, he⟩ := List.exists_mem_of_ne_nil _ hE
        exact getElem?_lt_partLen (hr e he).1
    rw [← hden, ← hK]
    by_cases hk : 1 < partLen c
    · rw [if_pos hk]
      split
      · rename_i h; simp [h, hk]
      · rename_i h; simp [h, hE]
    · rw [if_neg hk]
      simp [hk, hE]

/-- **C25 (consequence).** No exception when every vertex has an edge and the labels are contiguous. -/
theorem c25_no_isolated_vertices {G : Graph F} (hG : G.WF) {ws : List F} (hw : G.weight = some ws)
    (hpos : ∀ w ∈ ws, 0 < w) {c : List Nat} (hc : c.length = G.vcount) {K : Nat} (hK : Contiguous c K)
    (hv : 0 < G.vcount) (hiso : ∀ v < G.vcount, ∃ e ∈ G.edges, e.1 = v ∨ e.2 = v) :
    ∃ r, estimateSinglelayerSBM G c none = .ok r := by
  obtain ⟨h1, h2⟩ := c25_zero_division hG hw hpos hc
  apply h2
  rw [ne_eq, h1]
  rintro (h | ⟨⟨k, hk, hk0⟩, r, hr⟩)
  · obtain ⟨e, he, _⟩ := hiso 0 hv
    rw [h] at he; simp at he
  · have hlab : ∀ x ∈ c, x = r := by
      intro x hx
      obtain ⟨v, hv', hvx⟩ := List.getElem_of_mem hx
      obtain ⟨e, he, hor⟩ := hiso v (by omega)
      obtain ⟨r1, r2⟩ := hr e he
      have hcv : c[v]? = some x := by rw [List.getElem?_eq_getElem hv', hvx]
      rcases hor with rfl | rfl
      · rw [hcv] at r1; injection r1
      · rw [hcv] at r2; injection r2
    have a1 := (hK k).mp hk
    have a0 := hlab 0 ((hK 0).mpr (by omega))
    have ak := hlab k hk
    omega

example : estimateSinglelayerSBM (⟨3, false, [(0, 1)], some [1]⟩ : Graph ℚ) [0, 0, 1] none =
    .error .zeroDivisionError := by decide +kernel
example : estimateSinglelayerSBM (⟨2, false, [], some []⟩ : Graph ℚ) [0, 1] none = .error .zeroDivisionError := by
  decide +kernel
example : ∀ v < gBarbell.vcount, ∃ e ∈ gBarbell.edges, e.1 = v ∨ e.2 = v := by decide

/-! ### C28 -/

theorem estimateMultilayerSBM_T (fsolve : (F → F) → F → F) (Gi Gx : Graph F) (layer c : List Nat) (model : String)
    {M : Nat} (h : layer.max? = some M) :
    estimateMultilayerSBM fsolve Gi Gx layer c model none none none none =
      estimateMultilayerSBM fsolve Gi Gx layer c model none (some (M + 1)) none none := by
  unfold estimateMultilayerSBM orCompute countLayers
  rw [h]

theorem contiguous_max {layer : List Nat} {T : Nat} (h : Contiguous layer T) (hT : 0 < T) :
    layer.max? = some (T - 1) := by
  rw [List.max?_eq_some_iff]
  refine ⟨(h _).mpr (by omega), ?_⟩
  intro b hb
  have := (h b).mp hb
  omega

/-- **C28.** Unweighted undirected intralayer graph without cross-layer edges, layers `0..T-1`, an edge in every layer,
labels `0..K-1`.  Whenever `estimate_multilayer_SBM_parameters` returns (whatever the model, interlayer graph and root
finder), `θ_in = A/P`, `θ_out = (2M - A)/(2M - P)` (`0` if `2M = P`) for the 3D CHAMP coefficients `A`, `P` and the edge
count `M`, and the reported community count is `K`. -/
theorem c28_multilayer_sbm_matches_champ (fsolve : (F → F) → F → F) {Gi Gx : Graph F} {layer : List Nat}
    (hm : Multilayer Gi Gx layer) (hd : Gi.directed = false) (hw : UnitWeights Gi) {T : Nat}
    (hT : Contiguous layer T) (hT0 : 0 < T) (hedge : ∀ t < T, ∃ e ∈ Gi.edges, layer[e.1]? = some t)
    {c : List Nat} (hc : c.length = Gi.vcount) {K : Nat} (hK : Contiguous c K) {model : String}
    {θin θout p : F} {K' : Nat}
    (hr : estimateMultilayerSBM fsolve Gi Gx layer c model none none none none = .ok (θin, θout, p, K')) :
    ∃ A P C : F, partitionCoefficients3DSerial Gi Gx layer [c] = .ok ([A], [.fin P], [C]) ∧
      θin = A / P ∧ θout = (if 2 * (Gi.ecount : F) = P then 0 else (2 * Gi.ecount - A) / (2 * Gi.ecount - P)) ∧
      K' = K := by
  have hx : ∀ e ∈ Gi.edges, layer[e.1]? = layer[e.2]? := hm.noCross.resolve_left (by simp [hd])
  have hbelow : LayersBelow layer T := fun l hl => (hT l).mp hl
  have hn : layer ≠ [] := by
    intro h
    have := (hT 0).mpr hT0
    rw [h] at this; simp at this
  have hcoef := coefficients3D_ok (α := Nat) hm.intra hm.inter hm.vcount hm.layers hn hm.noCross
    (fun t ht => hedge t ((hT t).mp ht)) (parts := [c]) (by simpa using hc)
  refine ⟨withinAdj Gi c, withinNullLayered Gi layer c, withinAdj Gx c, hcoef, ?_⟩
  obtain ⟨ws, h1, h2, h3⟩ := unit_zip hw
  rw [estimateMultilayerSBM_T _ _ _ _ _ _ (contiguous_max hT hT0), Nat.sub_add_cancel hT0,
    estimateMultilayerSBM_eq fsolve hm.intra hm.layers hc h1 model hbelow hT0, h2] at hr
  have hends : EndsIn (Gi.edges.map fun e => (e, (1 : F))) layer.length := by
    intro e he
    obtain ⟨e', he', rfl⟩ := List.mem_map.mp he
    rw [hm.layers]; exact hm.intra.1 e' he'
  have hS := unit_layered (F := F) hm.intra hd hbelow hm.layers hc hx
  have hI : ∑ t ∈ range T, 2 * layerMIn (Gi.edges.map fun e => (e, (1 : F))) layer c t = withinAdj Gi c := by
    unfold layerMIn
    rw [filter_noCross (by
      intro e he
      obtain ⟨e', he', rfl⟩ := List.mem_map.mp he
      exact hx e' he'), ← Finset.mul_sum]
    have : ∑ t ∈ range T, wInside (layerOf (Gi.edges.map fun e => (e, (1 : F))) layer t) c =
        wInside (Gi.edges.map fun e => (e, (1 : F))) c := sum_over_layers hbelow hends _
    rw [this, unit_wInside, withinAdj_undirected hm.intra hd hc]
  have hM : ∑ t ∈ range T, 2 * layerM (Gi.edges.map fun e => (e, (1 : F))) layer t = 2 * (Gi.ecount : F) := by
    rw [← Finset.mul_sum]
    have : ∑ t ∈ range T, layerM (Gi.edges.map fun e => (e, (1 : F))) layer t =
        wTotal (Gi.edges.map fun e => (e, (1 : F))) := sum_over_layers hbelow hends _
    rw [this, unit_wTotal]; rfl
  cases hth : thetas T (layerM (Gi.edges.map fun e => (e, (1 : F))) layer)
      (layerMIn (Gi.edges.map fun e => (e, (1 : F))) layer c)
      (layerSq (Gi.edges.map fun e => (e, (1 : F))) layer c) with
  | error e => rw [hth] at hr; cases hr
  | ok th =>
    obtain ⟨a, b⟩ := th
    rw [hth, Py.ok_bind] at hr
    have hab : θin = a ∧ θout = b ∧ K' = partLen c := by
      cases h4 : persistenceFunctionFromModel model Gx (some layer) (some (Gi.vcount / T)) (some T)
        (some ((List.range T).map fun t => layer.count t)) with
      | error e => rw [h4] at hr; cases hr
      | ok f =>
        simp only [h4, Py.ok_bind] at hr
        cases h5 : f c with
        | error e => rw [h5] at hr; cases hr
        | ok q =>
          rw [h5, Py.ok_bind] at hr
          injection hr with hr
          refine ⟨(congrArg (fun x => x.1) hr).symm, (congrArg (fun x => x.2.1) hr).symm,
            (congrArg (fun x => x.2.2.2) hr).symm⟩
    unfold thetas at hth
    rw [hS, hI, Finset.sum_sub_distrib, Finset.sum_sub_distrib, hS, hI, hM] at hth
    split at hth
    · cases hth
    · split at hth
      · cases hth
      · injection hth with hth
        rw [hab.1, hab.2.1, hab.2.2, partLen_contiguous hK]
        have e1 : a = _ := (congrArg Prod.fst hth).symm
        have e2 : b = _ := (congrArg Prod.snd hth).symm
        simp only at e1 e2
        refine ⟨e1, ?_, rfl⟩
        rw [e2]
        simp only [sub_eq_zero]

/-- **C28 (layers without edges).** If some layer below `T` has no edge leaving it, the estimation raises
`ZeroDivisionError`, for every model, membership and weights. -/
theorem c28_empty_layer (fsolve : (F → F) → F → F) {Gi Gx : Graph F} {layer : List Nat} (hG : Gi.WF)
    (hl : layer.length = Gi.vcount) {ws : List F} (hw : Gi.weight = some ws) {T : Nat} (hT : Contiguous layer T)
    {t : Nat} (ht : t < T) (hempty : ∀ e ∈ Gi.edges, layer[e.1]? ≠ some t) {c : List Nat}
    (hc : c.length = Gi.vcount) (model : String) :
    estimateMultilayerSBM fsolve Gi Gx layer c model none none none none = .error .zeroDivisionError := by
  have hT0 : 0 < T := by omega
  rw [estimateMultilayerSBM_T _ _ _ _ _ _ (contiguous_max hT hT0), Nat.sub_add_cancel hT0,
    estimateMultilayerSBM_eq fsolve hG hl hc hw model (fun l hl => (hT l).mp hl) hT0]
  unfold thetas
  rw [if_pos]
  · rfl
  · refine ⟨t, ht, ?_⟩
    unfold layerM layerOf
    have : ((Gi.edges.zip ws).filter fun e => decide (layer[e.1.1]? = some t)) = [] := by
      rw [List.filter_eq_nil_iff]
      intro e he
      simpa using hempty e.1 (List.of_mem_zip he).1
    rw [this]; simp [wTotal]

/-- Two layers of two edges each. -/
def gLayers : Graph ℚ := ⟨6, false, [(0, 1), (1, 2), (3, 4), (4, 5)], some [1, 1, 1, 1]⟩
/-- Directed copies from layer 0 to layer 1. -/
def gCopies : Graph ℚ := ⟨6, true, [(0, 3), (1, 4), (2, 5)], none⟩

example : Multilayer gLayers gCopies [0, 0, 0, 1, 1, 1] ∧ UnitWeights gLayers ∧ Contiguous [0, 0, 0, 1, 1, 1] 2 ∧
    ∀ t < 2, ∃ e ∈ gLayers.edges, [0, 0, 0, 1, 1, 1][e.1]? = some t :=
  ⟨⟨⟨by decide, by intro ws h; cases h; rfl⟩, ⟨by decide, by intro ws h; cases h⟩, rfl, rfl, Or.inr (by decide)⟩, rfl,
    fun k => by simp; omega, by decide⟩
example : estimateMultilayerSBM (fun _ x => x) gLayers gCopies [0, 0, 0, 1, 1, 1] [0, 0, 1, 0, 0, 1] "temporal" none none
    none none = .ok (4 / 5, 4 / 3, 1, 2) := by decide +kernel
example : partitionCoefficients3DSerial gLayers gCopies [0, 0, 0, 1, 1, 1] [[0, 0, 1, 0, 0, 1]] =
    .ok ([4], [.fin 5], [3]) := by decide +kernel

/-! ### C29 -/

/-- **C29.** Temporal/multilevel copying probability: always in `[0, 1]`; `1` iff the persistence is at least 1 or there
is at most one community; `0` iff there are several communities and the persistence is at most `1/K`; in between it
solves the planted-partition equation `persistence = p + (1 - p) / K` (a label is copied, or drawn uniformly). -/
theorem c29_copying_probability (K : Nat) (pers : F) :
    0 ≤ temporalP K pers ∧ temporalP K pers ≤ 1 ∧
    (temporalP K pers = 1 ↔ 1 ≤ pers ∨ K ≤ 1) ∧
    (temporalP K pers = 0 ↔ 1 < K ∧ pers ≤ 1 / (K : F)) ∧
    (1 < K → 1 / (K : F) ≤ pers → pers ≤ 1 → pers = temporalP K pers + (1 - temporalP K pers) / (K : F)) := by
  unfold temporalP
  by_cases h : pers < 1 ∧ 1 < K
  · rw [if_pos h]
    obtain ⟨hp, hK⟩ := h
    have hK' : (1 : F) < K := by exact_mod_cast hK
    have hd : (0 : F) < (K : F) - 1 := by linarith
    have hlt : ((K : F) * pers - 1) / ((K : F) - 1) < 1 := by
      rw [div_lt_one hd]
      have : (K : F) * pers < (K : F) * 1 := mul_lt_mul_of_pos_left hp (by linarith)
      linarith
    refine ⟨le_max_right _ _, max_le hlt.le zero_le_one, ?_, ?_, ?_⟩
    · constructor
      · intro h
        have := max_lt hlt (zero_lt_one (α := F))
        rw [h] at this; exact absurd this (lt_irrefl _)
      · rintro (h | h)
        · exact absurd hp (not_lt.mpr h)
        · omega
    · rw [max_eq_right_iff, div_le_iff₀ hd, zero_mul, le_div_iff₀ (by linarith)]
      constructor
      · intro h; exact ⟨hK, by linarith⟩
      · rintro ⟨_, h⟩; linarith
    · intro _ h0 _
      have hK0 : (0 : F) < K := by linarith
      rw [div_le_iff₀ hK0] at h0
      rw [max_eq_left (div_nonneg (by linarith) hd.le)]
      field_simp
      ring
  · rw [if_neg h]
    refine ⟨zero_le_one, le_rfl, ⟨fun _ => ?_, fun _ => rfl⟩, ⟨fun h => absurd h one_ne_zero, ?_⟩, fun hK _ h1 => ?_⟩
    · by_contra hcon
      push Not at hcon
      exact h ⟨hcon.1, hcon.2⟩
    · rintro ⟨hK, hp⟩
      exfalso
      apply h
      refine ⟨?_, hK⟩
      have hK' : (1 : F) < K := by exact_mod_cast hK
      have : 1 / (K : F) < 1 := by rw [div_lt_one (by linarith)]; exact hK'
      linarith
    · have : 1 ≤ pers := by by_contra hc; exact h ⟨not_le.mp hc, hK⟩
      rw [sub_self, zero_div, add_zero]; exact le_antisymm h1 this

/-- **C29 (at the estimator).** Whenever the multilayer estimation returns for a model other than multiplex, the returned
`p` lies in `[0, 1]`; so an "impossible estimate" can only come from the multiplex model. -/
theorem c29_estimate_in_unit_interval (fsolve : (F → F) → F → F) {Gi Gx : Graph F} {layer c : List Nat} {model : String}
    {N T : Option Nat} {Nt : Option (List Nat)} {mt : Option (List F)} {θin θout p : F} {K : Nat}
    (hmodel : model ≠ "multiplex")
    (hr : estimateMultilayerSBM fsolve Gi Gx layer c model N T Nt mt = .ok (θin, θout, p, K)) : 0 ≤ p ∧ p ≤ 1 := by
  have hex : ∃ pers, p = temporalP (partLen c) pers := by
    unfold estimateMultilayerSBM at hr
    simp only [hmodel, if_false] at hr
    iterate 15 obtain ⟨_, _, hr⟩ := Py.bind_ok' hr
    injection hr with hr; exact ⟨_, (congrArg (fun x => x.2.2.1) hr).symm⟩
  obtain ⟨pers, rfl⟩ := hex
  exact ⟨(c29_copying_probability _ pers).1, (c29_copying_probability _ pers).2.1⟩

example : temporalP 2 (3 / 4 : ℚ) = 1 / 2 ∧ temporalP 4 (1 / 5 : ℚ) = 0 ∧ temporalP 4 (1 : ℚ) = 1 := by decide +kernel

end Rational

/-! ### C26, C27 -/

open Real

/-- The logarithmic mean of two numbers (specification). -/
noncomputable def logMean (a b : ℝ) : ℝ := (a - b) / (log a - log b)

/-- **C27.** `gamma_estimate_from_parameters`: `None` iff a parameter is 0; NaN iff neither is 0 and they are equal or one
is negative; a real number exactly for positive unequal parameters, and then it is the logarithmic mean. -/
theorem c27_degenerate_estimates (a b : ℝ) :
    (gammaFromParameters a b = none ↔ a = 0 ∨ b = 0) ∧
    (gammaFromParameters a b = some .nan ↔ a ≠ 0 ∧ b ≠ 0 ∧ (a = b ∨ a < 0 ∨ b < 0)) ∧
    (∀ x, gammaFromParameters a b = some (.fin x) ↔ 0 < a ∧ 0 < b ∧ a ≠ b ∧ x = logMean a b) ∧
    gammaFromParameters a b ≠ some .pinf ∧ gammaFromParameters a b ≠ some .ninf := by
  unfold gammaFromParameters logMean
  by_cases h0 : a = 0 ∨ b = 0
  · rw [if_pos h0]
    refine ⟨by simp [h0], ?_, ?_, by simp, by simp⟩
    · constructor
      · intro h; cases h
      · rintro ⟨h1, h2, _⟩; rcases h0 with h | h <;> contradiction
    · intro x
      constructor
      · intro h; cases h
      · rintro ⟨h1, h2, _⟩
        rcases h0 with h | h <;> subst h <;> exact absurd ‹_› (lt_irrefl _)
  · rw [if_neg h0]
    push Not at h0
    obtain ⟨ha, hb⟩ := h0
    have key : some (Fl.div (.fin (a - b)) (Fl.sub (npLog a) (npLog b))) =
        if 0 < a ∧ 0 < b ∧ a ≠ b then some (Fl.fin ((a - b) / (log a - log b))) else some Fl.nan := by
      unfold npLog
      rcases lt_or_gt_of_ne ha with h1 | h1
      · have hn : ¬ (0 < a ∧ 0 < b ∧ a ≠ b) := by rintro ⟨h, _⟩; linarith
        rw [if_neg hn, if_neg (not_lt.mpr h1.le), if_neg ha]; rfl
      · rw [if_pos h1]
        rcases lt_or_gt_of_ne hb with h2 | h2
        · have hn : ¬ (0 < a ∧ 0 < b ∧ a ≠ b) := by rintro ⟨_, h, _⟩; linarith
          rw [if_neg hn, if_neg (not_lt.mpr h2.le), if_neg hb]; rfl
        · rw [if_pos h2]
          simp only [Fl.sub, Fl.add, Fl.div, npDiv, ← sub_eq_add_neg]
          by_cases hab : a = b
          · subst hab; simp
          · have hne : log a - log b ≠ 0 := fun h => hab ((log_sub_eq_zero h1 h2).mp h)
            rw [if_pos hne, if_pos ⟨h1, h2, hab⟩]
    rw [key]
    by_cases hgood : 0 < a ∧ 0 < b ∧ a ≠ b
    · rw [if_pos hgood]
      refine ⟨by simp [ha, hb], ?_, ?_, by simp, by simp⟩
      · simp only [Option.some.injEq, reduceCtorEq, false_iff]
        rintro ⟨_, _, h | h | h⟩
        · exact hgood.2.2 h
        · linarith [hgood.1]
        · linarith [hgood.2.1]
      · intro x
        simp only [Option.some.injEq, Fl.fin.injEq]
        exact ⟨fun h => ⟨hgood.1, hgood.2.1, hgood.2.2, h.symm⟩, fun h => h.2.2.2.symm⟩
    · rw [if_neg hgood]
      refine ⟨by simp [ha, hb], ?_, ?_, by simp, by simp⟩
      · simp only [true_iff]
        refine ⟨ha, hb, ?_⟩
        by_contra hcon
        push Not at hcon
        exact hgood ⟨lt_of_le_of_ne hcon.2.1 (Ne.symm ha), lt_of_le_of_ne hcon.2.2 (Ne.symm hb), hcon.1⟩
      · intro x
        simp only [Option.some.injEq, reduceCtorEq, false_iff]
        rintro ⟨h1, h2, h3, _⟩
        exact hgood ⟨h1, h2, h3⟩

example : gammaFromParameters 0 1 = none ∧ gammaFromParameters 2 2 = some .nan ∧
    gammaFromParameters 2 1 = some (.fin (logMean 2 1)) := by
  refine ⟨(c27_degenerate_estimates 0 1).1.mpr (Or.inl rfl), (c27_degenerate_estimates 2 2).2.1.mpr ?_,
    ((c27_degenerate_estimates 2 1).2.2.1 _).mpr ?_⟩ <;> norm_num

/-- **C26.** For positive unequal parameters the gamma estimate exists, is symmetric, lies strictly between the
parameters – more precisely strictly between their geometric and arithmetic means –, scales linearly and is strictly
increasing in each parameter. -/
theorem c26_logarithmic_mean {a b : ℝ} (ha : 0 < a) (hb : 0 < b) (hab : a ≠ b) :
    ∃ g, gammaFromParameters a b = some (.fin g) ∧ gammaFromParameters b a = some (.fin g) ∧
      min a b < g ∧ g < max a b ∧ sqrt (a * b) < g ∧ g < (a + b) / 2 ∧
      (∀ k : ℝ, 0 < k → gammaFromParameters (k * a) (k * b) = some (.fin (k * g))) ∧
      (∀ a', a < a' → a' ≠ b → ∃ g', gammaFromParameters a' b = some (.fin g') ∧ g < g') ∧
      (∀ b', b < b' → b' ≠ a → ∃ g', gammaFromParameters a b' = some (.fin g') ∧ g < g') := by
  have hfin : ∀ {x y : ℝ}, 0 < x → 0 < y → x ≠ y → gammaFromParameters x y = some (.fin (logMean x y)) :=
    fun hx hy hxy => ((c27_degenerate_estimates _ _).2.2.1 _).mpr ⟨hx, hy, hxy, rfl⟩
  have hsymm : ∀ x y : ℝ, logMean x y = logMean y x := fun x y => logMean_symm x y
  have hgeom : sqrt (a * b) < logMean a b ∧ logMean a b < (a + b) / 2 := by
    rcases lt_or_gt_of_ne hab with h | h
    · rw [hsymm, mul_comm, add_comm]
      exact ⟨geom_lt_logMean ha h, logMean_lt_arith ha h⟩
    · exact ⟨geom_lt_logMean hb h, logMean_lt_arith hb h⟩
  refine ⟨logMean a b, hfin ha hb hab, ?_, ?_, ?_, hgeom.1, hgeom.2, ?_, ?_, ?_⟩
  · rw [hsymm]; exact hfin hb ha hab.symm
  · refine lt_trans ?_ hgeom.1
    rcases lt_or_gt_of_ne hab with h | h
    · rw [min_eq_left h.le]
      exact (lt_sqrt ha.le).mpr (by rw [pow_two]; exact mul_lt_mul_of_pos_left h ha)
    · rw [min_eq_right h.le]
      exact (lt_sqrt hb.le).mpr (by rw [pow_two]; exact mul_lt_mul_of_pos_right h hb)
  · refine lt_trans hgeom.2 ?_
    rcases lt_or_gt_of_ne hab with h | h
    · rw [max_eq_right h.le]; linarith
    · rw [max_eq_left h.le]; linarith
  · intro k hk
    rw [hfin (mul_pos hk ha) (mul_pos hk hb) (fun h => hab (mul_left_cancel₀ hk.ne' h))]
    unfold logMean
    rw [log_mul hk.ne' ha.ne', log_mul hk.ne' hb.ne', ← mul_div_assoc]
    congr 2; congr 1 <;> ring
  · intro a' h h'
    exact ⟨_, hfin (ha.trans h) hb h', logMean_strictMono hb ha hab h' h⟩
  · intro b' h h'
    refine ⟨_, hfin ha (hb.trans h) h'.symm, ?_⟩
    rw [hsymm a b, hsymm a b']
    exact logMean_strictMono ha hb hab.symm h' h

example : (0 : ℝ) < 2 ∧ (0 : ℝ) < 1 ∧ (2 : ℝ) ≠ 1 := by norm_num

/-! ### C30 -/

/-- **C30.** For more than one community, more than one layer and persistence in `[1/K, 1)`: the multiplex equation has
exactly one non-negative root; it lies in `[0, 1)`; and a root finder that returns an exact non-negative root makes the
estimate that root.  If the persistence is below `1/K` no non-negative root exists and an exact root gives `p = 0`. -/
theorem c30_multiplex_probability {K T : Nat} (hK : 1 < K) (hT : 1 < T) (pers : ℝ) (fsolve : (ℝ → ℝ) → ℝ → ℝ) :
    (1 / (K : ℝ) ≤ pers → pers < 1 → ∃ x, (0 ≤ x ∧ x < 1 ∧ multiplexPoly K T pers x = 0) ∧
      (∀ y, 0 ≤ y → multiplexPoly K T pers y = 0 → y = x) ∧
      (0 ≤ fsolve (multiplexPoly K T pers) (1 / 2) →
        multiplexPoly K T pers (fsolve (multiplexPoly K T pers) (1 / 2)) = 0 → multiplexP fsolve K T pers = x)) ∧
    (pers < 1 / (K : ℝ) → (∀ y, 0 ≤ y → multiplexPoly K T pers y ≠ 0) ∧
      (multiplexPoly K T pers (fsolve (multiplexPoly K T pers) (1 / 2)) = 0 → multiplexP fsolve K T pers = 0)) ∧
    (1 ≤ pers → multiplexP fsolve K T pers = 1) := by
  refine ⟨?_, ?_, fun h => ?_⟩
  · intro h0 h1
    obtain ⟨x, ⟨hx0, hx⟩, huniq⟩ := multiplexPoly_root hK hT h0 h1
    have hx1 : x < 1 := by
      by_contra hcon
      have hmono := (multiplexPoly_strictMono hK hT pers).monotoneOn (Set.mem_Ici.mpr zero_le_one)
        (Set.mem_Ici.mpr hx0) (not_lt.mp hcon)
      rw [hx, multiplexPoly_one hT] at hmono
      linarith
    refine ⟨x, ⟨hx0, hx1, hx⟩, fun y hy hfy => huniq y ⟨hy, hfy⟩, fun hf0 hf => ?_⟩
    have hcond : pers < 1 ∧ 1 < K := ⟨h1, hK⟩
    unfold multiplexP
    simp only [hcond, and_self, if_true, not_lt.mpr hf0, if_false]
    exact huniq _ ⟨hf0, hf⟩
  · intro h
    have hno : ∀ y, 0 ≤ y → multiplexPoly K T pers y ≠ 0 := by
      intro y hy hfy
      have hmono := (multiplexPoly_strictMono hK hT pers).monotoneOn (Set.mem_Ici.mpr le_rfl) (Set.mem_Ici.mpr hy) hy
      rw [hfy, multiplexPoly_zero] at hmono
      linarith
    refine ⟨hno, fun hf => ?_⟩
    have hneg : fsolve (multiplexPoly K T pers) (1 / 2) < 0 := by
      by_contra hcon
      exact hno _ (not_lt.mp hcon) hf
    have hK' : (1 : ℝ) < K := by exact_mod_cast hK
    have : 1 / (K : ℝ) < 1 := by rw [div_lt_one (by linarith)]; exact hK'
    have hcond : pers < 1 ∧ 1 < K := ⟨by linarith, hK⟩
    unfold multiplexP
    simp only [hcond, and_self, if_true, hneg]
  · have hcond : ¬ (pers < 1 ∧ 1 < K) := fun hc => absurd hc.1 (not_lt.mpr h)
    unfold multiplexP
    simp only [hcond, if_false]
    norm_num

/-- **C30.** With at most one community the multiplex copying probability is 1, whatever the root finder does. -/
theorem c30_one_community {K : Nat} (hK : K ≤ 1) (T : Nat) (pers : ℝ) (fsolve : (ℝ → ℝ) → ℝ → ℝ) :
    multiplexP fsolve K T pers = 1 := by
  have hcond : ¬ (pers < 1 ∧ 1 < K) := fun hc => absurd hc.2 (not_lt.mpr hK)
  unfold multiplexP
  simp only [hcond, if_false]
  norm_num

example : multiplexPoly 2 2 (3 / 4 : ℚ) (1 / 2) = 0 := by decide +kernel

/-! ### C32 -/

/-- The coupling estimate for copying probability `p`, `K` communities and multiplicity `s` (specification): twice the
log-odds ratio form of the planted-partition model; `θ_out = 0` drops the second logarithm. -/
noncomputable def couplingFormula (s θin θout p : ℝ) (K : Nat) : ℝ :=
  log (1 + p * K / (1 - p)) / (s * (if θout = 0 then log θin else log θin - log θout))

/-- **C32 (temporal/multilevel).** `0` if `p = 0`; `omega_max` if `p ≥ 1`; otherwise `ValueError` exactly when some
logarithm's argument is not positive, `ZeroDivisionError` exactly when the denominator vanishes, and the formula in all
other cases. -/
theorem c32_temporal_omega (θin θout p : ℝ) (K : Nat) (ωmax : ℝ) :
    (p = 0 → temporalOmega θin θout p K ωmax = .ok 0) ∧
    (1 ≤ p → temporalOmega θin θout p K ωmax = .ok ωmax) ∧
    (p ≠ 0 → p < 1 → temporalOmega θin θout p K ωmax =
      if 1 + p * K / (1 - p) ≤ 0 ∨ θin ≤ 0 ∨ θout < 0 then .error (.valueError "math domain error")
      else if (θout = 0 ∧ θin = 1) ∨ θin = θout then .error .zeroDivisionError
      else .ok (couplingFormula 2 θin θout p K)) := by
  refine ⟨fun h => ?_, fun h => ?_, fun h0 h1 => ?_⟩
  · unfold temporalOmega; rw [if_pos h]
  · unfold temporalOmega
    rw [if_neg (by linarith), if_neg (not_lt.mpr h), if_neg (not_lt.mpr h)]
    split <;> rfl
  · unfold temporalOmega
    rw [if_neg h0, if_pos h1, if_pos h1, omega_core two_ne_zero]
    unfold couplingFormula
    by_cases ho : θout = 0 <;> simp [ho]

/-- **C32 (multiplex).** The same with `T` in place of 2, except that `θ_in = 1` also yields `omega_max`; with `T = 2` and
`θ_in ≠ 1` it agrees with the temporal estimate. -/
theorem c32_multiplex_omega (θin θout p : ℝ) (K T : Nat) (hT : 0 < T) (ωmax : ℝ) :
    (p = 0 → multiplexOmega θin θout p K T ωmax = .ok 0) ∧
    (p ≠ 0 → 1 ≤ p ∨ θin = 1 → multiplexOmega θin θout p K T ωmax = .ok ωmax) ∧
    (p ≠ 0 → p < 1 → θin ≠ 1 → multiplexOmega θin θout p K T ωmax =
      if 1 + p * K / (1 - p) ≤ 0 ∨ θin ≤ 0 ∨ θout < 0 then .error (.valueError "math domain error")
      else if θin = θout then .error .zeroDivisionError
      else .ok (couplingFormula T θin θout p K)) ∧
    (T = 2 → θin ≠ 1 → multiplexOmega θin θout p K T ωmax = temporalOmega θin θout p K ωmax) := by
  have hT' : (T : ℝ) ≠ 0 := by exact_mod_cast hT.ne'
  have h3 : p ≠ 0 → p < 1 → θin ≠ 1 → multiplexOmega θin θout p K T ωmax =
      if 1 + p * K / (1 - p) ≤ 0 ∨ θin ≤ 0 ∨ θout < 0 then .error (.valueError "math domain error")
      else if θin = θout then .error .zeroDivisionError
      else .ok (couplingFormula T θin θout p K) := by
    intro h0 h1 h2
    unfold multiplexOmega
    rw [if_neg h0, if_neg (by rintro (h | h); exacts [absurd h (not_le.mpr h1), h2 h]), omega_core hT']
    unfold couplingFormula
    by_cases ho : θout = 0 <;> simp [ho, h2]
  refine ⟨fun h => ?_, fun h0 h => ?_, h3, fun h2 hin => ?_⟩
  · unfold multiplexOmega; rw [if_pos h]
  · unfold multiplexOmega; rw [if_neg h0, if_pos h]
  · obtain ⟨t0, t1, t2⟩ := c32_temporal_omega θin θout p K ωmax
    by_cases hp0 : p = 0
    · rw [t0 hp0]; unfold multiplexOmega; rw [if_pos hp0]
    · by_cases hp1 : p < 1
      · rw [h3 hp0 hp1 hin, t2 hp0 hp1, h2]
        simp [hin]
      · rw [t1 (not_lt.mp hp1)]; unfold multiplexOmega
        rw [if_neg hp0, if_pos (Or.inl (not_lt.mp hp1))]

/-- **C32 (sign and monotonicity).** For `θ_in > θ_out > 0` and `0 < p < 1` with at least one community both estimates
exist and are positive; a larger `p` or more communities give a larger estimate. -/
theorem c32_omega_increasing {θin θout p p' : ℝ} {K K' T : Nat} (h0 : 0 < θout) (h1 : θout < θin) (hp0 : 0 < p)
    (hpp : p ≤ p') (hp1 : p' < 1) (hK : 0 < K) (hKK : K ≤ K') (hT : 0 < T) (hin : θin ≠ 1) (ωmax : ℝ) :
    ∃ w w', temporalOmega θin θout p K ωmax = .ok w ∧ temporalOmega θin θout p' K' ωmax = .ok w' ∧
      0 < w ∧ w ≤ w' ∧ ((p < p' ∨ K < K') → w < w') ∧
      multiplexOmega θin θout p K T ωmax = .ok (2 / T * w) ∧
      multiplexOmega θin θout p' K' T ωmax = .ok (2 / T * w') := by
  have hTpos : (0 : ℝ) < T := by exact_mod_cast hT
  have hin0 : 0 < θin := h0.trans h1
  have arg : ∀ {q : ℝ} {k : Nat}, 0 < q → q < 1 → 0 < k → 1 < 1 + q * k / (1 - q) := by
    intro q k hq0 hq1 hk
    have : (0 : ℝ) < k := by exact_mod_cast hk
    have : 0 < q * k / (1 - q) := div_pos (mul_pos hq0 this) (by linarith)
    linarith
  have val : ∀ {q : ℝ} {k : Nat}, 0 < q → q < 1 → 0 < k →
      temporalOmega θin θout q k ωmax = .ok (couplingFormula 2 θin θout q k) ∧
      multiplexOmega θin θout q k T ωmax = .ok (2 / T * couplingFormula 2 θin θout q k) := by
    intro q k hq0 hq1 hk
    have ha := arg hq0 hq1 hk
    have hn : ¬ (1 + q * k / (1 - q) ≤ 0 ∨ θin ≤ 0 ∨ θout < 0) := by
      rintro (h | h | h) <;> linarith
    constructor
    · rw [(c32_temporal_omega θin θout q k ωmax).2.2 hq0.ne' hq1, if_neg hn, if_neg]
      rintro (⟨h, _⟩ | h) <;> linarith
    · rw [(c32_multiplex_omega θin θout q k T hT ωmax).2.2.1 hq0.ne' hq1 hin, if_neg hn, if_neg h1.ne']
      unfold couplingFormula
      rw [if_neg h0.ne']
      congr 1
      have := logDiff_pos h0 h1
      field_simp
  have hp0' : 0 < p' := by linarith
  have hK' : 0 < K' := by omega
  obtain ⟨v1, v2⟩ := val hp0 (by linarith : p < 1) hK
  obtain ⟨v1', v2'⟩ := val hp0' hp1 hK'
  have hden : 0 < 2 * (log θin - log θout) := by have := logDiff_pos h0 h1; linarith
  have hKr : (0 : ℝ) < K := by exact_mod_cast hK
  have hKKr : (K : ℝ) ≤ K' := by exact_mod_cast hKK
  have hargs : 1 + p * K / (1 - p) ≤ 1 + p' * K' / (1 - p') := by
    have : p * K / (1 - p) ≤ p' * K' / (1 - p') :=
      div_le_div₀ (by positivity) (mul_le_mul hpp hKKr hKr.le hp0'.le) (by linarith) (by linarith)
    linarith
  have hargs' : (p < p' ∨ K < K') → 1 + p * K / (1 - p) < 1 + p' * K' / (1 - p') := by
    intro hor
    have hnum : p * K < p' * K' := by
      rcases hor with h | h
      · exact lt_of_lt_of_le (mul_lt_mul_of_pos_right h hKr) (mul_le_mul_of_nonneg_left hKKr hp0'.le)
      · have : (K : ℝ) < K' := by exact_mod_cast h
        exact lt_of_lt_of_le (mul_lt_mul_of_pos_left this hp0)
          (mul_le_mul_of_nonneg_right hpp (by linarith))
    have : p * K / (1 - p) < p' * K' / (1 - p') :=
      div_lt_div₀ hnum (by linarith) (by positivity) (by linarith)
    linarith
  have h1a := arg hp0 (by linarith : p < 1) hK
  refine ⟨_, _, v1, v1', ?_, ?_, fun hor => ?_, v2, v2'⟩
  · unfold couplingFormula; rw [if_neg h0.ne']
    exact div_pos (log_pos h1a) hden
  · unfold couplingFormula; rw [if_neg h0.ne']
    exact div_le_div_of_nonneg_right (log_le_log (by linarith) hargs) hden.le
  · unfold couplingFormula; rw [if_neg h0.ne']
    exact div_lt_div_of_pos_right (log_lt_log (by linarith) (hargs' hor)) hden

example : (0 : ℝ) < 1 / 2 ∧ (1 / 2 : ℝ) < 2 ∧ (0 : ℝ) < 1 / 4 ∧ (1 / 4 : ℝ) ≤ 1 / 2 ∧ (1 / 2 : ℝ) < 1 ∧ (2 : ℝ) ≠ 1 := by
  norm_num

/-! ### C33 -/

/-- **C33 (partial).** Full property: "the returned omega never exceeds `omega_max`".  It is false of the code
(`c33_not_bounded`); what holds: for `p = 0` and `p ≥ 1` the bound holds (for `omega_max ≥ 0`), and for `0 < p < 1`,
`θ_in > θ_out > 0` it holds exactly when `1 + pK/(1-p) ≤ (θ_in/θ_out)^(2 omega_max)`. -/
theorem c33_omega_max_partial {θin θout p : ℝ} {K : Nat} {ωmax : ℝ} (hmax : 0 ≤ ωmax) :
    ((p = 0 ∨ 1 ≤ p) → ∃ w, temporalOmega θin θout p K ωmax = .ok w ∧ w ≤ ωmax) ∧
    (0 < θout → θout < θin → 0 < p → p < 1 → 0 < K →
      ∃ w, temporalOmega θin θout p K ωmax = .ok w ∧
        (w ≤ ωmax ↔ 1 + p * K / (1 - p) ≤ (θin / θout) ^ (2 * ωmax))) := by
  obtain ⟨t0, t1, t2⟩ := c32_temporal_omega θin θout p K ωmax
  constructor
  · rintro (h | h)
    · exact ⟨0, t0 h, hmax⟩
    · exact ⟨ωmax, t1 h, le_rfl⟩
  · intro h0 h1 hp0 hp1 hK
    have hKr : (0 : ℝ) < K := by exact_mod_cast hK
    have hq : 0 < p * K / (1 - p) := div_pos (mul_pos hp0 hKr) (by linarith)
    have hin0 : 0 < θin := h0.trans h1
    refine ⟨couplingFormula 2 θin θout p K, ?_, ?_⟩
    · rw [t2 hp0.ne' hp1, if_neg, if_neg]
      · rintro (⟨h, _⟩ | h) <;> linarith
      · rintro (h | h | h) <;> linarith
    · unfold couplingFormula
      rw [if_neg h0.ne', div_le_iff₀ (by have := logDiff_pos h0 h1; linarith),
        ← log_div hin0.ne' h0.ne', ← log_le_log_iff (by linarith) (rpow_pos_of_pos (div_pos hin0 h0) _),
        log_rpow (div_pos hin0 h0)]
      constructor <;> intro h <;> linarith

/-- **C33 (finding).** The bound fails: with `θ_in = e^{1/1000}`, `θ_out = 1`, `p = 1/2`, 20 communities and the default
`omega_max = 1000` the temporal estimate exceeds 1000; likewise the multiplex estimate (two layers). -/
theorem c33_not_bounded :
    ∃ w, temporalOmega (exp (1 / 1000)) 1 (1 / 2) 20 defaultOmegaMax = .ok w ∧ defaultOmegaMax < w ∧
      multiplexOmega (exp (1 / 1000)) 1 (1 / 2) 20 2 defaultOmegaMax = .ok w := by
  have hgt : (1 : ℝ) < exp (1 / 1000) := by
    rw [show (1 : ℝ) = exp 0 by simp]; exact exp_lt_exp.mpr (by norm_num)
  have e1 : temporalOmega (exp (1 / 1000)) 1 (1 / 2) 20 defaultOmegaMax =
      .ok (couplingFormula 2 (exp (1 / 1000)) 1 (1 / 2) 20) := by
    rw [(c32_temporal_omega _ _ _ _ _).2.2 (by norm_num) (by norm_num), if_neg, if_neg]
    · rintro (⟨h, _⟩ | h) <;> linarith
    · rintro (h | h | h)
      · norm_num at h
      · linarith [exp_pos (1 / 1000 : ℝ)]
      · linarith
  refine ⟨_, e1, ?_, ?_⟩
  · unfold couplingFormula defaultOmegaMax
    rw [if_neg one_ne_zero, log_exp, log_one, lt_div_iff₀ (by norm_num)]
    have : (2 : ℝ) < log (1 + 1 / 2 * (20 : Nat) / (1 - 1 / 2)) := by
      rw [lt_log_iff_exp_lt (by norm_num)]
      have h1 : exp 2 = exp 1 * exp 1 := by rw [← exp_add]; norm_num
      have h2 : exp 1 < 3 := by have := exp_one_lt_d9; linarith
      have h3 := exp_pos (1 : ℝ)
      have : exp 1 * exp 1 < 3 * 3 := mul_lt_mul'' h2 h2 h3.le h3.le
      rw [h1]; norm_num; linarith
    linarith
  · rw [(c32_multiplex_omega _ _ _ _ _ two_pos _).2.2.2 rfl hgt.ne', e1]

/-! ### C34 -/

/-- **C34.** Both dispatchers accept exactly the model names temporal, multilevel and multiplex: the omega dispatcher
raises the documented `ValueError` for any other name and otherwise returns that model's formula; the persistence
dispatcher does the same and additionally raises `ValueError` exactly when a parameter the model needs is missing. -/
theorem c34_model_dispatch (model : String) (ωmax : ℝ) (T : Nat) :
    (model ≠ "temporal" → model ≠ "multilevel" → model ≠ "multiplex" →
      omegaFunctionFromModel model ωmax T = .error (.valueError (msgModel model)) ∧
      ∀ (Gx : Graph ℝ) (layer : Option (List Nat)) (N T : Option Nat) (Nt : Option (List Nat)),
        persistenceFunctionFromModel model Gx layer N T Nt = .error (.valueError (msgModel model))) ∧
    (model = "temporal" ∨ model = "multilevel" → ∃ f, omegaFunctionFromModel model ωmax T = .ok f ∧
      ∀ θin θout p K, f θin θout p K = temporalOmega θin θout p K ωmax) ∧
    (model = "multiplex" → ∃ f, omegaFunctionFromModel model ωmax T = .ok f ∧
      ∀ θin θout p K, f θin θout p K = multiplexOmega θin θout p K T ωmax) := by
  refine ⟨fun h1 h2 h3 => ⟨?_, ?_⟩, ?_, ?_⟩
  · unfold omegaFunctionFromModel
    rw [if_neg h3, if_neg (by rintro (h | h); exacts [h1 h, h2 h])]
  · intro Gx layer N T Nt
    unfold persistenceFunctionFromModel
    rw [if_neg h1, if_neg h2, if_neg h3]
  · rintro (rfl | rfl)
    · exact ⟨_, rfl, fun _ _ _ _ => rfl⟩
    · exact ⟨_, rfl, fun _ _ _ _ => rfl⟩
  · rintro rfl
    exact ⟨_, rfl, fun _ _ _ _ => rfl⟩

/-- **C34 (persistence).** For a known model the persistence dispatcher succeeds iff the parameters the model needs are
present, and then the function is that model's persistence. -/
theorem c34_persistence_dispatch (Gx : Graph ℝ) (layer : Option (List Nat)) (N T : Option Nat)
    (Nt : Option (List Nat)) (c : List Nat) :
    (∀ f, persistenceFunctionFromModel "temporal" Gx layer N T Nt = .ok f →
      ∃ n t, N = some n ∧ T = some t ∧ f c = ordinalPersistence Gx c n t) ∧
    (∀ f, persistenceFunctionFromModel "multilevel" Gx layer N T Nt = .ok f →
      ∃ l nt t, layer = some l ∧ Nt = some nt ∧ T = some t ∧ f c = multilevelPersistence Gx c l nt t) ∧
    (∀ f, persistenceFunctionFromModel "multiplex" Gx layer N T Nt = .ok f →
      ∃ n t, N = some n ∧ T = some t ∧ f c = categoricalPersistence Gx c n t) ∧
    ((∃ msg, persistenceFunctionFromModel "temporal" Gx layer N T Nt = .error (.valueError msg)) ↔
      N = none ∨ T = none) ∧
    ((∃ msg, persistenceFunctionFromModel "multilevel" Gx layer N T Nt = .error (.valueError msg)) ↔
      layer = none ∨ Nt = none ∨ T = none) ∧
    ((∃ msg, persistenceFunctionFromModel "multiplex" Gx layer N T Nt = .error (.valueError msg)) ↔
      N = none ∨ T = none) := by
  have d1 : ("multilevel" : String) ≠ "temporal" := by decide
  have d2 : ("multiplex" : String) ≠ "temporal" := by decide
  have d3 : ("multiplex" : String) ≠ "multilevel" := by decide
  unfold persistenceFunctionFromModel
  simp only [if_true, d1, d2, d3, if_false]
  refine ⟨?_, ?_, ?_, ?_, ?_, ?_⟩
  · intro f h
    cases N <;> cases T <;> simp at h
    subst h; exact ⟨_, _, rfl, rfl, rfl⟩
  · intro f h
    cases Nt <;> cases T <;> cases layer <;> simp at h
    subst h; exact ⟨_, _, _, rfl, rfl, rfl, rfl⟩
  · intro f h
    cases N <;> cases T <;> simp at h
    subst h; exact ⟨_, _, rfl, rfl, rfl⟩
  · cases N <;> cases T <;> simp
  · cases Nt <;> cases T <;> cases layer <;> simp
  · cases N <;> cases T <;> simp

end Verif.Props
