import Verif.Spec.Renumber
import Verif.Props.Window
import Verif.Props.FixedPoint
import Verif.Props.Explicit3D

/-!
# C79: results do not depend on the numbering of the vertices or the order of the edges
-/

set_option linter.unusedSectionVars false

namespace Verif.Props
open Verif Verif.Spec

variable {σ : Equiv.Perm Nat}

/-! ### Edge lists -/

namespace RE
variable {W : Type} {dir : Bool} {es es' : List ((Nat × Nat) × W)}

/-- a sum over the edges whose terms agree on corresponding edges -/
theorem sum_eq {M : Type} [AddCommMonoid M] (h : RenumberedEdges σ dir es es') (f f' : (Nat × Nat) × W → M)
    (h1 : ∀ e ∈ es, f' ((σ e.1.1, σ e.1.2), e.2) = f e)
    (h2 : dir = false → ∀ e ∈ es, f' ((σ e.1.2, σ e.1.1), e.2) = f e) :
    (es'.map f').sum = (es.map f).sum := by
  obtain ⟨l, hp, hf⟩ := h
  rw [(hp.map f').sum_eq]
  clear hp
  induction hf with
  | nil => rfl
  | @cons a b es l hab _ ih =>
    rw [List.map_cons, List.map_cons, List.sum_cons, List.sum_cons,
      ih (fun e he => h1 e (List.mem_cons_of_mem _ he)) (fun hd e he => h2 hd e (List.mem_cons_of_mem _ he))]
    congr 1
    obtain ⟨b1, b2⟩ := b
    obtain ⟨hw, hab | ⟨hd, hab⟩⟩ := hab
    · simp only at hw hab; subst hw; subst hab; exact h1 a (by simp)
    · simp only at hw hab; subst hw; subst hab; exact h2 hd a (by simp)

theorem length_eq (h : RenumberedEdges σ dir es es') : es'.length = es.length := by
  obtain ⟨l, hp, hf⟩ := h
  rw [hp.length_eq, hf.length_eq]

theorem map {V : Type} (f : W → V) (h : RenumberedEdges σ dir es es') :
    RenumberedEdges σ dir (es.map fun e => (e.1, f e.2)) (es'.map fun e => (e.1, f e.2)) := by
  obtain ⟨l, hp, hf⟩ := h
  refine ⟨l.map fun e => (e.1, f e.2), hp.map _, ?_⟩
  rw [List.forall₂_map_left_iff, List.forall₂_map_right_iff]
  exact hf.imp fun a b hab => ⟨by rw [hab.1], hab.2⟩

theorem filter (h : RenumberedEdges σ dir es es') (f f' : (Nat × Nat) × W → Bool)
    (h1 : ∀ e ∈ es, f' ((σ e.1.1, σ e.1.2), e.2) = f e)
    (h2 : dir = false → ∀ e ∈ es, f' ((σ e.1.2, σ e.1.1), e.2) = f e) :
    RenumberedEdges σ dir (es.filter f) (es'.filter f') := by
  obtain ⟨l, hp, hf⟩ := h
  refine ⟨l.filter f', hp.filter _, ?_⟩
  clear hp
  induction hf with
  | nil => exact List.Forall₂.nil
  | @cons a b es l hab _ ih =>
    have ih := ih (fun e he => h1 e (List.mem_cons_of_mem _ he)) (fun hd e he => h2 hd e (List.mem_cons_of_mem _ he))
    have hb : f' b = f a := by
      obtain ⟨b1, b2⟩ := b
      obtain ⟨hw, hab | ⟨hd, hab⟩⟩ := hab
      · simp only at hw hab; subst hw; subst hab; exact h1 a (by simp)
      · simp only at hw hab; subst hw; subst hab; exact h2 hd a (by simp)
    rw [List.filter_cons, List.filter_cons, hb]
    cases f a with
    | true => exact List.Forall₂.cons hab ih
    | false => exact ih

theorem mem (h : RenumberedEdges σ dir es es') {e' : (Nat × Nat) × W} (he : e' ∈ es') :
    ∃ e ∈ es, e'.2 = e.2 ∧ (e'.1 = (σ e.1.1, σ e.1.2) ∨ dir = false ∧ e'.1 = (σ e.1.2, σ e.1.1)) := by
  obtain ⟨l, hp, hf⟩ := h
  have he : e' ∈ l := hp.mem_iff.mp he
  clear hp
  induction hf with
  | nil => simp at he
  | @cons a b es l hab _ ih =>
    rcases List.mem_cons.mp he with rfl | he
    · exact ⟨a, by simp, hab⟩
    · obtain ⟨e, h1, h2⟩ := ih he
      exact ⟨e, List.mem_cons_of_mem _ h1, h2⟩

/-- read the other way round -/
theorem symm (h : RenumberedEdges σ dir es es') : RenumberedEdges σ.symm dir es' es := by
  obtain ⟨l, hp, hf⟩ := h
  have hf' : List.Forall₂ (fun e e' => e'.2 = e.2 ∧
      (e'.1 = (σ.symm e.1.1, σ.symm e.1.2) ∨ dir = false ∧ e'.1 = (σ.symm e.1.2, σ.symm e.1.1))) l es := by
    refine (List.Forall₂.flip hf).imp ?_
    rintro ⟨b1, b2⟩ ⟨⟨a1, a2⟩, a3⟩ ⟨hw, hab | ⟨hd, hab⟩⟩
    · simp only at hw hab; subst hw; subst hab; simp
    · simp only at hw hab; subst hw; subst hab; simp [hd]
  obtain ⟨l', h1, h2⟩ := List.perm_comp_forall₂ hp hf'
  exact ⟨l', h2.symm, h1⟩

end RE

/-! ### Graphs -/

section
variable {F : Type} {G G' : Graph F}

theorem edgeData_edges (hG : G.WF) : (edgeData G).map (fun e => (e.1, ())) = G.edges.map fun e => (e, ()) := by
  unfold edgeData
  split
  · simp
  · rename_i ws hw
    have := hG.2 ws hw
    rw [List.map_map]
    have e : (G.edges.zip ws).map ((fun e : (Nat × Nat) × Option F => (e.1, ())) ∘ fun e => (e.1, some e.2)) =
        ((G.edges.zip ws).map Prod.fst).map fun e => (e, ()) := by rw [List.map_map]; rfl
    rw [e, List.map_fst_zip (by omega)]

/-- the edges without their weights -/
theorem _root_.Verif.Spec.Renumbered.plain (h : Renumbered σ G G') (hG : G.WF) (hG' : G'.WF) :
    RenumberedEdges σ G.directed (G.edges.map fun e => (e, ())) (G'.edges.map fun e => (e, ())) := by
  rw [← edgeData_edges hG, ← edgeData_edges hG']
  exact RE.map (fun _ => ()) h.edges

theorem _root_.Verif.Spec.Renumbered.zip [Zero F] (h : Renumbered σ G G') {ws : List F} (hw : G.weight = some ws) :
    ∃ ws', G'.weight = some ws' ∧ RenumberedEdges σ G.directed (G.edges.zip ws) (G'.edges.zip ws') := by
  have hs := h.weighted
  rw [hw] at hs
  obtain ⟨ws', hw'⟩ := Option.isSome_iff_exists.mp hs
  refine ⟨ws', hw', ?_⟩
  have := RE.map (fun o => o.getD 0) h.edges
  unfold edgeData at this
  rw [hw, hw'] at this
  simpa [Function.comp_def] using this

theorem _root_.Verif.Spec.Renumbered.symm (h : Renumbered σ G G') : Renumbered σ.symm G' G :=
  ⟨fun v => by rw [h.vcount, ← h.vertices (σ.symm v)]; simp, h.vcount.symm, h.directed.symm, h.weighted.symm,
    h.directed ▸ RE.symm h.edges⟩

theorem _root_.Verif.Spec.Moved.symm {α : Type} {p p' : List α} (h : Moved σ p p') : Moved σ.symm p' p :=
  ⟨h.1.symm, fun v => by rw [← h.2]; simp⟩

theorem _root_.Verif.Spec.Moved.mem {α : Type} {p p' : List α} (h : Moved σ p p') (x : α) : x ∈ p' ↔ x ∈ p := by
  rw [List.mem_iff_getElem?, List.mem_iff_getElem?]
  constructor
  · rintro ⟨i, hi⟩
    exact ⟨σ.symm i, by rw [← h.2]; simpa using hi⟩
  · rintro ⟨i, hi⟩
    exact ⟨σ i, by rw [h.2]; exact hi⟩

/-- sums over all vertices -/
theorem sum_renumber {M : Type} [AddCommMonoid M] {n : Nat} (hσ : ∀ v, σ v < n ↔ v < n) (f : Nat → M) :
    ∑ v ∈ Finset.range n, f v = ∑ v ∈ Finset.range n, f (σ v) :=
  (Finset.sum_equiv σ (fun v => by simp [hσ]) (fun _ _ => rfl)).symm

theorem count_eq_sum {α : Type} [DecidableEq α] (p : List α) (x : α) :
    p.count x = ∑ v ∈ Finset.range p.length, if p[v]? = some x then 1 else 0 := by
  induction p with
  | nil => simp
  | cons a p ih =>
    rw [List.count_cons, List.length_cons, Finset.sum_range_succ', ih]
    simp [beq_iff_eq]

theorem _root_.Verif.Spec.Moved.perm {α : Type} [DecidableEq α] {p p' : List α} (h : Moved σ p p') : p'.Perm p := by
  rw [List.perm_iff_count]
  intro x
  have hσ : ∀ v, σ v < p.length ↔ v < p.length := by
    intro v
    have := h.2 v
    have e : p'[σ v]? = none ↔ p[v]? = none := by rw [this]
    rw [List.getElem?_eq_none_iff, List.getElem?_eq_none_iff, h.1] at e
    omega
  rw [count_eq_sum, count_eq_sum, h.1, sum_renumber hσ]
  simp only [h.2]

theorem _root_.Verif.Spec.Moved.partLen {c c' : List Nat} (h : Moved σ c c') : partLen c' = partLen c := by
  unfold Verif.partLen
  have e : c'.max? = c.max? := by
    cases hM : c.max? with
    | none =>
      rw [List.max?_eq_none_iff] at hM ⊢
      have := h.1
      rw [hM] at this
      exact List.length_eq_zero_iff.mp this
    | some M =>
      rw [List.max?_eq_some_iff] at hM ⊢
      exact ⟨(h.mem M).mpr hM.1, fun b hb => hM.2 b ((h.mem b).mp hb)⟩
  rw [e]

theorem _root_.Verif.Spec.Moved.max? {c c' : List Nat} (h : Moved σ c c') : c'.max? = c.max? := by
  cases hM : c.max? with
  | none =>
    rw [List.max?_eq_none_iff] at hM ⊢
    have := h.1
    rw [hM] at this
    exact List.length_eq_zero_iff.mp this
  | some M =>
    rw [List.max?_eq_some_iff] at hM ⊢
    exact ⟨(h.mem M).mpr hM.1, fun b hb => hM.2 b ((h.mem b).mp hb)⟩

theorem _root_.Verif.Spec.Moved.same {α β : Type} {p p' : List α} {q q' : List β} (hp : Moved σ p p') (hq : Moved σ q q')
    (h : SamePartition p q) : SamePartition p' q' := by
  refine ⟨by rw [hp.1, hq.1, h.1], fun i j hi hj => ?_⟩
  have ei : p'[i]? = p[σ.symm i]? := by rw [← hp.2]; simp
  have ej : p'[j]? = p[σ.symm j]? := by rw [← hp.2]; simp
  have fi : q'[i]? = q[σ.symm i]? := by rw [← hq.2]; simp
  have fj : q'[j]? = q[σ.symm j]? := by rw [← hq.2]; simp
  have lt : ∀ i, i < p'.length → σ.symm i < p.length := by
    intro i hi
    by_contra hn
    have e : p'[i]? = p[σ.symm i]? := by rw [← hp.2]; simp
    rw [List.getElem?_eq_none (by omega : p.length ≤ σ.symm i), List.getElem?_eq_none_iff] at e
    omega
  rw [ei, ej, fi, fj]
  exact h.2 _ _ (lt i hi) (lt j hj)

/-- the renumbered membership -/
theorem exists_moved {α : Type} {n : Nat} (hσ : ∀ v, σ v < n ↔ v < n) (p : List α) (hp : p.length = n) :
    ∃ p', Moved σ p p' := by
  have hs : ∀ i : Fin n, σ.symm i < p.length := by
    intro i
    rw [hp, ← hσ (σ.symm i)]
    simpa using i.2
  refine ⟨List.ofFn fun i : Fin n => p[σ.symm i]'(hs i), by simp [hp], fun v => ?_⟩
  by_cases hv : v < n
  · rw [List.getElem?_ofFn, dif_pos ((hσ v).mpr hv)]
    simp [List.getElem?_eq_getElem (hp ▸ hv)]
  · rw [List.getElem?_ofFn, dif_neg (by rw [hσ]; exact hv), List.getElem?_eq_none (by omega)]

end

/-! ### Modularity -/

section
variable {F : Type} [Field F] {G G' : Graph F} {α : Type} [DecidableEq α]

theorem edges_sum {M : Type} [AddCommMonoid M] (h : Renumbered σ G G') (hG : G.WF) (hG' : G'.WF) (f f' : Nat × Nat → M)
    (h1 : ∀ e ∈ G.edges, f' (σ e.1, σ e.2) = f e)
    (h2 : G.directed = false → ∀ e ∈ G.edges, f' (σ e.2, σ e.1) = f e) :
    (G'.edges.map f').sum = (G.edges.map f).sum := by
  have := RE.sum_eq (h.plain hG hG') (fun e => f e.1) (fun e => f' e.1) (fun e he => by
      obtain ⟨a, ha, rfl⟩ := List.mem_map.mp he; exact h1 a ha) (fun hd e he => by
      obtain ⟨a, ha, rfl⟩ := List.mem_map.mp he; exact h2 hd a ha)
  simpa [Function.comp_def] using this

theorem count_as_sum (l : List (Nat × Nat)) (a : Nat × Nat) : l.count a = (l.map fun e => if e = a then 1 else 0).sum := by
  induction l with
  | nil => rfl
  | cons b l ih => rw [List.count_cons, List.map_cons, List.sum_cons, ih, Nat.add_comm]; simp

theorem adj_renumber (h : Renumbered σ G G') (hG : G.WF) (hG' : G'.WF) (i j : Nat) : adj G' (σ i) (σ j) = adj G i j := by
  unfold adj
  rw [h.directed]
  split
  · rename_i hd
    rw [count_as_sum, count_as_sum]
    refine edges_sum h hG hG' _ _ (fun e _ => by simp [Prod.ext_iff]) (fun hf => by rw [hf] at hd; cases hd)
  · rw [count_as_sum, count_as_sum, count_as_sum, count_as_sum, ← List.sum_map_add, ← List.sum_map_add]
    refine edges_sum h hG hG' _ _ (fun e _ => by simp [Prod.ext_iff]) (fun _ e _ => ?_)
    simp only [Prod.ext_iff, EmbeddingLike.apply_eq_iff_eq]
    rw [Nat.add_comm]
    simp only [and_comm]

theorem rowSum_renumber (h : Renumbered σ G G') (hG : G.WF) (hG' : G'.WF) (i : Nat) : rowSum G' (σ i) = rowSum G i := by
  unfold rowSum
  rw [h.vcount, sum_renumber h.vertices]
  exact Finset.sum_congr rfl fun j _ => adj_renumber h hG hG' i j

theorem colSum_renumber (h : Renumbered σ G G') (hG : G.WF) (hG' : G'.WF) (i : Nat) : colSum G' (σ i) = colSum G i := by
  unfold colSum
  rw [h.vcount, sum_renumber h.vertices]
  exact Finset.sum_congr rfl fun j _ => adj_renumber h hG hG' j i

theorem total_renumber (h : Renumbered σ G G') (hG : G.WF) (hG' : G'.WF) : total G' = total G := by
  show ∑ i ∈ Finset.range G'.vcount, rowSum G' i = ∑ i ∈ Finset.range G.vcount, rowSum G i
  rw [h.vcount, sum_renumber h.vertices]
  exact Finset.sum_congr rfl fun j _ => rowSum_renumber h hG hG' j

theorem withinAdj_renumber (h : Renumbered σ G G') (hG : G.WF) (hG' : G'.WF) {p p' : List α} (hp : Moved σ p p') :
    withinAdj G' p' = withinAdj G p := by
  unfold withinAdj
  rw [h.vcount, sum_renumber h.vertices]
  refine Finset.sum_congr rfl fun i _ => ?_
  rw [sum_renumber h.vertices]
  refine Finset.sum_congr rfl fun j _ => ?_
  rw [hp.2, hp.2, adj_renumber h hG hG']

theorem withinNull_renumber (h : Renumbered σ G G') (hG : G.WF) (hG' : G'.WF) {p p' : List α} (hp : Moved σ p p') :
    withinNull G' p' = withinNull G p := by
  unfold withinNull
  rw [h.vcount, sum_renumber h.vertices]
  refine Finset.sum_congr rfl fun i _ => ?_
  rw [sum_renumber h.vertices]
  refine Finset.sum_congr rfl fun j _ => ?_
  rw [hp.2, hp.2, colSum_renumber h hG hG', rowSum_renumber h hG hG', total_renumber h hG hG']

/-- modularity of the renumbered partition -/
theorem modularity_renumber (h : Renumbered σ G G') (hG : G.WF) (hG' : G'.WF) {p p' : List α} (hp : Moved σ p p') (γ : F) :
    modularity G' γ p' = modularity G γ p := by
  unfold modularity
  rw [h.vcount, sum_renumber h.vertices]
  refine Finset.sum_congr rfl fun i _ => ?_
  rw [sum_renumber h.vertices]
  refine Finset.sum_congr rfl fun j _ => ?_
  rw [hp.2, hp.2, adj_renumber h hG hG', colSum_renumber h hG hG', rowSum_renumber h hG hG', total_renumber h hG hG']

theorem layerTotal_renumber (h : Renumbered σ G G') (hG : G.WF) (hG' : G'.WF) {l l' : List Nat} (hl : Moved σ l l') (t : Nat) :
    layerTotal G' l' t = layerTotal G l t := by
  unfold layerTotal
  rw [h.vcount, sum_renumber h.vertices]
  refine Finset.sum_congr rfl fun i _ => ?_
  rw [sum_renumber h.vertices]
  refine Finset.sum_congr rfl fun j _ => ?_
  rw [hl.2, adj_renumber h hG hG']

theorem withinNullLayered_renumber (h : Renumbered σ G G') (hG : G.WF) (hG' : G'.WF) {p p' : List α} (hp : Moved σ p p')
    {l l' : List Nat} (hl : Moved σ l l') : withinNullLayered G' l' p' = withinNullLayered G l p := by
  unfold withinNullLayered
  rw [h.vcount, sum_renumber h.vertices]
  refine Finset.sum_congr rfl fun i _ => ?_
  rw [sum_renumber h.vertices]
  refine Finset.sum_congr rfl fun j _ => ?_
  rw [hp.2, hp.2, hl.2, hl.2, colSum_renumber h hG hG', rowSum_renumber h hG hG', layerTotal_renumber h hG hG' hl]

theorem multilayerModularity_renumber {Gi Gi' Gx Gx' : Graph F} (hi : Renumbered σ Gi Gi') (hx : Renumbered σ Gx Gx')
    (hGi : Gi.WF) (hGi' : Gi'.WF) (hGx : Gx.WF) (hGx' : Gx'.WF) {p p' : List α} (hp : Moved σ p p') {l l' : List Nat}
    (hl : Moved σ l l') (γ ω : F) :
    multilayerModularity Gi' Gx' l' γ ω p' = multilayerModularity Gi Gx l γ ω p := by
  unfold multilayerModularity
  rw [withinAdj_renumber hi hGi hGi' hp, withinNullLayered_renumber hi hGi hGi' hp hl, withinAdj_renumber hx hGx hGx' hp]

end

/-! ### Estimates -/

section
variable {F : Type} [Field F] [LinearOrder F] [IsStrictOrderedRing F] {dir : Bool} {es es' : List ((Nat × Nat) × F)} {c c' : List Nat}

theorem wTotal_renumber (h : RenumberedEdges σ dir es es') : wTotal es' = wTotal es := by
  unfold wTotal
  exact RE.sum_eq h _ _ (fun _ _ => rfl) (fun _ _ _ => rfl)

theorem wInside_renumber (h : RenumberedEdges σ dir es es') (hc : Moved σ c c') : wInside es' c' = wInside es c := by
  unfold wInside
  refine RE.sum_eq h _ _ (fun e _ => ?_) (fun _ e _ => ?_)
  · simp only [hc.2]
  · simp only [hc.2, eq_comm]

theorem wStrength_renumber (h : RenumberedEdges σ dir es es') (hc : Moved σ c c') (r : Nat) :
    wStrength es' c' r = wStrength es c r := by
  unfold wStrength
  refine RE.sum_eq h _ _ (fun e _ => ?_) (fun _ e _ => ?_)
  · simp only [hc.2]
  · simp only [hc.2]; rw [add_comm]

theorem strengthSq_renumber (h : RenumberedEdges σ dir es es') (hc : Moved σ c c') : strengthSq es' c' = strengthSq es c := by
  unfold strengthSq
  rw [hc.partLen]
  exact Finset.sum_congr rfl fun r _ => by rw [wStrength_renumber h hc]

theorem zip_sum {G : Graph F} {ws : List F} (hG : G.WF) (hw : G.weight = some ws) : wTotal (G.edges.zip ws) = ws.sum := by
  unfold wTotal
  congr 1
  exact List.map_snd_zip (by rw [hG.2 ws hw])

/-- `estimate_singlelayer_SBM_parameters` on the renumbered graph -/
theorem estimateSinglelayerSBM_renumber {G G' : Graph F} (h : Renumbered σ G G') (hG : G.WF) (hG' : G'.WF)
    (hcl : c.length = G.vcount) (hc : Moved σ c c') :
    estimateSinglelayerSBM G' c' none = estimateSinglelayerSBM G c none := by
  cases hw : G.weight with
  | none =>
    have hw' : G'.weight = none := by
      have := h.weighted
      rw [hw] at this
      simpa using this
    rw [estimateSinglelayerSBM_none hw, estimateSinglelayerSBM_none hw']
  | some ws =>
    obtain ⟨ws', hw', hz⟩ := h.zip hw
    rw [estimateSinglelayerSBM_eq hG hcl hw, estimateSinglelayerSBM_eq hG' (hc.1.trans (hcl.trans h.vcount.symm)) hw',
      ← zip_sum hG hw, ← zip_sum hG' hw', wTotal_renumber hz, wInside_renumber hz hc, strengthSq_renumber hz hc, hc.partLen]


variable {l l' : List Nat}

theorem layerOf_renumber (h : RenumberedEdges σ dir es es') (hl : Moved σ l l')
    (hx : dir = true ∨ ∀ e ∈ es, l[e.1.1]? = l[e.1.2]?) (t : Nat) :
    RenumberedEdges σ dir (layerOf es l t) (layerOf es' l' t) := by
  unfold layerOf
  refine RE.filter h _ _ (fun e _ => by simp only [hl.2]) (fun hd e he => ?_)
  rcases hx with hx | hx
  · rw [hd] at hx; cases hx
  · simp only [hl.2, hx e he]

theorem layerM_renumber (h : RenumberedEdges σ dir es es') (hl : Moved σ l l')
    (hx : dir = true ∨ ∀ e ∈ es, l[e.1.1]? = l[e.1.2]?) : layerM es' l' = layerM es l :=
  funext fun t => wTotal_renumber (layerOf_renumber h hl hx t)

theorem layerSq_renumber (h : RenumberedEdges σ dir es es') (hl : Moved σ l l') (hc : Moved σ c c')
    (hx : dir = true ∨ ∀ e ∈ es, l[e.1.1]? = l[e.1.2]?) : layerSq es' l' c' = layerSq es l c :=
  funext fun t => strengthSq_renumber (layerOf_renumber h hl hx t) hc

theorem layerMIn_renumber (h : RenumberedEdges σ dir es es') (hl : Moved σ l l') (hc : Moved σ c c') :
    layerMIn es' l' c' = layerMIn es l c := by
  funext t
  refine wInside_renumber (layerOf_renumber (RE.filter h _ _ (fun e _ => ?_) (fun _ e _ => ?_)) hl
    (Or.inr fun e he => by simpa using (List.mem_filter.mp he).2) t) hc
  · simp only [hl.2]
  · simp only [hl.2, eq_comm]

theorem insideCount_renumber {Gx Gx' : Graph F} (h : Renumbered σ Gx Gx') (hX : Gx.WF) (hX' : Gx'.WF) (hc : Moved σ c c') :
    insideCount Gx'.edges c' = insideCount Gx.edges c := by
  have key : ∀ (l : List (Nat × Nat)) (c : List Nat), insideCount l c = (l.map fun e => if c[e.1]? = c[e.2]? then 1 else 0).sum := by
    intro l c
    unfold insideCount
    induction l with
    | nil => rfl
    | cons b l ih => rw [List.countP_cons, List.map_cons, List.sum_cons, ih, Nat.add_comm]; simp
  rw [key, key]
  refine edges_sum h hX hX' _ _ (fun e _ => by simp only [hc.2]) (fun _ e _ => by simp only [hc.2, eq_comm])

theorem multilevelPersistence_renumber {Gx Gx' : Graph F} (h : Renumbered σ Gx Gx') (hX : Gx.WF) (hX' : Gx'.WF)
    (hd : Gx.directed = true) (hc : Moved σ c c') (hcl : c.length = Gx.vcount) (hl : Moved σ l l')
    (hll : l.length = Gx.vcount) {T : Nat} (hT : LayersBelow l T) (Nt : List Nat) :
    multilevelPersistence Gx' c' l' Nt T = multilevelPersistence Gx c l Nt T := by
  have main : ∀ {Gx : Graph F} {c l : List Nat}, Gx.WF → c.length = Gx.vcount → l.length = Gx.vcount → LayersBelow l T →
      multilevelPersistence Gx c l Nt T = (do
        let perLayer ← (List.range T).mapM fun t => do
          let x ← pyGet ((List.range T).map fun t => (Gx.edges.map fun e => if l[e.2]? = some t then
            (if c[e.1]? = c[e.2]? then (1 : F) else 0) else 0).sum) t
          let n ← pyGet Nt t
          pyDiv x (n : F)
        pyDiv perLayer.sum ((T : F) - 1)) := by
    intro Gx c l hX hcl hll hT
    unfold multilevelPersistence
    rw [foldlM_replicate Gx.edges _ (fun e t => if l[e.2]? = some t then
      (if c[e.1]? = c[e.2]? then (1 : F) else 0) else 0)]
    · rw [Py.ok_bind]
    · intro e he acc hacc
      obtain ⟨h1, h2⟩ := hX.1 e he
      have h2' : e.2 < l.length := by omega
      have h1' : e.1 < c.length := by omega
      have h3' : e.2 < c.length := by omega
      rw [pyGet_lt h2', Py.ok_bind, pyGet_lt h1', Py.ok_bind, pyGet_lt h3', Py.ok_bind,
        pyAddAt_ok (by rw [hacc]; exact hT _ (List.getElem_mem h2')), List.getElem?_eq_getElem h2',
        List.getElem?_eq_getElem h1', List.getElem?_eq_getElem h3']
      simp only [Option.some.injEq]
  have hT' : LayersBelow l' T := fun x hx => hT x ((hl.mem x).mp hx)
  rw [main hX hcl hll hT, main hX' (by rw [hc.1, hcl, h.vcount]) (by rw [hl.1, hll, h.vcount]) hT']
  have e : ∀ t, (Gx'.edges.map fun e => if l'[e.2]? = some t then (if c'[e.1]? = c'[e.2]? then (1 : F) else 0) else 0).sum =
      (Gx.edges.map fun e => if l[e.2]? = some t then (if c[e.1]? = c[e.2]? then (1 : F) else 0) else 0).sum := by
    intro t
    exact edges_sum h hX hX' _ _ (fun e _ => by simp only [hc.2, hl.2]) (fun hf => by rw [hd] at hf; cases hf)
  simp only [e]

/-- The three persistences on the renumbered network. -/
theorem persistence_renumber {Gx Gx' : Graph F} (h : Renumbered σ Gx Gx') (hX : Gx.WF) (hX' : Gx'.WF)
    (hd : Gx.directed = true) (hc : Moved σ c c') (hcl : c.length = Gx.vcount) (hl : Moved σ l l')
    (hll : l.length = Gx.vcount) {T : Nat} (hT : LayersBelow l T) (model : String) (N : Option Nat) (Nt : Option (List Nat)) :
    (persistenceFunctionFromModel model Gx' (some l') N (some T) Nt >>= fun f => f c') =
      (persistenceFunctionFromModel model Gx (some l) N (some T) Nt >>= fun f => f c) := by
  have hi : insideEdges Gx' c' = insideEdges Gx c := by
    unfold insideEdges
    rw [internalEdgeCount_ok (edges := Gx.edges) (c := c) (fun e he => by rw [hcl]; exact hX.1 e he),
      internalEdgeCount_ok (edges := Gx'.edges) (c := c') (fun e he => by rw [hc.1, hcl, ← h.vcount]; exact hX'.1 e he),
      insideCount_renumber h hX hX' hc]
  unfold persistenceFunctionFromModel
  by_cases m1 : model = "temporal"
  · simp only [m1, if_true]
    cases N with
    | none => rfl
    | some N => simp only [Py.ok_bind, ordinalPersistence, hi]
  · by_cases m2 : model = "multilevel"
    · rw [if_neg m1, if_neg m1, if_pos m2, if_pos m2]
      cases Nt with
      | none => rfl
      | some Nt => exact multilevelPersistence_renumber h hX hX' hd hc hcl hl hll hT Nt
    · by_cases m3 : model = "multiplex"
      · rw [if_neg m1, if_neg m1, if_neg m2, if_neg m2, if_pos m3, if_pos m3]
        cases N with
        | none => rfl
        | some N => simp only [Py.ok_bind, categoricalPersistence, hi]
      · simp only [m1, m2, m3, if_false]; rfl

theorem multilayer_renumber_weighted (fsolve : (F → F) → F → F) {Gi Gi' Gx Gx' : Graph F} (hi : Renumbered σ Gi Gi')
    (hx : Renumbered σ Gx Gx') (hM : Multilayer Gi Gx l) (hGi' : Gi'.WF) (hGx' : Gx'.WF) (hd : Gx.directed = true)
    (hc : Moved σ c c') (hcl : c.length = Gi.vcount) (hl : Moved σ l l') (model : String) {M : Nat} (hMx : l.max? = some M)
    {ws : List F} (hw : Gi.weight = some ws) :
    estimateMultilayerSBM fsolve Gi' Gx' l' c' model none (some (M + 1)) none none =
      estimateMultilayerSBM fsolve Gi Gx l c model none (some (M + 1)) none none := by
  obtain ⟨ws', hw', hz⟩ := hi.zip hw
  have hT : LayersBelow l (M + 1) := fun x hx => by
    have := (List.max?_eq_some_iff.mp hMx).2 x hx
    omega
  have hT' : LayersBelow l' (M + 1) := fun x hx => hT x ((hl.mem x).mp hx)
  have hcr : Gi.directed = true ∨ ∀ e ∈ Gi.edges.zip ws, l[e.1.1]? = l[e.1.2]? :=
    hM.noCross.imp id fun h e he => h _ (List.of_mem_zip he).1
  rw [estimateMultilayerSBM_eq fsolve hM.intra hM.layers hcl hw model hT (by omega),
    estimateMultilayerSBM_eq fsolve hGi' (by rw [hl.1, hM.layers, hi.vcount]) (by rw [hc.1, hcl, hi.vcount]) hw' model hT'
      (by omega), layerM_renumber hz hl hcr, layerMIn_renumber hz hl hc, layerSq_renumber hz hl hc hcr, hc.partLen, hi.vcount]
  have hcount : ∀ t, l'.count t = l.count t := fun t => hl.perm.count_eq t
  simp only [hcount]
  have hp := persistence_renumber hx hM.inter hGx' hd hc (hcl.trans hM.vcount.symm) hl (hM.layers.trans hM.vcount.symm) hT
    model (some (Gi.vcount / (M + 1))) (some ((List.range (M + 1)).map fun t => l.count t))
  congr 1
  funext r
  have key : ∀ (f f' : Py (List Nat → Py F)) (g : F → Py (F × F × F × Nat)),
      (f' >>= fun p => p c') = (f >>= fun p => p c) →
      (f' >>= fun p => p c' >>= g) = (f >>= fun p => p c >>= g) := by
    intro f f' g hfg
    have := congrArg (· >>= g) hfg
    simpa [bind_assoc] using this
  exact key _ _ _ hp

theorem multilayer_renumber (fsolve : (F → F) → F → F) {Gi Gi' Gx Gx' : Graph F} (hi : Renumbered σ Gi Gi')
    (hx : Renumbered σ Gx Gx') (hM : Multilayer Gi Gx l) (hGi' : Gi'.WF) (hGx' : Gx'.WF) (hd : Gx.directed = true)
    (hc : Moved σ c c') (hcl : c.length = Gi.vcount) (hl : Moved σ l l') (model : String) :
    estimateMultilayerSBM fsolve Gi' Gx' l' c' model none none none none =
      estimateMultilayerSBM fsolve Gi Gx l c model none none none none := by
  cases hMx : l.max? with
  | none =>
    have hT : countLayers l = .error (.valueError "max() arg is an empty sequence") := by unfold countLayers; rw [hMx]
    have hT' : countLayers l' = .error (.valueError "max() arg is an empty sequence") := by
      unfold countLayers; rw [hl.max?, hMx]
    unfold estimateMultilayerSBM
    simp only [orCompute, hT, hT', Py.error_bind]
  | some M =>
    rw [estimateMultilayerSBM_T _ _ _ _ _ _ hMx, estimateMultilayerSBM_T _ _ _ _ _ _ (hl.max?.trans hMx)]
    cases hw : Gi.weight with
    | some ws => exact multilayer_renumber_weighted fsolve hi hx hM hGi' hGx' hd hc hcl hl model hMx hw
    | none =>
      have hw' : Gi'.weight = none := by
        have := hi.weighted
        rw [hw] at this
        simpa using this
      have hlen : Gi'.edges.length = Gi.edges.length := by
        simpa using RE.length_eq (hi.plain hM.intra hGi')
      by_cases he : Gi.edges = []
      · have he' : Gi'.edges = [] := by rw [he] at hlen; exact List.length_eq_zero_iff.mp hlen
        have key : ∀ (Gi Gx : Graph F) l c, Gi.weight = none → Gi.edges = [] →
            estimateMultilayerSBM fsolve Gi Gx l c model none (some (M + 1)) none none =
            estimateMultilayerSBM fsolve { Gi with weight := some [] } Gx l c model none (some (M + 1)) none none := by
          intro Gi Gx l c hw he
          unfold estimateMultilayerSBM Graph.weightedEdges
          simp only [hw, he, if_true, List.zip_nil_left]
        rw [key _ _ _ _ hw he, key _ _ _ _ hw' he']
        refine multilayer_renumber_weighted fsolve (Gi := { Gi with weight := some [] }) (Gi' := { Gi' with weight := some [] })
          ⟨hi.vertices, hi.vcount, hi.directed, rfl, ?_⟩ hx
          ⟨⟨hM.intra.1, fun ws h => by cases h; simp [he]⟩, hM.inter, hM.vcount, hM.layers, hM.noCross⟩
          ⟨hGi'.1, fun ws h => by cases h; simp [he']⟩ hGx' hd hc hcl hl model hMx rfl
        unfold edgeData
        simp only [he, he', List.zip_nil_left, List.map_nil]
        exact ⟨[], List.Perm.refl _, List.Forall₂.nil⟩
      · have he' : Gi'.edges ≠ [] := by
          intro h0
          rw [h0] at hlen
          exact he (List.length_eq_zero_iff.mp hlen.symm)
        unfold estimateMultilayerSBM Graph.weightedEdges
        simp only [hw, he, hw', he', if_false, hi.vcount]
        unfold orCompute vcountFloorDiv
        simp only [Nat.succ_ne_zero, if_false, Py.ok_bind, Py.error_bind]

end

section
variable {G G' : Graph ℝ} {c c' : List Nat}

theorem ensureWeight_size {test : Graph ℝ → Bool} (hG : G.WF) :
    ensureWeight test G.vcount G = .ok (defaulted test G) := by
  rcases Nat.eq_zero_or_pos G.vcount with h0 | h0
  · have he : G.edges = [] := by
      by_contra hne
      obtain ⟨e, he⟩ := List.exists_mem_of_ne_nil _ hne
      have := hG.1 e he
      omega
    unfold ensureWeight defaulted
    split
    · rfl
    · unfold Graph.setEsWeight Graph.ecount
      rw [if_neg (by rintro ⟨-, h2⟩; exact h2 he), he]
      simp
  · unfold ensureWeight defaulted
    rw [setEsWeight_ones h0]
    split <;> rfl

theorem defaulted_renumber {test : Graph ℝ → Bool} (h : Renumbered σ G G') (hG : G.WF) (hG' : G'.WF)
    (ht : test G' = test G) : Renumbered σ (defaulted test G) (defaulted test G') := by
  unfold defaulted
  rw [ht]
  split
  · exact h
  · refine ⟨h.vertices, h.vcount, h.directed, rfl, ?_⟩
    have key : ∀ G : Graph ℝ, edgeData { G with weight := some (List.replicate G.ecount (1 : ℝ)) } =
        (G.edges.map fun e => (e, ())).map fun e => (e.1, (fun _ => some (1 : ℝ)) e.2) := by
      intro G
      unfold edgeData Graph.ecount
      simp only
      rw [List.map_map]
      generalize G.edges = l
      induction l with
      | nil => rfl
      | cons a l ih =>
        rw [List.length_cons, List.replicate_succ, List.zip_cons_cons, List.map_cons, List.map_cons, ih]
        rfl
    rw [key, key]
    exact RE.map (fun _ => some (1 : ℝ)) (h.plain hG hG')

/-- **C79 (gamma estimate).** The estimate (or exception) for a partition does not depend on how vertices are numbered and
edges are listed. -/
theorem c79_gamma_estimate {test : Graph ℝ → Bool} (h : Renumbered σ G G') (hG : G.WF) (hG' : G'.WF) (ht : test G' = test G)
    (hc : Moved σ c c') : (gammaEstimate test G' c').map Prod.fst = (gammaEstimate test G c).map Prod.fst := by
  unfold gammaEstimate
  rw [ensureWeight_size hG, ensureWeight_size hG', Py.ok_bind, Py.ok_bind]
  unfold leidenPartWithMembership
  rw [(defaulted_shape test G).1, (defaulted_shape test G').1, hc.1, h.vcount]
  split
  · rename_i hl
    rw [Py.ok_bind, Py.ok_bind, estimateSinglelayerSBM_renumber (defaulted_renumber h hG hG' ht) (defaulted_wf hG)
      (defaulted_wf hG') (hl.trans (defaulted_shape test G).1.symm) hc]
    cases estimateSinglelayerSBM (defaulted test G) c none <;> rfl
  · rfl

/-- **C79 (gamma and omega estimates).** The same for multilayer networks (directed interlayer graph). -/
theorem c79_gamma_omega_estimate {test : Graph ℝ → Bool} (fsolve : (ℝ → ℝ) → ℝ → ℝ) {Gi Gi' Gx Gx' : Graph ℝ}
    {l l' : List Nat} (hi : Renumbered σ Gi Gi') (hx : Renumbered σ Gx Gx') (hl : Moved σ l l') (hM : Multilayer Gi Gx l)
    (hGi' : Gi'.WF) (hGx' : Gx'.WF) (hd : Gx.directed = true) (ht : test Gi' = test Gi) (hc : Moved σ c c') (ωmax : ℝ)
    (model : String) :
    (gammaOmegaEstimate test fsolve Gi' Gx' l' c' ωmax model).map Prod.fst =
      (gammaOmegaEstimate test fsolve Gi Gx l c ωmax model).map Prod.fst := by
  rw [gammaOmegaEstimate_def, gammaOmegaEstimate_def]
  have hT : countLayers l' = countLayers l := by unfold countLayers; rw [hl.max?]
  rw [hT]
  cases hT : countLayers l with
  | error e => rw [Py.error_bind, Py.error_bind]
  | ok T =>
    have hT' : countLayers l' = .ok T := by unfold countLayers at hT ⊢; rw [hl.max?]; exact hT
    rw [Py.ok_bind, Py.ok_bind]
    unfold leidenPartWithMembership
    rw [hc.1, hi.vcount]
    split
    · rename_i hcl
      rw [Py.ok_bind, Py.ok_bind, ensureWeight_ecount, ensureWeight_ecount, Py.ok_bind, Py.ok_bind,
        estimateMultilayerSBM_countLayers _ _ _ _ _ _ hT, estimateMultilayerSBM_countLayers _ _ _ _ _ _ hT',
        multilayer_renumber fsolve (defaulted_renumber hi hM.intra hGi' ht) hx
          ⟨defaulted_wf hM.intra, hM.inter, hM.vcount.trans (defaulted_shape test Gi).1.symm,
            hM.layers.trans (defaulted_shape test Gi).1.symm, by
              rw [(defaulted_shape test Gi).2.1, (defaulted_shape test Gi).2.2]; exact hM.noCross⟩
          (defaulted_wf hGi') hGx' hd hc (hcl.trans (defaulted_shape test Gi).1.symm) hl model]
      cases estimateMultilayerSBM fsolve (defaulted test Gi) Gx l c model none none none none with
      | error e => rw [Py.error_bind, Py.error_bind]
      | ok r =>
        obtain ⟨r1, r2, r3, r4⟩ := r
        rw [Py.ok_bind, Py.ok_bind]
        simp only
        cases omegaFunctionFromModel model ωmax T with
        | error e => rw [Py.error_bind, Py.error_bind]
        | ok u =>
          rw [Py.ok_bind, Py.ok_bind]
          cases hu : u r1 r2 r3 r4 with
          | error e => simp only [Py.error_bind, Py.map_error']
          | ok w => simp only [Py.ok_bind, Py.pure_eq, Py.map_ok']
    · rw [Py.error_bind, Py.error_bind]

end

/-! ### CHAMP -/

theorem _root_.Verif.Spec.MovedParts.symm {α : Type} {parts parts' : List (List α)} (h : MovedParts σ parts parts') :
    MovedParts σ.symm parts' parts :=
  ⟨fun p' hp' => by obtain ⟨p, hp, hm⟩ := h.2 p' hp'; exact ⟨p, hp, hm.symm⟩,
    fun p hp => by obtain ⟨p', hp', hm⟩ := h.1 p hp; exact ⟨p', hp', hm.symm⟩⟩

section
variable {env env' : ChampEnv} {G G' : Graph ℝ} {α : Type} [LinearOrder α] {parts parts' : List (List α)} {γ₀ γf : ℝ}
  {st st' : Bool} {ranges ranges' : List (ℝ × ℝ × List α)}

theorem champ2D_renumber_one (he : SoundEnv env) (he' : SoundEnv env') (h : Renumbered σ G G') (hG : G.WF) (hG' : G'.WF)
    (hp : ∀ p ∈ parts, p.length = G.vcount) (hm : MovedParts σ parts parts')
    (hr : champ2D env G parts γ₀ γf st = (some (.ok ranges) : Option _))
    (hr' : champ2D env' G' parts' γ₀ γf st' = (some (.ok ranges') : Option _)) :
    ∀ r ∈ ranges, ∃ r' ∈ ranges', r'.1 = r.1 ∧ r'.2.1 = r.2.1 ∧ ∀ γ, modularity G' γ r'.2.2 = modularity G γ r.2.2 := by
  have hp' : ∀ p ∈ parts', p.length = G'.vcount := by
    intro p' hp'
    obtain ⟨p, hpp, hm⟩ := hm.2 p' hp'
    rw [hm.1, h.vcount, hp p hpp]
  intro r hrm
  obtain ⟨h1, h2, h3, h4, hiff⟩ := c17_ranges_correct he hG hp hr r hrm
  obtain ⟨p', hp'm, hmv⟩ := hm.1 _ h4
  have hstrict := c20_returned_strictly_optimal he hG hp hr r hrm ((r.1 + r.2.1) / 2) (by linarith) (by linarith)
  have emod : ∀ {p p' : List α}, Moved σ p p' → ∀ γ, modularity G' γ p' = modularity G γ p := fun hmv γ =>
    modularity_renumber h hG hG' hmv γ
  obtain ⟨r', hr'm, g1, g2, g3⟩ := c20_strictly_optimal_returned he' hG' hp' hr' hp'm (γ := (r.1 + r.2.1) / 2)
    (by linarith) (by linarith) (by
      intro c' hc' ⟨γ', hγ'⟩
      obtain ⟨c, hc, hcm⟩ := hm.2 c' hc'
      rw [emod hcm, emod hmv]
      exact hstrict c hc ⟨γ', by rw [← emod hcm, ← emod hmv]; exact hγ'⟩)
  obtain ⟨k1, k2, k3, k4, hiff'⟩ := c17_ranges_correct he' hG' hp' hr' r' hr'm
  have hsame : ∀ γ, modularity G' γ r'.2.2 = modularity G γ r.2.2 := fun γ => by rw [g3, emod hmv]
  have hset : ∀ γ, (r.1 ≤ γ ∧ γ ≤ r.2.1) ↔ (r'.1 ≤ γ ∧ γ ≤ r'.2.1) := by
    intro γ
    rw [hiff, hiff']
    refine and_congr Iff.rfl ⟨fun hall c' hc' => ?_, fun hall c hc => ?_⟩
    · obtain ⟨c, hc, hcm⟩ := hm.2 c' hc'
      rw [emod hcm, hsame]; exact hall c hc
    · obtain ⟨c', hc', hcm⟩ := hm.1 c hc
      rw [← emod hcm, ← hsame]; exact hall c' hc'
  refine ⟨r', hr'm, ?_, ?_, hsame⟩
  · exact le_antisymm ((hset r.1).mp ⟨le_rfl, h2.le⟩).1 ((hset r'.1).mpr ⟨le_rfl, k2.le⟩).1
  · exact le_antisymm ((hset r'.2.1).mpr ⟨k2.le, le_rfl⟩).2 ((hset r.2.1).mp ⟨h2.le, le_rfl⟩).2

/-- two strictly sorted lists with matching elements match position by position -/
theorem sorted_match {A B : Type} {l : List A} {l' : List B} (f : A → ℝ) (g : B → ℝ) (R : A → B → Prop)
    (hl : l.Pairwise fun a b => f a < f b) (hl' : l'.Pairwise fun a b => g a < g b)
    (h : ∀ a ∈ l, ∃ b ∈ l', g b = f a ∧ R a b) (h' : ∀ b ∈ l', ∃ a ∈ l, g b = f a) : List.Forall₂ R l l' := by
  induction l generalizing l' with
  | nil =>
    cases l' with
    | nil => exact List.Forall₂.nil
    | cons b m => obtain ⟨a, ha, -⟩ := h' b (by simp); simp at ha
  | cons a l ih =>
    cases l' with
    | nil => obtain ⟨b, hb, -⟩ := h a (by simp); simp at hb
    | cons b m =>
      rw [List.pairwise_cons] at hl hl'
      obtain ⟨b0, hb0, e0, hR⟩ := h a (by simp)
      obtain ⟨a0, ha0, e1⟩ := h' b (by simp)
      have hle1 : f a ≤ f a0 := by
        rcases List.mem_cons.mp ha0 with rfl | h0
        · exact le_rfl
        · exact (hl.1 a0 h0).le
      obtain rfl : b0 = b := by
        rcases List.mem_cons.mp hb0 with rfl | h0
        · rfl
        · have := hl'.1 b0 h0
          linarith
      refine List.Forall₂.cons hR (ih hl.2 hl'.2 (fun a1 ha1 => ?_) (fun b1 hb1 => ?_))
      · obtain ⟨b1, hb1, e, hR1⟩ := h a1 (List.mem_cons_of_mem _ ha1)
        rcases List.mem_cons.mp hb1 with rfl | h0
        · have := hl.1 a1 ha1; linarith
        · exact ⟨b1, h0, e, hR1⟩
      · obtain ⟨a1, ha1, e⟩ := h' b1 (List.mem_cons_of_mem _ hb1)
        rcases List.mem_cons.mp ha1 with rfl | h0
        · have := hl'.1 b1 hb1; linarith
        · exact ⟨a1, h0, e⟩

/-- **C79 (CHAMP_2D).** On the renumbered graph and partitions `CHAMP_2D` returns the same list of ranges, each with a
partition of the same modularity at every resolution. -/
theorem c79_champ2D (he : SoundEnv env) (he' : SoundEnv env') (h : Renumbered σ G G') (hG : G.WF) (hG' : G'.WF)
    (hp : ∀ p ∈ parts, p.length = G.vcount) (hm : MovedParts σ parts parts')
    (hr : champ2D env G parts γ₀ γf st = (some (.ok ranges) : Option _))
    (hr' : champ2D env' G' parts' γ₀ γf st' = (some (.ok ranges') : Option _)) :
    List.Forall₂ (fun r r' => r'.1 = r.1 ∧ r'.2.1 = r.2.1 ∧ ∀ γ, modularity G' γ r'.2.2 = modularity G γ r.2.2)
      ranges ranges' := by
  have hp' : ∀ p ∈ parts', p.length = G'.vcount := by
    intro p' hp'
    obtain ⟨p, hpp, hm⟩ := hm.2 p' hp'
    rw [hm.1, h.vcount, hp p hpp]
  have h1 := champ2D_renumber_one he he' h hG hG' hp hm hr hr'
  have h2 := champ2D_renumber_one he' he h.symm hG' hG hp' hm.symm hr' hr
  have hsort : ∀ {env : ChampEnv} {G : Graph ℝ} {parts : List (List α)} {st} {ranges : List (ℝ × ℝ × List α)},
      SoundEnv env → G.WF → (∀ p ∈ parts, p.length = G.vcount) →
      champ2D env G parts γ₀ γf st = (some (.ok ranges) : Option _) → ranges.Pairwise fun r s => r.1 < s.1 := by
    intro env G parts st ranges he hG hp hr
    by_cases hne : parts = []
    · subst hne
      have : champ2D env G ([] : List (List α)) γ₀ γf st = (some (.ok []) : Option _) := rfl
      rw [this] at hr
      cases hr
      exact List.Pairwise.nil
    · exact (c19_sorted_tiling he hG hp hne hr).2.2.2
  refine sorted_match (fun r => r.1) (fun r => r.1) _ (hsort he hG hp hr) (hsort he' hG' hp' hr') (fun r hrm => ?_)
    (fun r' hrm => ?_)
  · obtain ⟨r', hm', e1, e2, e3⟩ := h1 r hrm
    exact ⟨r', hm', e1, e1, e2, e3⟩
  · obtain ⟨r, hm', e1, -⟩ := h2 r' hrm
    exact ⟨r, hm', e1.symm⟩

end

section
variable {env env' : ChampEnv} {Gi Gi' Gx Gx' : Graph ℝ} {l l' : List Nat} {α : Type} [LinearOrder α]
  {parts parts' : List (List α)} {γ₀ γf ω₀ ωf : ℝ} {doms doms' : List (List (ℝ × ℝ) × List α)}

/-- a renumbered multilayer network is a multilayer network -/
theorem _root_.Verif.Spec.Multilayer.renumber (hM : Multilayer Gi Gx l) (hi : Renumbered σ Gi Gi') (hx : Renumbered σ Gx Gx')
    (hl : Moved σ l l') (hGi' : Gi'.WF) (hGx' : Gx'.WF) : Multilayer Gi' Gx' l' := by
  refine ⟨hGi', hGx', by rw [hx.vcount, hi.vcount, hM.vcount], by rw [hl.1, hi.vcount, hM.layers], ?_⟩
  rw [hi.directed]
  refine hM.noCross.imp id fun h e' he' => ?_
  obtain ⟨e, he, hee⟩ := RE.mem (hi.plain hM.intra hGi') (e' := (e', ())) (List.mem_map.mpr ⟨e', he', rfl⟩)
  obtain ⟨e0, he0, rfl⟩ := List.mem_map.mp he
  have := h e0 he0
  rcases hee with ⟨-, h1 | ⟨-, h1⟩⟩
  · simp only at h1
    rw [h1]; simp only [hl.2]; exact this
  · simp only at h1
    rw [h1]; simp only [hl.2]; exact this.symm

theorem champ3D_renumber_one (he : SoundEnv env) (he' : SoundEnv env') (hM : Multilayer Gi Gx l) (hi : Renumbered σ Gi Gi')
    (hx : Renumbered σ Gx Gx') (hl : Moved σ l l') (hGi' : Gi'.WF) (hGx' : Gx'.WF)
    (hp : ∀ p ∈ parts, p.length = Gi.vcount) (hm : MovedParts σ parts parts')
    (hr : champ3D env Gi Gx l parts γ₀ γf ω₀ ωf = (some (.ok doms) : Option _))
    (hr' : champ3D env' Gi' Gx' l' parts' γ₀ γf ω₀ ωf = (some (.ok doms') : Option _)) :
    doms.length ≤ doms'.length ∧ ∀ d ∈ doms, ∃ d' ∈ doms', convexHull ℝ {q | q ∈ d'.1} = convexHull ℝ {q | q ∈ d.1} ∧
      ∀ γ ω, multilayerModularity Gi' Gx' l' γ ω d'.2 = multilayerModularity Gi Gx l γ ω d.2 := by
  have hM' := hM.renumber hi hx hl hGi' hGx'
  have hp' : ∀ p ∈ parts', p.length = Gi'.vcount := by
    intro p' hp'
    obtain ⟨p, hpp, hm⟩ := hm.2 p' hp'
    rw [hm.1, hi.vcount, hp p hpp]
  have emod : ∀ {p p' : List α}, Moved σ p p' → ∀ γ ω, multilayerModularity Gi' Gx' l' γ ω p' =
      multilayerModularity Gi Gx l γ ω p := fun hmv γ ω =>
    multilayerModularity_renumber hi hx hM.intra hGi' hM.inter hGx' hmv hl γ ω
  have hone : ∀ d ∈ doms, ∃ d' ∈ doms', convexHull ℝ {q | q ∈ d'.1} = convexHull ℝ {q | q ∈ d.1} ∧
      ∀ γ ω, multilayerModularity Gi' Gx' l' γ ω d'.2 = multilayerModularity Gi Gx l γ ω d.2 := by
    intro d hd
    obtain ⟨h1, -, hiff⟩ := c21_domains_correct he hM hp hr d hd
    obtain ⟨⟨γ, ω⟩, hin⟩ := (c22_domains_disjoint he hM hp hr).2.2.2 d hd
    obtain ⟨⟨⟨a1, a2⟩, b1, b2⟩, hstrict⟩ := (domain_interior he hM hp hr hd γ ω).mp hin
    obtain ⟨p', hp'm, hmv⟩ := hm.1 _ h1
    obtain ⟨d', hd', -, g3⟩ := c22_strictly_optimal_returned he' hM' hp' hr' hp'm ⟨a1.le, a2.le⟩ ⟨b1.le, b2.le⟩ (by
      rintro c' hc' ⟨γ', ω', hne⟩
      obtain ⟨c, hc, hcm⟩ := hm.2 c' hc'
      rw [emod hcm, emod hmv]
      refine hstrict c hc fun hs => hne ?_
      rw [emod hcm, emod hmv]
      exact hs γ' ω')
    have hsame : ∀ γ ω, multilayerModularity Gi' Gx' l' γ ω d'.2 = multilayerModularity Gi Gx l γ ω d.2 := fun γ ω => by
      rw [g3, emod hmv]
    refine ⟨d', hd', ?_, hsame⟩
    ext q
    rw [hiff, (c21_domains_correct he' hM' hp' hr' d' hd').2.2]
    refine and_congr Iff.rfl ⟨fun hall c hc => ?_, fun hall c' hc' => ?_⟩
    · obtain ⟨c', hc', hcm⟩ := hm.1 c hc
      rw [← emod hcm, ← hsame]; exact hall c' hc'
    · obtain ⟨c, hc, hcm⟩ := hm.2 c' hc'
      rw [emod hcm, hsame]; exact hall c hc
  refine ⟨?_, hone⟩
  choose! f hf using hone
  have hnd : (doms.map f).Nodup := by
    rw [List.Nodup, List.pairwise_map]
    refine (c22_domains_disjoint he hM hp hr).2.1.imp_of_mem fun {a b} ha hb hne heq => ?_
    obtain ⟨γ, ω, hne⟩ := hne
    exact hne (by rw [← (hf a ha).2.2, ← (hf b hb).2.2, heq])
  have := (hnd.subperm (l₂ := doms') (fun x hx => by
    obtain ⟨a, ha, rfl⟩ := List.mem_map.mp hx
    exact (hf a ha).1)).length_le
  rwa [List.length_map] at this

/-- **C79 (CHAMP_3D).** On the renumbered network and partitions every domain reappears: the same polygon (as a set of
points), carried by a partition of the same multilayer modularity everywhere. -/
theorem c79_champ3D (he : SoundEnv env) (he' : SoundEnv env') (hM : Multilayer Gi Gx l) (hi : Renumbered σ Gi Gi')
    (hx : Renumbered σ Gx Gx') (hl : Moved σ l l') (hGi' : Gi'.WF) (hGx' : Gx'.WF)
    (hp : ∀ p ∈ parts, p.length = Gi.vcount) (hm : MovedParts σ parts parts')
    (hr : champ3D env Gi Gx l parts γ₀ γf ω₀ ωf = (some (.ok doms) : Option _))
    (hr' : champ3D env' Gi' Gx' l' parts' γ₀ γf ω₀ ωf = (some (.ok doms') : Option _)) :
    doms'.length = doms.length ∧ ∀ d ∈ doms, ∃ d' ∈ doms', convexHull ℝ {q | q ∈ d'.1} = convexHull ℝ {q | q ∈ d.1} ∧
      ∀ γ ω, multilayerModularity Gi' Gx' l' γ ω d'.2 = multilayerModularity Gi Gx l γ ω d.2 := by
  have hM' := hM.renumber hi hx hl hGi' hGx'
  have hp' : ∀ p ∈ parts', p.length = Gi'.vcount := by
    intro p' hp'
    obtain ⟨p, hpp, hm⟩ := hm.2 p' hp'
    rw [hm.1, hi.vcount, hp p hpp]
  obtain ⟨h1, h2⟩ := champ3D_renumber_one he he' hM hi hx hl hGi' hGx' hp hm hr hr'
  exact ⟨le_antisymm (champ3D_renumber_one he' he hM' hi.symm hx.symm hl.symm hM.intra hM.inter hp' hm.symm hr' hr).1 h1, h2⟩

end

/-! ### Pruning -/

section
variable {G G' : Graph ℝ} {α : Type} [LinearOrder α]

/-- canonical forms of a membership and of the renumbered one, and the renumbered canonical form -/
theorem canon_moved {n : Nat} (hσ : ∀ v, σ v < n ↔ v < n) {p p' : List α} (hp : p.length = n) (hm : Moved σ p p') :
    ∃ m, Moved σ (canon p) m ∧ SamePartition m (canon p') ∧ Contiguous m p.dedup.length ∧
      Contiguous (canon p') p.dedup.length := by
  obtain ⟨m, hcm⟩ := exists_moved hσ (canon p) ((canon_length p).trans hp)
  have hs : SamePartition m p' := hcm.same hm (canon_same p)
  refine ⟨m, hcm, hs.trans (canon_same p').symm, fun k => ?_, fun k => ?_⟩
  · rw [hcm.mem, canon_mem_iff]
  · rw [canon_mem_iff, hm.perm.dedup.length_eq]

theorem hasEstimate_renumber {test : Graph ℝ → Bool} (h : Renumbered σ G G') (hG : G.WF) (hG' : G'.WF) (ht : test G' = test G)
    {p p' : List α} (hp : p.length = G.vcount) (hm : Moved σ p p') {γ : ℝ} (he : HasEstimate test G p γ) :
    HasEstimate test G' p' γ := by
  obtain ⟨c, H, h1, h2⟩ := he
  rw [sortedTuple_eq] at h1
  cases h1
  obtain ⟨m, hcm, hs, hK, hK'⟩ := canon_moved h.vertices hp hm
  have e := c79_gamma_estimate h hG hG' ht hcm
  have hml : m.length = G'.vcount := by rw [hcm.1, canon_length, hp, h.vcount]
  rw [h2, Py.map_ok', c72_gamma_estimate test hG' hml hs hK hK'] at e
  cases hg : gammaEstimate test G' (canon p') with
  | error x => rw [hg] at e; cases e
  | ok r =>
    rw [hg, Py.map_ok'] at e
    injection e with e
    obtain ⟨r1, r2⟩ := r
    simp only at e
    subst e
    exact ⟨canon p', r2, sortedTuple_eq p', hg⟩

theorem candidate_moved {parts parts' : List (List α)} {restrict : Option Nat} {p p' : List α} (hm : Moved σ p p')
    (hp' : p' ∈ parts') (h : Candidate parts restrict p) : Candidate parts' restrict p' :=
  ⟨hp', fun K hK => by rw [hm.perm.dedup.length_eq]; exact h.2 K hK⟩

variable {env env' : PruneEnv} {parts parts' : List (List α)} {γ₀ γf : ℝ} {st st' : Bool} {restrict : Option Nat}
  {out out' : List (List Nat)} {H H' : Graph ℝ}

theorem stable_renumber {test : Graph ℝ → Bool} (h : Renumbered σ G G') (hG : G.WF) (hG' : G'.WF) (ht : test G' = test G)
    (hm : MovedParts σ parts parts') {p p' : List α} (hp : p.length = G.vcount) (hmv : Moved σ p p')
    (hs : Stable test G (Candidate parts restrict) γ₀ γf p) : Stable test G' (Candidate parts' restrict) γ₀ γf p' := by
  have emod : ∀ {p p' : List α}, Moved σ p p' → ∀ γ, modularity G' γ p' = modularity G γ p := fun hmv γ =>
    modularity_renumber h hG hG' hmv γ
  have hcand : ∀ q', Candidate parts' restrict q' → ∃ q, Candidate parts restrict q ∧ Moved σ q q' := by
    intro q' hq'
    obtain ⟨q, hq, hqm⟩ := hm.2 q' hq'.1
    exact ⟨q, candidate_moved hqm.symm hq hq', hqm⟩
  obtain ⟨⟨g, g1, g2, g3⟩, γ, k1, k2, k3, k4⟩ := hs
  refine ⟨⟨g, g1, g2, fun q' hq' hne => ?_⟩, γ, hasEstimate_renumber h hG hG' ht hp hmv k1, k2, k3, fun q' hq' => ?_⟩
  · obtain ⟨q, hq, hqm⟩ := hcand q' hq'
    rw [emod hqm, emod hmv]
    exact g3 q hq fun hs => hne fun γ => by rw [emod hqm, emod hmv]; exact hs γ
  · obtain ⟨q, hq, hqm⟩ := hcand q' hq'
    rw [emod hqm, emod hmv]
    exact k4 q hq

/-- **C79 (pruning).** `prune_to_stable_partitions` on the renumbered graph and partitions returns exactly the renumbered
stable partitions (different candidates having different coefficients). -/
theorem c79_prune (he : SoundPruneEnv env) (he' : SoundPruneEnv env') (htest : env'.test = env.test) (h : Renumbered σ G G')
    (hG : G.WF) (hG' : G'.WF) (ht : env.test G' = env.test G) (hp : ∀ p ∈ parts, p.length = G.vcount)
    (hm : MovedParts σ parts parts')
    (hdist : ∀ p q, Candidate parts restrict p → Candidate parts restrict q → SameModularity G p q → SamePartition p q)
    (hr : pruneToStable env G (.memberships parts) γ₀ γf restrict st = (some (.ok (out, H)) : Option _))
    (hr' : pruneToStable env' G' (.memberships parts') γ₀ γf restrict st' = (some (.ok (out', H')) : Option _)) :
    (∀ c ∈ out, ∃ c' ∈ out', ∃ m, Moved σ c m ∧ SamePartition m c') ∧
      ∀ c' ∈ out', ∃ c ∈ out, ∃ m, Moved σ c m ∧ SamePartition m c' := by
  have hp' : ∀ p ∈ parts', p.length = G'.vcount := by
    intro p' hp'
    obtain ⟨p, hpp, hm⟩ := hm.2 p' hp'
    rw [hm.1, h.vcount, hp p hpp]
  have emod : ∀ {p p' : List α}, Moved σ p p' → ∀ γ, modularity G' γ p' = modularity G γ p := fun hmv γ =>
    modularity_renumber h hG hG' hmv γ
  have hdist' : ∀ p q, Candidate parts' restrict p → Candidate parts' restrict q → SameModularity G' p q →
      SamePartition p q := by
    intro p' q' hp' hq' hs
    obtain ⟨p, hpm, hpp⟩ := hm.2 p' hp'.1
    obtain ⟨q, hqm, hqq⟩ := hm.2 q' hq'.1
    exact hpp.same hqq (hdist p q (candidate_moved hpp.symm hpm hp') (candidate_moved hqq.symm hqm hq') fun γ => by
      rw [← emod hpp, ← emod hqq]; exact hs γ)
  have hc := c39_characterisation he hG hp hdist hr
  have hc' := c39_characterisation he' hG' hp' hdist' hr'
  rw [htest] at hc'
  constructor
  · intro c hco
    obtain ⟨p, hpc, hpr, hst⟩ := (hc c).mp hco
    obtain ⟨p', hp'm, hmv⟩ := hm.1 p hpc.1
    rw [sortedTuple_eq] at hpr
    cases hpr
    obtain ⟨m, hcm, hs, -, -⟩ := canon_moved h.vertices (hp p hpc.1) hmv
    exact ⟨canon p', (hc' _).mpr ⟨p', candidate_moved hmv hp'm hpc, sortedTuple_eq p',
      stable_renumber h hG hG' ht hm (hp p hpc.1) hmv hst⟩, m, hcm, hs⟩
  · intro c' hco
    obtain ⟨p', hpc, hpr, hst⟩ := (hc' c').mp hco
    obtain ⟨p, hpm, hmv⟩ := hm.2 p' hpc.1
    rw [sortedTuple_eq] at hpr
    cases hpr
    obtain ⟨m, hcm, hs, -, -⟩ := canon_moved h.vertices (hp p hpm) hmv
    exact ⟨canon p, (hc _).mpr ⟨p, candidate_moved hmv.symm hpm hpc, sortedTuple_eq p,
      stable_renumber h.symm hG' hG ht.symm hm.symm (hp' p' hpc.1) hmv.symm hst⟩, m, hcm, hs⟩

end

section
variable {Gi Gi' Gx Gx' : Graph ℝ} {l l' : List Nat} {α : Type} [LinearOrder α]

theorem estimates_renumber {test : Graph ℝ → Bool} (fsolve : (ℝ → ℝ) → ℝ → ℝ) (hM : Multilayer Gi Gx l)
    (hi : Renumbered σ Gi Gi') (hx : Renumbered σ Gx Gx') (hl : Moved σ l l') (hGi' : Gi'.WF) (hGx' : Gx'.WF)
    (hd : Gx.directed = true) (ht : test Gi' = test Gi) {p p' : List α} (hp : p.length = Gi.vcount) (hmv : Moved σ p p')
    (model : String) :
    (gammaOmegaEstimate test fsolve Gi' Gx' l' (canon p') defaultOmegaMax model).map Prod.fst =
      (gammaOmegaEstimate test fsolve Gi Gx l (canon p) defaultOmegaMax model).map Prod.fst := by
  obtain ⟨m, hcm, hs, hK, hK'⟩ := canon_moved hi.vertices hp hmv
  have hml : m.length = Gi'.vcount := by rw [hcm.1, canon_length, hp, hi.vcount]
  rw [← c79_gamma_omega_estimate fsolve hi hx hl hM hGi' hGx' hd ht hcm,
    c72_gamma_omega_estimate test fsolve (hM.renumber hi hx hl hGi' hGx') hml hs hK hK']

variable {env env' : PruneEnv} {parts parts' : List (List α)} {W : Window} {st st' : Bool} {restrict : Option Nat}
  {out out' : List (List Nat)} {H H' : Graph ℝ} {model : String}

theorem stableMultilayer_renumber {test : Graph ℝ → Bool} (fsolve : (ℝ → ℝ) → ℝ → ℝ) (hM : Multilayer Gi Gx l)
    (hi : Renumbered σ Gi Gi') (hx : Renumbered σ Gx Gx') (hl : Moved σ l l') (hGi' : Gi'.WF) (hGx' : Gx'.WF)
    (hd : Gx.directed = true) (ht : test Gi' = test Gi) (hm : MovedParts σ parts parts') {p p' : List α}
    (hp : p.length = Gi.vcount) (hmv : Moved σ p p')
    (h : StableMultilayer test fsolve Gi Gx l model (Candidate parts restrict) W p ∨
      NanMultilayer test fsolve Gi Gx l model (Candidate parts restrict) W p) :
    StableMultilayer test fsolve Gi' Gx' l' model (Candidate parts' restrict) W p' ∨
      NanMultilayer test fsolve Gi' Gx' l' model (Candidate parts' restrict) W p' := by
  have emod : ∀ {p p' : List α}, Moved σ p p' → ∀ γ ω, multilayerModularity Gi' Gx' l' γ ω p' =
      multilayerModularity Gi Gx l γ ω p := fun hmv γ ω =>
    multilayerModularity_renumber hi hx hM.intra hGi' hM.inter hGx' hmv hl γ ω
  have hbest : ∀ γ ω, BestInside Gi Gx l (Candidate parts restrict) W p γ ω →
      BestInside Gi' Gx' l' (Candidate parts' restrict) W p' γ ω := by
    rintro γ ω ⟨hw, hb⟩
    refine ⟨hw, fun q' hq' hne => ?_⟩
    obtain ⟨q, hq, hqm⟩ := hm.2 q' hq'.1
    rw [emod hqm, emod hmv]
    exact hb q (candidate_moved hqm.symm hq hq') fun hs => hne fun γ ω => by rw [emod hqm, emod hmv]; exact hs γ ω
  have hest : ∀ r, (∃ K, gammaOmegaEstimate test fsolve Gi Gx l (canon p) defaultOmegaMax model = .ok (r, K)) →
      ∃ K, gammaOmegaEstimate test fsolve Gi' Gx' l' (canon p') defaultOmegaMax model = .ok (r, K) := by
    rintro r ⟨K, hK⟩
    have e := estimates_renumber fsolve hM hi hx hl hGi' hGx' hd ht hp hmv model
    rw [hK, Py.map_ok'] at e
    cases hg : gammaOmegaEstimate test fsolve Gi' Gx' l' (canon p') defaultOmegaMax model with
    | error x => rw [hg] at e; cases e
    | ok y =>
      rw [hg, Py.map_ok'] at e
      injection e with e
      obtain ⟨y1, y2⟩ := y
      simp only at e
      subst e
      exact ⟨y2, rfl⟩
  rcases h with ⟨γ, ω, ⟨c, K, h1, h2⟩, hb⟩ | ⟨⟨c, ω, K, h1, h2⟩, γ', ω', hb⟩
  · rw [sortedTuple_eq] at h1
    cases h1
    obtain ⟨K', hK'⟩ := hest _ ⟨K, h2⟩
    exact .inl ⟨γ, ω, ⟨canon p', K', sortedTuple_eq p', hK'⟩, hbest _ _ hb⟩
  · rw [sortedTuple_eq] at h1
    cases h1
    obtain ⟨K', hK'⟩ := hest _ ⟨K, h2⟩
    exact .inr ⟨⟨canon p', ω, K', sortedTuple_eq p', hK'⟩, γ', ω', hbest _ _ hb⟩

/-- **C79 (multilayer pruning).** The same for `prune_to_multilayer_stable_partitions` (directed interlayer graph). -/
theorem c79_prune_multilayer (he : SoundPruneEnv env) (he' : SoundPruneEnv env') (htest : env'.test = env.test)
    (hfs : env'.fsolve = env.fsolve) (hM : Multilayer Gi Gx l)
    (hi : Renumbered σ Gi Gi') (hx : Renumbered σ Gx Gx') (hl : Moved σ l l') (hGi' : Gi'.WF) (hGx' : Gx'.WF)
    (hd : Gx.directed = true) (ht : env.test Gi' = env.test Gi) (hp : ∀ p ∈ parts, p.length = Gi.vcount)
    (hm : MovedParts σ parts parts')
    (hdist : ∀ p q, Candidate parts restrict p → Candidate parts restrict q → SameMultilayer Gi Gx l p q →
      SamePartition p q)
    (hr : pruneToMultilayerStable env Gi Gx l model (.memberships parts) W.γ₀ W.γf W.ω₀ W.ωf restrict st =
      (some (.ok (out, H)) : Option _))
    (hr' : pruneToMultilayerStable env' Gi' Gx' l' model (.memberships parts') W.γ₀ W.γf W.ω₀ W.ωf restrict st' =
      (some (.ok (out', H')) : Option _)) :
    (∀ c ∈ out, ∃ c' ∈ out', ∃ m, Moved σ c m ∧ SamePartition m c') ∧
      ∀ c' ∈ out', ∃ c ∈ out, ∃ m, Moved σ c m ∧ SamePartition m c' := by
  have hM' := hM.renumber hi hx hl hGi' hGx'
  have hp' : ∀ p ∈ parts', p.length = Gi'.vcount := by
    intro p' hp'
    obtain ⟨p, hpp, hm⟩ := hm.2 p' hp'
    rw [hm.1, hi.vcount, hp p hpp]
  have emod : ∀ {p p' : List α}, Moved σ p p' → ∀ γ ω, multilayerModularity Gi' Gx' l' γ ω p' =
      multilayerModularity Gi Gx l γ ω p := fun hmv γ ω =>
    multilayerModularity_renumber hi hx hM.intra hGi' hM.inter hGx' hmv hl γ ω
  have hdist' : ∀ p q, Candidate parts' restrict p → Candidate parts' restrict q → SameMultilayer Gi' Gx' l' p q →
      SamePartition p q := by
    intro p' q' hp' hq' hs
    obtain ⟨p, hpm, hpp⟩ := hm.2 p' hp'.1
    obtain ⟨q, hqm, hqq⟩ := hm.2 q' hq'.1
    exact hpp.same hqq (hdist p q (candidate_moved hpp.symm hpm hp') (candidate_moved hqq.symm hqm hq') fun γ ω => by
      rw [← emod hpp, ← emod hqq]; exact hs γ ω)
  have hc := c44_characterisation he hM hp hdist hr
  have hc' := c44_characterisation he' hM' hp' hdist' hr'
  rw [htest, hfs] at hc'
  constructor
  · intro c hco
    obtain ⟨p, hpc, hpr, hst⟩ := (hc c).mp hco
    obtain ⟨p', hp'm, hmv⟩ := hm.1 p hpc.1
    rw [sortedTuple_eq] at hpr
    cases hpr
    obtain ⟨m, hcm, hs, -, -⟩ := canon_moved hi.vertices (hp p hpc.1) hmv
    exact ⟨canon p', (hc' _).mpr ⟨p', candidate_moved hmv hp'm hpc, sortedTuple_eq p',
      stableMultilayer_renumber env.fsolve hM hi hx hl hGi' hGx' hd ht hm (hp p hpc.1) hmv hst⟩, m, hcm, hs⟩
  · intro c' hco
    obtain ⟨p', hpc, hpr, hst⟩ := (hc' c').mp hco
    obtain ⟨p, hpm, hmv⟩ := hm.2 p' hpc.1
    rw [sortedTuple_eq] at hpr
    cases hpr
    obtain ⟨m, hcm, hs, -, -⟩ := canon_moved hi.vertices (hp p hpm) hmv
    exact ⟨canon p, (hc _).mpr ⟨p, candidate_moved hmv.symm hpm hpc, sortedTuple_eq p,
      stableMultilayer_renumber env.fsolve hM' hi.symm hx.symm hl.symm hM.intra hM.inter (hx.directed.trans hd) ht.symm
        hm.symm (hp' p' hpc.1) hmv.symm hst⟩, m, hcm, hs⟩

end

/-! ### Modularity, stated on its own -/

/-- **C79 (modularity).** Modularity does not depend on how vertices are numbered and edges are listed. -/
theorem c79_modularity {G G' : Graph ℝ} {p p' : List Nat} (h : Renumbered σ G G') (hG : G.WF) (hG' : G'.WF)
    (hp : Moved σ p p') (γ : ℝ) : modularity G' γ p' = modularity G γ p := modularity_renumber h hG hG' hp γ

/-- **C79 (multilayer modularity).** -/
theorem c79_multilayer_modularity {Gi Gi' Gx Gx' : Graph ℝ} {l l' p p' : List Nat} (hM : Multilayer Gi Gx l)
    (hi : Renumbered σ Gi Gi') (hx : Renumbered σ Gx Gx') (hGi' : Gi'.WF) (hGx' : Gx'.WF) (hl : Moved σ l l')
    (hp : Moved σ p p') (γ ω : ℝ) :
    multilayerModularity Gi' Gx' l' γ ω p' = multilayerModularity Gi Gx l γ ω p :=
  multilayerModularity_renumber hi hx hM.intra hGi' hM.inter hGx' hp hl γ ω

/-! ### A concrete renumbering: vertices 0 and 5 of the two-layer network change places, its edges are listed in another
order and some undirected ones the other way round -/

/-- `gIntraR` with 0 and 5 exchanged. -/
def gIntraSwap : Graph ℝ := ⟨6, false, [(0, 4), (4, 3), (1, 5), (1, 2)], none⟩
/-- `gInterR` with 0 and 5 exchanged. -/
def gInterSwap : Graph ℝ := ⟨6, true, [(2, 0), (5, 3), (1, 4)], none⟩

theorem swap_lt (v : Nat) : Equiv.swap 0 5 v < 6 ↔ v < 6 := by
  rw [Equiv.swap_apply_def]
  split
  · omega
  · split <;> omega

theorem moved_swap {α : Type} (a b c d e f : α) : Moved (Equiv.swap 0 5) [a, b, c, d, e, f] [f, b, c, d, e, a] := by
  refine ⟨rfl, fun v => ?_⟩
  rw [Equiv.swap_apply_def]
  split
  · subst_vars; rfl
  · split
    · subst_vars; rfl
    · match v with
      | 0 => omega
      | 1 | 2 | 3 | 4 => rfl
      | 5 => omega
      | n + 6 => rfl

example : Renumbered (Equiv.swap 0 5) gIntraR gIntraSwap ∧ Renumbered (Equiv.swap 0 5) gInterR gInterSwap ∧
    gIntraSwap.WF ∧ gInterSwap.WF ∧ Moved (Equiv.swap 0 5) [0, 0, 0, 1, 1, 1] [1, 0, 0, 1, 1, 0] ∧
    gInterR.directed = true ∧ MovedParts (Equiv.swap 0 5) [[0, 0, 1, 0, 0, 1], [0, 1, 2, 3, 4, 5]]
      [[5, 1, 2, 3, 4, 0], [1, 0, 1, 0, 0, 0]] := by
  refine ⟨⟨swap_lt, rfl, rfl, rfl, ?_⟩, ⟨swap_lt, rfl, rfl, rfl, ?_⟩, ⟨by decide, by intro ws h; cases h⟩,
    ⟨by decide, by intro ws h; cases h⟩, moved_swap 0 0 0 1 1 1, rfl, ?_, ?_⟩
  · refine ⟨[((1, 5), none), ((1, 2), none), ((4, 3), none), ((0, 4), none)], ?_, ?_⟩
    · show List.Perm [((0, 4), none), ((4, 3), none), ((1, 5), none), ((1, 2), none)] _
      exact (List.Perm.swap _ _ _).trans (((List.Perm.swap _ _ _).cons _ |>.trans ((List.Perm.swap _ _ _))) |>.trans
        (List.Perm.cons _ ((List.Perm.cons _ (List.Perm.swap _ _ _)).trans (List.Perm.swap _ _ _))))
    · exact .cons ⟨rfl, .inr ⟨rfl, by decide⟩⟩ (.cons ⟨rfl, .inl (by decide)⟩ (.cons ⟨rfl, .inr ⟨rfl, by decide⟩⟩
        (.cons ⟨rfl, .inr ⟨rfl, by decide⟩⟩ .nil)))
  · refine ⟨[((5, 3), none), ((1, 4), none), ((2, 0), none)], ?_, ?_⟩
    · show List.Perm [((2, 0), none), ((5, 3), none), ((1, 4), none)] _
      exact (List.Perm.swap _ _ _).trans (List.Perm.cons _ (List.Perm.swap _ _ _))
    · exact .cons ⟨rfl, .inl (by decide)⟩ (.cons ⟨rfl, .inl (by decide)⟩ (.cons ⟨rfl, .inl (by decide)⟩ .nil))
  · intro p hp
    rcases List.mem_cons.mp hp with rfl | hp
    · exact ⟨_, by simp, moved_swap 0 0 1 0 0 1⟩
    · rw [List.mem_singleton] at hp; subst hp
      exact ⟨_, by simp, moved_swap 0 1 2 3 4 5⟩
  · intro p hp
    rcases List.mem_cons.mp hp with rfl | hp
    · exact ⟨_, by simp, moved_swap 0 1 2 3 4 5⟩
    · rw [List.mem_singleton] at hp; subst hp
      exact ⟨_, by simp, moved_swap 0 0 1 0 0 1⟩

end Verif.Props
