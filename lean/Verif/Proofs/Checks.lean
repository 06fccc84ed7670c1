import Verif.Spec.Checks
import Verif.Proofs.Objective
import Verif.Proofs.History
import Verif.Proofs.Polygon

/-!
# Lemmas about the correctness checks
-/

namespace Verif
open Spec Finset

/-! ### Assertions and loops -/

theorem assertAlmostEqual_fin (x : Fl ℝ) (y : ℝ) :
    (assertAlmostEqual x (.fin y) = .ok () ↔ CloseFl x y) ∧
    (assertAlmostEqual x (.fin y) = .ok () ∨ assertAlmostEqual x (.fin y) = .error .assertionError) := by
  cases x with
  | fin r =>
    unfold assertAlmostEqual CloseFl Close
    by_cases h : |r - y| ≤ 5 / 10 ^ 11
    · simp [h]
    · simp [h]
  | pinf => simp [assertAlmostEqual, CloseFl]
  | ninf => simp [assertAlmostEqual, CloseFl]
  | nan => simp [assertAlmostEqual, CloseFl]

theorem assertAlmostEqual_fin' (x : Fl ℝ) (y : ℝ) :
    (assertAlmostEqual (.fin y) x = .ok () ↔ CloseFl x y) ∧
    (assertAlmostEqual (.fin y) x = .ok () ∨ assertAlmostEqual (.fin y) x = .error .assertionError) := by
  cases x with
  | fin r =>
    unfold assertAlmostEqual CloseFl Close
    simp only [abs_sub_comm y r]
    by_cases h : |r - y| ≤ 5 / 10 ^ 11
    · simp [h]
    · simp [h]
  | pinf => simp [assertAlmostEqual, CloseFl]
  | ninf => simp [assertAlmostEqual, CloseFl]
  | nan => simp [assertAlmostEqual, CloseFl]

theorem closeFl_fin (x y : ℝ) : CloseFl (.fin x) y ↔ Close x y := by
  unfold CloseFl; simp

theorem close_self (x : ℝ) : Close x x := by unfold Close; norm_num

theorem closeFl_self (x : ℝ) : CloseFl (.fin x) x := ⟨x, rfl, close_self x⟩

/-- A loop over checks that pass or fail with an `AssertionError`. -/
theorem pyFor_spec {β : Type} {body : β → Py Unit} {Q : β → Prop} (l : List β)
    (h : ∀ x ∈ l, (body x = .ok () ↔ Q x) ∧ (body x = .ok () ∨ body x = .error .assertionError)) :
    (pyFor l body = .ok () ↔ ∀ x ∈ l, Q x) ∧ (pyFor l body = .ok () ∨ pyFor l body = .error .assertionError) := by
  induction l with
  | nil => simp [pyFor]
  | cons x xs ih =>
    obtain ⟨h1, h2⟩ := h x (by simp)
    have ih' := ih fun y hy => h y (by simp [hy])
    unfold pyFor
    rcases h2 with h2 | h2
    · rw [h2, Py.ok_bind]
      refine ⟨?_, ih'.2⟩
      rw [ih'.1]
      simp [h1.mp h2]
    · rw [h2]
      refine ⟨?_, Or.inr rfl⟩
      constructor
      · intro h; exact absurd h (by simp [bind, Except.bind])
      · intro hall
        have := h1.mpr (hall x (by simp))
        rw [h2] at this; cases this

/-! ### Partition objects without weights -/

/-- The graph as `leiden_part` sees it. -/
def unweighted (G : Graph ℝ) : Graph ℝ := { G with weight := some (List.replicate G.ecount 1) }

theorem unweighted_wf {G : Graph ℝ} (h : G.WF) : (unweighted G).WF :=
  ⟨h.1, by intro ws hw; obtain rfl := Option.some.inj hw; simp [unweighted, Graph.ecount]⟩

theorem leidenPartObj_ok (G : Graph ℝ) {c : List Nat} (hc : c.length = G.vcount) :
    (leidenPartObj G c : Py (PartObj ℝ ℝ)) = .ok ⟨.rb (unweighted G) 1, c⟩ := by
  unfold leidenPartObj VertexPartition.setMembership leidenPart VertexPartition.graph
  rw [if_pos hc]; rfl

theorem leidenObj_quality {q : QualityFn} (hq : LeidenalgQuality q) {G : Graph ℝ} (hG : G.WF) {c : List Nat}
    (hc : c.length = G.vcount) (r γ : ℝ) :
    (⟨.rb (unweighted G) r, c⟩ : PartObj ℝ ℝ).quality q γ = withinAdj G c - γ * withinNull G c := by
  obtain ⟨possible, h⟩ := hq
  unfold PartObj.quality VertexPartition.at
  rw [h]
  exact rbQuality_eq (unweighted_wf hG) rfl hc γ

theorem checkCoefficient2D_spec {q : QualityFn} (hq : LeidenalgQuality q) {G : Graph ℝ} (hG : G.WF) (x : List Nat × ℝ × Fl ℝ)
    (hc : x.1.length = G.vcount) :
    let body : Py Unit := do
      let part ← leidenPartObj G x.1
      let leidenA := part.quality q 0
      let leidenP := leidenA - part.quality q 1
      assertAlmostEqual (.fin x.2.1) (.fin leidenA)
      assertAlmostEqual x.2.2 (.fin leidenP)
    (body = .ok () ↔ Close x.2.1 (withinAdj G x.1) ∧ CloseFl x.2.2 (withinNull G x.1)) ∧
    (body = .ok () ∨ body = .error .assertionError) := by
  intro body
  have hb : body = (do
      assertAlmostEqual (.fin x.2.1) (.fin (withinAdj G x.1))
      assertAlmostEqual x.2.2 (.fin (withinNull G x.1)) : Py Unit) := by
    simp only [body]
    rw [leidenPartObj_ok G hc, Py.ok_bind]
    simp only [leidenObj_quality hq hG hc]
    have h1 : withinAdj G x.1 - 0 * withinNull G x.1 = (withinAdj G x.1 : ℝ) := by ring
    rw [h1, show (withinAdj G x.1 : ℝ) - (withinAdj G x.1 - 1 * withinNull G x.1) = withinNull G x.1 by ring]
  rw [hb]
  obtain ⟨a1, a2⟩ := assertAlmostEqual_fin (.fin x.2.1) (withinAdj G x.1)
  obtain ⟨b1, b2⟩ := assertAlmostEqual_fin x.2.2 (withinNull G x.1)
  rw [closeFl_fin] at a1
  rcases a2 with a2 | a2
  · rw [a2, Py.ok_bind]
    exact ⟨by rw [b1]; simp [a1.mp a2], b2⟩
  · rw [a2]
    refine ⟨⟨fun h => (by cases h), fun h => ?_⟩, Or.inr rfl⟩
    have := a1.mpr h.1
    rw [a2] at this; cases this

theorem checkCoefficients2D_spec {q : QualityFn} (hq : LeidenalgQuality q) {G : Graph ℝ} (hG : G.WF) {parts : List (List Nat)}
    (hp : ∀ c ∈ parts, c.length = G.vcount) (coeffs : List ℝ × List (Fl ℝ)) :
    (checkCoefficients2D q G parts coeffs = .ok () ↔ ∀ x ∈ parts.zip (coeffs.1.zip coeffs.2),
      Close x.2.1 (withinAdj G x.1) ∧ CloseFl x.2.2 (withinNull G x.1)) ∧
    (checkCoefficients2D q G parts coeffs = .ok () ∨ checkCoefficients2D q G parts coeffs = .error .assertionError) := by
  unfold checkCoefficients2D
  exact pyFor_spec _ fun x hx => checkCoefficient2D_spec hq hG x (hp _ (List.of_mem_zip hx).1)

/-! ### Induced subgraphs of the layers -/

theorem zipIdx_range (l : List Nat) : l.zipIdx = (List.range l.length).map fun i => (l.getD i 0, i) := by
  apply List.ext_getElem
  · simp
  · intro i h1 h2
    simp only [List.length_zipIdx] at h1
    simp [List.getD, h1]

theorem layerIndices_eq (layers : List Nat) (t : Nat) :
    layerIndices layers t = (List.range layers.length).filter fun i => decide (layers[i]? = some t) := by
  unfold layerIndices
  rw [zipIdx_range, List.filter_map, List.map_map]
  rw [show (Prod.snd ∘ fun i => (layers.getD i 0, i)) = id from rfl, List.map_id]
  apply List.filter_congr
  intro i hi
  have hi' : i < layers.length := List.mem_range.mp hi
  simp [List.getD, hi', eq_comm]

theorem layerCommunities_eq {layers c : List Nat} (hc : c.length = layers.length) (t : Nat) :
    layerCommunities layers c t = .ok ((layerIndices layers t).map fun i => c.getD i 0) := by
  unfold layerCommunities
  have h1 : (c.zipIdx.mapM fun ci => do
      let l ← pyGet layers ci.2
      return if l = t then some ci.1 else none) =
      (.ok ((List.range c.length).map fun i => if layers[i]? = some t then some (c.getD i 0) else none) : Py _) := by
    rw [zipIdx_range]
    have key : ∀ l : List Nat, (∀ i ∈ l, i < layers.length) →
        ((l.map fun i => (c.getD i 0, i)).mapM fun ci => do
          let l ← pyGet layers ci.2
          return if l = t then some ci.1 else none) =
        (.ok (l.map fun i => if layers[i]? = some t then some (c.getD i 0) else none) : Py _) := by
      intro l hl
      induction l with
      | nil => rfl
      | cons i l ih =>
        have hi := hl i (by simp)
        rw [List.map_cons, List.mapM_cons, ih fun j hj => hl j (by simp [hj])]
        simp only [pyGet, List.getElem?_eq_getElem hi, Py.ok_bind, Py.pure_eq, Option.some.injEq, List.map_cons]
    exact key _ fun i hi => by rw [← hc]; exact List.mem_range.mp hi
  rw [h1, Py.ok_bind, layerIndices_eq, hc, Py.pure_eq]
  congr 1
  induction List.range layers.length with
  | nil => rfl
  | cons i l ih =>
    simp only [List.map_cons, List.filterMap_cons, List.filter_cons]
    by_cases h : layers[i]? = some t
    · simp only [h, if_true, id, decide_true, List.map_cons]; exact congrArg _ ih
    · simp only [h, if_false, id, decide_false, Bool.false_eq_true]; exact ih

section
variable {G : Graph ℝ} {layers : List Nat} (hl : layers.length = G.vcount)
  (hx : ∀ e ∈ G.edges, layers[e.1]? = layers[e.2]?) (t : Nat)

theorem mem_layerIndices {v : Nat} : v ∈ layerIndices layers t ↔ layers[v]? = some t := by
  rw [layerIndices_eq, List.mem_filter]
  simp only [List.mem_range, decide_eq_true_eq, and_iff_right_iff_imp]
  intro h
  exact (List.getElem?_eq_some_iff.mp h).1

theorem nodup_layerIndices : (layerIndices layers t).Nodup := by
  rw [layerIndices_eq]; exact List.nodup_range.filter _

theorem sum_layerIndices {M : Type} [AddCommMonoid M] (n : Nat) (hl : layers.length = n) (g : Nat → M) :
    ∑ a ∈ range (layerIndices layers t).length, g ((layerIndices layers t).getD a 0) =
      ∑ i ∈ range n, if layers[i]? = some t then g i else 0 := by
  have h1 : ∀ l : List Nat, ∑ a ∈ range l.length, g (l.getD a 0) = (l.map g).sum := by
    intro l
    induction l with
    | nil => simp
    | cons x xs ih => rw [List.length_cons, Finset.sum_range_succ']; simp only [List.getD_cons_succ, List.getD_cons_zero, ih, List.map_cons, List.sum_cons, add_comm]
  rw [h1, layerIndices_eq, hl, ← Finset.sum_filter]
  rw [Finset.sum_eq_multiset_sum]
  simp [Finset.filter_val, Finset.range_val, Multiset.range, Multiset.filter_coe]

include hx in
theorem adj_induced {a b : Nat} (ha : a < (layerIndices layers t).length) (hb : b < (layerIndices layers t).length) :
    adj (inducedSubgraph G (layerIndices layers t)) a b =
      adj G ((layerIndices layers t).getD a 0) ((layerIndices layers t).getD b 0) := by
  set vs := layerIndices layers t with hvs
  have hnd : vs.Nodup := nodup_layerIndices t
  have hcount : ∀ a b, a < vs.length → b < vs.length →
      (inducedSubgraph G vs).edges.count (a, b) = G.edges.count (vs.getD a 0, vs.getD b 0) := by
    intro a b ha hb
    unfold inducedSubgraph
    simp only
    rw [List.count, List.countP_map, List.countP_filter, List.count]
    apply List.countP_congr
    intro e _
    have hga : vs.getD a 0 = vs[a] := by simp [List.getD, ha]
    have hgb : vs.getD b 0 = vs[b] := by simp [List.getD, hb]
    rw [hga, hgb]
    simp only [Function.comp_apply, Bool.and_eq_true, beq_iff_eq, decide_eq_true_eq, Prod.mk.injEq]
    constructor
    · rintro ⟨⟨h1, h2⟩, h3, h4⟩
      rw [Prod.ext_iff]
      exact ⟨by simp only [← h1]; exact (List.getElem_idxOf (List.idxOf_lt_length_iff.mpr h3)).symm,
        by simp only [← h2]; exact (List.getElem_idxOf (List.idxOf_lt_length_iff.mpr h4)).symm⟩
    · rintro rfl
      exact ⟨⟨hnd.idxOf_getElem a ha, hnd.idxOf_getElem b hb⟩, List.getElem_mem ha, List.getElem_mem hb⟩
  unfold adj
  rw [show (inducedSubgraph G vs).directed = G.directed from rfl, hcount a b ha hb, hcount b a hb ha]

include hl hx in
theorem induced_null {c : List Nat} (hc : c.length = G.vcount) :
    (withinNull (inducedSubgraph G (layerIndices layers t)) ((layerIndices layers t).map fun i => c.getD i 0) : ℝ) =
      ∑ i ∈ range G.vcount, ∑ j ∈ range G.vcount,
        if c[i]? = c[j]? ∧ layers[i]? = some t ∧ layers[j]? = some t then
          (colSum G i : ℝ) * (rowSum G j : ℝ) / (layerTotal G layers t : ℝ) else 0 := by
  set vs := layerIndices layers t with hvs
  have hvc : (inducedSubgraph G vs).vcount = vs.length := rfl
  have hin : ∀ a < vs.length, layers[vs.getD a 0]? = some t := by
    intro a ha
    rw [show vs.getD a 0 = vs[a] by simp [List.getD, ha]]
    exact (mem_layerIndices t).mp (List.getElem_mem ha)
  have hrow : ∀ a < vs.length, rowSum (inducedSubgraph G vs) a = rowSum G (vs.getD a 0) := by
    intro a ha
    unfold rowSum
    rw [hvc, Finset.sum_congr rfl fun b hb => adj_induced hx t ha (Finset.mem_range.mp hb),
      sum_layerIndices (layers := layers) t G.vcount hl fun j => adj G (vs.getD a 0) j]
    apply Finset.sum_congr rfl
    intro j _
    split
    · rfl
    · rename_i h
      by_contra hne
      exact h ((adj_noCross hx (fun h0 => hne h0.symm)).symm.trans (hin a ha))
  have hcol : ∀ a < vs.length, colSum (inducedSubgraph G vs) a = colSum G (vs.getD a 0) := by
    intro a ha
    unfold colSum
    rw [hvc, Finset.sum_congr rfl fun b hb => adj_induced hx t (Finset.mem_range.mp hb) ha,
      sum_layerIndices (layers := layers) t G.vcount hl fun j => adj G j (vs.getD a 0)]
    apply Finset.sum_congr rfl
    intro j _
    split
    · rfl
    · rename_i h
      by_contra hne
      exact h ((adj_noCross hx (fun h0 => hne h0.symm)).trans (hin a ha))
  have htot : total (inducedSubgraph G vs) = layerTotal G layers t := by
    have : total (inducedSubgraph G vs) = ∑ a ∈ range vs.length, rowSum (inducedSubgraph G vs) a := rfl
    rw [this, Finset.sum_congr rfl fun a ha => hrow a (Finset.mem_range.mp ha),
      sum_layerIndices (layers := layers) t G.vcount hl fun i => rowSum G i]
    unfold layerTotal
    apply Finset.sum_congr rfl
    intro i _
    unfold rowSum
    split <;> simp
  unfold withinNull
  rw [hvc, htot]
  have hget : ∀ a < vs.length, (vs.map fun i => c.getD i 0)[a]? = c[vs.getD a 0]? := by
    intro a ha
    have hv : vs.getD a 0 = vs[a] := by simp [List.getD, ha]
    have hlt : vs[a] < c.length := by
      have := hin a ha
      rw [hv] at this
      rw [hc, ← hl]; exact (List.getElem?_eq_some_iff.mp this).1
    rw [List.getElem?_map, List.getElem?_eq_getElem ha, hv, List.getElem?_eq_getElem hlt]
    simp [List.getD, hlt]
  have h2 : ∀ a ∈ range vs.length, (∑ b ∈ range vs.length,
      if (vs.map fun i => c.getD i 0)[a]? = (vs.map fun i => c.getD i 0)[b]? then
        (colSum (inducedSubgraph G vs) a : ℝ) * (rowSum (inducedSubgraph G vs) b : ℝ) / (layerTotal G layers t : ℝ) else 0) =
      (fun i => ∑ j ∈ range G.vcount, if layers[j]? = some t then
        (if c[i]? = c[j]? then (colSum G i : ℝ) * (rowSum G j : ℝ) / (layerTotal G layers t : ℝ) else 0) else 0)
        (vs.getD a 0) := by
    intro a ha
    have ha' := Finset.mem_range.mp ha
    simp only
    rw [← sum_layerIndices (layers := layers) t G.vcount hl fun j =>
      if c[vs.getD a 0]? = c[j]? then (colSum G (vs.getD a 0) : ℝ) * (rowSum G j : ℝ) / (layerTotal G layers t : ℝ) else 0]
    apply Finset.sum_congr rfl
    intro b hb
    have hb' := Finset.mem_range.mp hb
    rw [hget a ha', hget b hb', hrow b hb', hcol a ha']
  rw [Finset.sum_congr rfl h2, sum_layerIndices (layers := layers) t G.vcount hl (fun i => ∑ j ∈ range G.vcount,
    if layers[j]? = some t then
      (if c[i]? = c[j]? then (colSum G i : ℝ) * (rowSum G j : ℝ) / (layerTotal G layers t : ℝ) else 0) else 0)]
  apply Finset.sum_congr rfl
  intro i _
  split
  · rename_i h
    apply Finset.sum_congr rfl
    intro j _
    by_cases h1 : c[i]? = c[j]? <;> by_cases h3 : layers[j]? = some t <;> simp [h, h1, h3]
  · rename_i h
    symm
    apply Finset.sum_eq_zero
    intro j _
    rw [if_neg]; tauto

end

/-! ### The alternate calculation -/

theorem inducedSubgraph_wf {G : Graph ℝ} {vs : List Nat} : (inducedSubgraph G vs).WF := by
  refine ⟨?_, by intro ws h; cases h⟩
  intro e he
  obtain ⟨x, hx, rfl⟩ := List.mem_map.mp he
  have := (List.mem_filter.mp hx).2
  simp only [decide_eq_true_eq] at this
  exact ⟨List.idxOf_lt_length_iff.mpr this.1, List.idxOf_lt_length_iff.mpr this.2⟩

theorem alternatePHat_ok {q : QualityFn} (hq : LeidenalgQuality q) {G : Graph ℝ} {layers : List Nat}
    (hl : layers.length = G.vcount) (hx : ∀ e ∈ G.edges, layers[e.1]? = layers[e.2]?) {c : List Nat}
    (hc : c.length = G.vcount) {order : List Nat} (ho : order.Perm layers.dedup) :
    alternatePHat q order G layers c = .ok (withinNullLayered G layers c) := by
  have step : ∀ (l : List Nat) (x : ℝ), (l.foldlM (fun acc t => do
      let sub := inducedSubgraph G (layerIndices layers t)
      let c ← layerCommunities layers c t
      let part ← leidenPartObj sub c
      return acc + (part.quality q 0 - part.quality q 1)) x : Py ℝ) =
      .ok (x + (l.map fun t => ∑ i ∈ range G.vcount, ∑ j ∈ range G.vcount,
        if c[i]? = c[j]? ∧ layers[i]? = some t ∧ layers[j]? = some t then
          (colSum G i : ℝ) * (rowSum G j : ℝ) / (layerTotal G layers t : ℝ) else 0).sum) := by
    intro l
    induction l with
    | nil => intro x; simp; rfl
    | cons t l ih =>
      intro x
      rw [List.foldlM_cons]
      simp only [layerCommunities_eq (hc.trans hl.symm), Py.ok_bind]
      have hlen : ((layerIndices layers t).map fun i => c.getD i 0).length =
          (inducedSubgraph G (layerIndices layers t)).vcount := by simp [inducedSubgraph]
      rw [leidenPartObj_ok _ hlen, Py.ok_bind, Py.pure_eq, Py.ok_bind]
      have hstep := ih (x + ((⟨.rb (unweighted (inducedSubgraph G (layerIndices layers t))) 1,
        (layerIndices layers t).map fun i => c.getD i 0⟩ : PartObj ℝ ℝ).quality q 0 -
          (⟨.rb (unweighted (inducedSubgraph G (layerIndices layers t))) 1,
            (layerIndices layers t).map fun i => c.getD i 0⟩ : PartObj ℝ ℝ).quality q 1))
      simp only [layerCommunities_eq (hc.trans hl.symm), Py.ok_bind] at hstep
      rw [hstep]
      rw [leidenObj_quality hq inducedSubgraph_wf hlen, leidenObj_quality hq inducedSubgraph_wf hlen,
        induced_null hl hx t hc, List.map_cons, List.sum_cons]
      congr 1
      ring
  unfold alternatePHat
  rw [step, zero_add, (ho.map _).sum_eq]
  congr 1
  rw [← List.sum_toFinset _ (List.nodup_dedup _)]
  unfold withinNullLayered
  rw [Finset.sum_comm]
  apply Finset.sum_congr rfl; intro i hi
  rw [Finset.sum_comm]
  apply Finset.sum_congr rfl; intro j hj
  have hi' : i < layers.length := by rw [hl]; exact Finset.mem_range.mp hi
  have hj' : j < layers.length := by rw [hl]; exact Finset.mem_range.mp hj
  rw [List.getElem?_eq_getElem hi', List.getElem?_eq_getElem hj']
  simp only [Option.some.injEq, Option.getD_some]
  by_cases h : c[i]? = c[j]? ∧ layers[i] = layers[j]
  · rw [if_pos h, Finset.sum_eq_single layers[i]]
    · rw [if_pos ⟨h.1, rfl, h.2.symm⟩]
    · rintro t - ht
      rw [if_neg (by rintro ⟨-, rfl, -⟩; exact ht rfl)]
    · intro hn
      exact absurd (by simp) hn
  · rw [if_neg h]
    apply Finset.sum_eq_zero
    rintro t -
    rw [if_neg]
    rintro ⟨h1, h2, h3⟩
    exact h ⟨h1, h2.trans h3.symm⟩

/-! ### Multilayer partition objects -/

section
variable {test : Graph ℝ → Bool} {heap : Nat → Graph ℝ}

/-- What a run of `multilayer_leiden_part_with_membership` gives on unweighted multilayer networks. -/
theorem multilayerObj_run {q : QualityFn} (hq : LeidenalgQuality q)
    {obj : Nat} {Gx : Graph ℝ} {layers : List Nat} (hM : Multilayer (heap obj) Gx layers)
    (hx : ∀ e ∈ (heap obj).edges, layers[e.1]? = layers[e.2]?) (hn : layers ≠ [])
    (hwi : UnitWeights (defaulted test (heap obj))) (hwx : UnitWeights (defaulted test Gx))
    {Gi' Gx' : Graph ℝ} (hi : defaulted test Gi' = defaulted test (heap obj)) (hx' : defaulted test Gx' = defaulted test Gx)
    {c : List Nat} (hc : c.length = (heap obj).vcount) {w : World}
    (hw : w.cache.Inv (splitByKey fun o => defaulted test (heap o)) ∧ w.cache.cap = 1) :
    ∃ p w', multilayerLeidenPartObj test obj Gi' Gx' layers c w =
        (.ok (p, defaulted test (heap obj), defaulted test Gx), w') ∧
      (w'.cache.Inv (splitByKey fun o => defaulted test (heap o)) ∧ w'.cache.cap = 1) ∧
      (∀ γ : ℝ, (p.1.map fun x => x.quality q γ).sum =
        withinAdj (heap obj) c - γ * withinNullLayered (heap obj) layers c) ∧
      p.2.quality q 0 = withinAdj Gx c := by
  obtain ⟨ws, hws⟩ : ∃ ws, (defaulted test (heap obj)).weight = some ws := ⟨_, hwi⟩
  have hDwf : (defaulted test (heap obj)).WF := defaulted_wf hM.intra
  obtain ⟨s1, s2, s3⟩ := defaulted_shape test (heap obj)
  obtain ⟨x1, x2, x3⟩ := defaulted_shape test Gx
  obtain ⟨T, hT, hT', -, -⟩ := countLayers_ok hn
  have hsplit := splitLayers_ok hDwf hws (hM.layers.trans s1.symm) hT hT'
  obtain ⟨i1, i2, i3⟩ := splitIntralayer_inv (heap := fun o => defaulted test (heap o)) (obj := obj) hDwf hws layers hw.1
  rw [hsplit] at i2
  set D := defaulted test (heap obj) with hD
  have hadj : ∀ c : List Nat, (withinAdj D c : ℝ) = withinAdj (heap obj) c := by
    intro c; unfold withinAdj adj; rw [s1, s2, s3]
  have hnull : ∀ c : List Nat, (withinNullLayered D layers c : ℝ) = withinNullLayered (heap obj) layers c := by
    intro c; unfold withinNullLayered rowSum colSum layerTotal adj; rw [s1, s2, s3]
  have hcD : c.length = D.vcount := hc.trans s1.symm
  have hmap : ((((List.range T).map (layerGraph D ws layers)).map fun G => (VertexPartition.rb G 1 : VertexPartition ℝ ℝ)).mapM
      fun p => p.setMembership c) =
      (.ok ((((List.range T).map (layerGraph D ws layers))).map fun G => ⟨.rb G 1, c⟩) : Py (List (PartObj ℝ ℝ))) := by
    induction List.range T with
    | nil => rfl
    | cons t l ih =>
      rw [List.map_cons, List.map_cons, List.mapM_cons, ih, VertexPartition.setMembership, VertexPartition.graph,
        if_pos (show c.length = (layerGraph D ws layers t).vcount from hcD)]
      rfl
  refine ⟨(((List.range T).map (layerGraph D ws layers)).map fun G => ⟨.rb G 1, c⟩, ⟨.cpm (defaulted test Gx) 0, c⟩),
    { w with cache := (splitIntralayer w.cache obj D layers).1 }, ?_, ⟨i1, i3.trans hw.2⟩, ?_, ?_⟩
  · have e1 : multilayerLeidenPart test obj Gi' Gx' layers w =
        (.ok ((((List.range T).map (layerGraph D ws layers)).map fun G => .rb G 1, .cpm (defaulted test Gx) 0), D,
          defaulted test Gx), { w with cache := (splitIntralayer w.cache obj D layers).1 }) := by
      unfold multilayerLeidenPart
      rw [ensureWeight_ecount, Prog.lift_ok, ensureWeight_ecount, Prog.lift_ok, Prog.bind_eq]
      rw [hi, hx']
      simp only [Prog.split, i2]
      rfl
    unfold multilayerLeidenPartObj
    rw [Prog.bind_eq, e1]
    simp only
    rw [hmap, Prog.lift_ok]
    rw [VertexPartition.setMembership, VertexPartition.graph, if_pos (hc.trans (x1.trans hM.vcount).symm), Prog.lift_ok]
    rfl
  · intro γ
    obtain ⟨possible, hq⟩ := hq
    rw [List.map_map, List.map_map]
    have hqf : (((fun x : PartObj ℝ ℝ => x.quality q γ) ∘ fun G => (⟨.rb G 1, c⟩ : PartObj ℝ ℝ)) ∘ layerGraph D ws layers) =
        fun t => withinAdj (layerGraph D ws layers t) c - γ * withinNull (layerGraph D ws layers t) c := by
      funext t
      simp only [Function.comp_apply, PartObj.quality, VertexPartition.at, hq, quality]
      exact rbQuality_eq (layerGraph_wf hDwf ws layers t) (layerGraph_unit hwi hws layers t).1 hcD γ
    rw [hqf, list_range_sum, Finset.sum_sub_distrib, ← Finset.mul_sum,
      sum_layers_adj hwi hws (hM.layers.trans s1.symm) (by rw [s2]; exact hx) hT',
      sum_layers_null hwi hws (hM.layers.trans s1.symm) (by rw [s2]; exact hx) hT', hadj, hnull]
  · obtain ⟨possible, hq⟩ := hq
    simp only [PartObj.quality, VertexPartition.at, hq, quality]
    rw [cpmQuality_zero possible (defaulted_wf hM.inter) hwx (hc.trans (x1.trans hM.vcount).symm)]
    unfold withinAdj adj; rw [x1, x2, x3]

/-- Folding a check: it succeeds iff every step does, and otherwise fails with an `AssertionError`. -/
theorem progFold_spec {σ β : Type} {body : σ → β → Prog σ} {I : σ → Prop} {J : World → Prop} {Q : β → Prop} {l : List β}
    (hb : ∀ x ∈ l, ∀ s w, I s → J w → J (body s x w).2 ∧
      ((Q x ∧ ∃ s', (body s x w).1 = .ok s' ∧ I s') ∨ (¬ Q x ∧ (body s x w).1 = .error .assertionError)))
    (s : σ) (w : World) (hs : I s) (hw : J w) :
    J (progFold body l s w).2 ∧
      (((∀ x ∈ l, Q x) ∧ ∃ s', (progFold body l s w).1 = .ok s' ∧ I s') ∨
        ((¬ ∀ x ∈ l, Q x) ∧ (progFold body l s w).1 = .error .assertionError)) := by
  induction l generalizing s w with
  | nil => exact ⟨hw, Or.inl ⟨by simp, s, rfl, hs⟩⟩
  | cons x xs ih =>
    obtain ⟨h1, h2⟩ := hb x (by simp) s w hs hw
    have hrun : progFold body (x :: xs) s w = match body s x w with
        | (.ok a, w') => progFold body xs a w'
        | (.error e, w') => (.error e, w') := by
      show (body s x >>= _) w = _
      rw [Prog.bind_eq]
      rcases body s x w with ⟨_ | a, w'⟩ <;> rfl
    rw [hrun]
    generalize body s x w = bw at h1 h2
    obtain ⟨r, w'⟩ := bw
    rcases h2 with ⟨hQ, s', hr, hs'⟩ | ⟨hQ, hr⟩
    · simp only at hr
      subst hr
      obtain ⟨g1, g2⟩ := ih (fun y hy => hb y (by simp [hy])) s' w' hs' h1
      refine ⟨g1, ?_⟩
      rcases g2 with ⟨g2, g3⟩ | ⟨g2, g3⟩
      · exact Or.inl ⟨by simpa using ⟨hQ, g2⟩, g3⟩
      · exact Or.inr ⟨fun h => g2 fun y hy => h y (by simp [hy]), g3⟩
    · simp only at hr
      subst hr
      exact ⟨h1, Or.inr ⟨fun h => hQ (h x (by simp)), rfl⟩⟩

theorem checkCoefficient3D_spec {q : QualityFn} (hq : LeidenalgQuality q) {order : List Nat}
    {obj : Nat} {Gx : Graph ℝ} {layers : List Nat} (ho : order.Perm layers.dedup) (hM : Multilayer (heap obj) Gx layers)
    (hx : ∀ e ∈ (heap obj).edges, layers[e.1]? = layers[e.2]?) (hn : layers ≠ [])
    (hwi : UnitWeights (defaulted test (heap obj))) (hwx : UnitWeights (defaulted test Gx))
    (s : Graph ℝ × Graph ℝ) (hs : defaulted test s.1 = defaulted test (heap obj) ∧ defaulted test s.2 = defaulted test Gx)
    (x : List Nat × ℝ × Fl ℝ × ℝ) (hc : x.1.length = (heap obj).vcount) {w : World}
    (hw : w.cache.Inv (splitByKey fun o => defaulted test (heap o)) ∧ w.cache.cap = 1) :
    let Q := Close x.2.1 (withinAdj (heap obj) x.1) ∧ CloseFl x.2.2.1 (withinNullLayered (heap obj) layers x.1) ∧
      Close x.2.2.2 (withinAdj Gx x.1)
    let r := checkCoefficient3D q test order obj layers s x w
    (r.2.cache.Inv (splitByKey fun o => defaulted test (heap o)) ∧ r.2.cache.cap = 1) ∧
    ((Q ∧ ∃ s', r.1 = .ok s' ∧ defaulted test s'.1 = defaulted test (heap obj) ∧ defaulted test s'.2 = defaulted test Gx) ∨
      (¬ Q ∧ r.1 = .error .assertionError)) := by
  intro Q r
  obtain ⟨p, w', hrun, hinv, hintra, hinter⟩ := multilayerObj_run hq hM hx hn hwi hwx hs.1 hs.2 hc hw
  obtain ⟨s1, s2, s3⟩ := defaulted_shape test (heap obj)
  have halt : alternatePHat q order (defaulted test (heap obj)) layers x.1 =
      .ok (withinNullLayered (heap obj) layers x.1) := by
    rw [alternatePHat_ok hq (hM.layers.trans s1.symm) (by rw [s2]; exact hx) (hc.trans s1.symm) ho]
    unfold withinNullLayered rowSum colSum layerTotal adj; rw [s1, s2, s3]
  have hr : r = (do
      Prog.lift (assertAlmostEqual (.fin x.2.1) (.fin (withinAdj (heap obj) x.1)))
      Prog.lift (assertAlmostEqual x.2.2.1 (.fin (withinNullLayered (heap obj) layers x.1)))
      Prog.lift (assertAlmostEqual (.fin x.2.2.2) (.fin (withinAdj Gx x.1)))
      let alternate ← Prog.lift (.ok (withinNullLayered (heap obj) layers x.1))
      Prog.lift (assertAlmostEqual (.fin alternate) x.2.2.1)
      return (defaulted test (heap obj), defaulted test Gx) : Prog (Graph ℝ × Graph ℝ)) w' := by
    simp only [r]
    unfold checkCoefficient3D
    rw [Prog.bind_eq, hrun]
    simp only [hintra, hinter, halt]
    rw [show withinAdj (heap obj) x.1 - 0 * withinNullLayered (heap obj) layers x.1 = (withinAdj (heap obj) x.1 : ℝ) by ring,
      show (withinAdj (heap obj) x.1 : ℝ) - (withinAdj (heap obj) x.1 - 1 * withinNullLayered (heap obj) layers x.1) =
        withinNullLayered (heap obj) layers x.1 by ring]
  rw [hr]
  obtain ⟨a1, a2⟩ := assertAlmostEqual_fin (.fin x.2.1) (withinAdj (heap obj) x.1)
  obtain ⟨b1, b2⟩ := assertAlmostEqual_fin x.2.2.1 (withinNullLayered (heap obj) layers x.1)
  obtain ⟨c1, c2⟩ := assertAlmostEqual_fin (.fin x.2.2.2) (withinAdj Gx x.1)
  obtain ⟨d1, d2⟩ := assertAlmostEqual_fin' x.2.2.1 (withinNullLayered (heap obj) layers x.1)
  rw [closeFl_fin] at a1 c1
  rcases a2 with a2 | a2
  · rcases b2 with b2 | b2
    · rcases c2 with c2 | c2
      · have d2 := d1.mpr (b1.mp b2)
        rw [a2, b2, c2, Prog.lift_ok, Prog.lift_ok, Prog.lift_ok, Prog.lift_ok, d2, Prog.lift_ok, Prog.pure_eq]
        exact ⟨hinv, Or.inl ⟨⟨a1.mp a2, b1.mp b2, c1.mp c2⟩, _, rfl, defaulted_idem _ _, defaulted_idem _ _⟩⟩
      · rw [a2, b2, c2, Prog.lift_ok, Prog.lift_ok, Prog.lift_error]
        refine ⟨hinv, Or.inr ⟨fun h => ?_, rfl⟩⟩
        have := c1.mpr h.2.2
        rw [c2] at this; cases this
    · rw [a2, b2, Prog.lift_ok, Prog.lift_error]
      refine ⟨hinv, Or.inr ⟨fun h => ?_, rfl⟩⟩
      have := b1.mpr h.2.1
      rw [b2] at this; cases this
  · rw [a2, Prog.lift_error]
    refine ⟨hinv, Or.inr ⟨fun h => ?_, rfl⟩⟩
    have := a1.mpr h.1
    rw [a2] at this; cases this

/-- The dictionaries of partition objects. -/
theorem buildObjs_run {q : QualityFn} (hq : LeidenalgQuality q)
    {obj : Nat} {Gx : Graph ℝ} {layers : List Nat} (hM : Multilayer (heap obj) Gx layers)
    (hx : ∀ e ∈ (heap obj).edges, layers[e.1]? = layers[e.2]?) (hn : layers ≠ [])
    (hwi : UnitWeights (defaulted test (heap obj))) (hwx : UnitWeights (defaulted test Gx)) (parts : List (List Nat))
    (hp : ∀ c ∈ parts, c.length = (heap obj).vcount) (gs : Graph ℝ × Graph ℝ)
    (acc : List (List Nat × List (PartObj ℝ ℝ) × PartObj ℝ ℝ))
    (hs : defaulted test gs.1 = defaulted test (heap obj) ∧ defaulted test gs.2 = defaulted test Gx) {w : World}
    (hw : w.cache.Inv (splitByKey fun o => defaulted test (heap o)) ∧ w.cache.cap = 1) :
    ∃ gs' objs w', progFold (fun (s : (Graph ℝ × Graph ℝ) × List (List Nat × List (PartObj ℝ ℝ) × PartObj ℝ ℝ)) p => do
        let r ← multilayerLeidenPartObj test obj s.1.1 s.1.2 layers p
        return (r.2, s.2 ++ [(p, r.1)])) parts (gs, acc) w = (.ok (gs', acc ++ objs), w') ∧
      List.Forall₂ (fun p o => o.1 = p ∧ ∀ γ ω, multilayerQuality q γ ω o.2 = multilayerModularity (heap obj) Gx layers γ ω p)
        parts objs := by
  induction parts generalizing gs acc w with
  | nil => exact ⟨gs, [], w, by rw [List.append_nil]; rfl, .nil⟩
  | cons p ps ih =>
    obtain ⟨o, w', hrun, hinv, hintra, hinter⟩ := multilayerObj_run hq hM hx hn hwi hwx hs.1 hs.2 (hp p (by simp)) hw
    obtain ⟨gs', objs, w'', h1, h2⟩ := ih (fun c hc => hp c (by simp [hc])) (defaulted test (heap obj), defaulted test Gx)
      (acc ++ [(p, o)]) ⟨defaulted_idem _ _, defaulted_idem _ _⟩ hinv
    refine ⟨gs', (p, o) :: objs, w'', ?_, .cons ⟨rfl, ?_⟩ h2⟩
    · unfold progFold
      rw [Prog.bind_eq, Prog.bind_eq, hrun]
      simp only [Prog.pure_eq]
      rw [h1, List.append_assoc]; rfl
    · intro γ ω
      unfold multilayerQuality multilayerModularity
      rw [hintra, hinter]

end

/-! ### Polygons -/

theorem orient_lineMap (a b p g : ℝ × ℝ) (e : ℝ) :
    orient a b ((1 - e) • p + e • g) = (1 - e) * orient a b p + e * orient a b g := by
  unfold orient; simp; ring

/-- The closed polygon: the points weakly on the inner side of every edge. -/
theorem StrictPoly.hull_iff {s : ℝ} {l : List (ℝ × ℝ)} (h : StrictPoly s l) (p : ℝ × ℝ) :
    p ∈ convexHull ℝ {r | r ∈ l} ↔ ∀ i < l.length, s * orient (vtx l i) (vtx l ((i + 1) % l.length)) p ≤ 0 := by
  constructor
  · intro hp i hi
    have : convexHull ℝ {r | r ∈ l} ⊆ {r | s * orient (vtx l i) (vtx l ((i + 1) % l.length)) r ≤ 0} :=
      convexHull_min (fun r hr => h.side_le hi hr) (orient_convex s _ _)
    exact this hp
  · intro hp
    set g : ℝ × ℝ := ((l.map Prod.fst).sum / l.length, (l.map Prod.snd).sum / l.length) with hg
    have hclosed : IsClosed (convexHull ℝ {r | r ∈ l}) := (List.finite_toSet l).isClosed_convexHull (𝕜 := ℝ)
    rw [← hclosed.closure_eq]
    have hcont : Filter.Tendsto (fun e : ℝ => (1 - e) • p + e • g) (nhdsWithin 0 (Set.Ioi 0)) (nhds p) := by
      have : Filter.Tendsto (fun e : ℝ => (1 - e) • p + e • g) (nhds 0) (nhds ((1 - (0:ℝ)) • p + (0:ℝ) • g)) := by
        apply Continuous.tendsto
        fun_prop
      rw [sub_zero, one_smul, zero_smul, add_zero] at this
      exact this.mono_left nhdsWithin_le_nhds
    refine mem_closure_of_tendsto hcont ?_
    have hev : ∀ᶠ e : ℝ in nhdsWithin 0 (Set.Ioi 0), 0 < e ∧ e < 1 := by
      have := Ioo_mem_nhdsGT (zero_lt_one : (0:ℝ) < 1)
      exact Filter.mem_of_superset this fun e he => ⟨he.1, he.2⟩
    filter_upwards [hev] with e he
    refine interior_subset ((h.interior_iff _).mpr ?_)
    intro i hi
    rw [orient_lineMap]
    have h1 := hp i hi
    have h2 := h.centroid_side hi
    rw [← hg] at h2
    have : s * ((1 - e) * orient (vtx l i) (vtx l ((i + 1) % l.length)) p +
        e * orient (vtx l i) (vtx l ((i + 1) % l.length)) g) =
        (1 - e) * (s * orient (vtx l i) (vtx l ((i + 1) % l.length)) p) +
        e * (s * orient (vtx l i) (vtx l ((i + 1) % l.length)) g) := by ring
    rw [this]
    have := mul_nonpos_of_nonneg_of_nonpos (by linarith [he.2] : 0 ≤ 1 - e) h1
    have := mul_neg_of_pos_of_neg he.1 h2
    linarith

theorem leftOrOn_eq (a b p : ℝ × ℝ) : leftOrOn a b p = true ↔ orient a b p ≤ 0 := by
  unfold leftOrOn orient
  rw [decide_eq_true_eq]
  constructor <;> intro h <;> linarith

theorem inside_iff {l : List (ℝ × ℝ)} (p : ℝ × ℝ) : insideChampDomain l p = true ↔
    ∀ i < l.length, (orient (vtx l i) (vtx l ((i + 1) % l.length)) (centroid l) ≤ 0 ↔
      orient (vtx l i) (vtx l ((i + 1) % l.length)) p ≤ 0) := by
  unfold insideChampDomain
  simp only [List.all_eq_true, List.mem_range]
  apply forall₂_congr
  intro i hi
  have hj : (i + 1) % l.length < l.length := Nat.mod_lt _ (by omega)
  rw [List.getElem?_eq_getElem hi, List.getElem?_eq_getElem hj, vtx_eq hi, vtx_eq hj]
  simp only [beq_iff_eq]
  rw [← leftOrOn_eq, ← leftOrOn_eq, Bool.eq_iff_iff]

theorem inside_clockwise {l : List (ℝ × ℝ)} (h : StrictPoly 1 l) (p : ℝ × ℝ) :
    insideChampDomain l p = true ↔ p ∈ convexHull ℝ {r | r ∈ l} := by
  rw [inside_iff, h.hull_iff]
  apply forall₂_congr
  intro i hi
  have := h.centroid_side hi
  rw [one_mul] at this ⊢
  exact ⟨fun e => e.mp this.le, fun e => ⟨fun _ => e, fun _ => this.le⟩⟩

theorem inside_counterclockwise {l : List (ℝ × ℝ)} (h : StrictPoly (-1) l) (p : ℝ × ℝ) :
    insideChampDomain l p = true ↔ p ∈ interior (convexHull ℝ {r | r ∈ l}) := by
  rw [inside_iff, h.interior_iff]
  apply forall₂_congr
  intro i hi
  have h1 := h.centroid_side hi
  have h2 : ¬ orient (vtx l i) (vtx l ((i + 1) % l.length)) (centroid l) ≤ 0 := by
    intro hc
    unfold centroid at hc
    linarith
  constructor
  · intro e
    have := mt e.mpr h2
    linarith
  · intro e
    exact ⟨fun hc => absurd hc h2, fun hc => by linarith⟩

end Verif
