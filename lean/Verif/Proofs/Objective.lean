import Verif.Spec.Leidenalg
import Verif.Proofs.Leiden
import Verif.Proofs.Coefficients3D

/-!
# leidenalg's objective and modularity
-/

namespace Verif
open Spec Finset

section
variable {F : Type} [Field F] [LinearOrder F] [IsStrictOrderedRing F]

theorem unit_wEdges {G : Graph F} (h : UnitWeights G) : wEdges G = G.edges.map fun e => (e, 1) := by
  unfold wEdges
  rw [h, Option.getD_some, zip_replicate_one]

theorem sum_commWeight {G : Graph F} (hG : G.WF) (hw : UnitWeights G) {c : List Nat} (hc : c.length = G.vcount) :
    (if G.directed then 1 else 2) * ∑ k ∈ c.toFinset, commWeight G c k = withinAdj G c := by
  have h1 : ∑ k ∈ c.toFinset, commWeight G c k =
      ∑ i ∈ range G.vcount, ∑ j ∈ range G.vcount, if c[i]? = c[j]? then (G.edges.count (i, j) : F) else 0 := by
    have : ∀ k, commWeight G c k = ∑ i ∈ range G.vcount, ∑ j ∈ range G.vcount, (G.edges.count (i, j) : F) *
        (if c[i]? = some k ∧ c[j]? = some k then 1 else 0) := by
      intro k
      unfold commWeight
      rw [unit_wEdges hw, List.map_map]
      exact edge_sum (M := F) G.vcount G.edges hG.1 (fun i j => if c[i]? = some k ∧ c[j]? = some k then 1 else 0)
    simp only [this]
    rw [Finset.sum_comm]
    apply Finset.sum_congr rfl; intro i hi
    rw [Finset.sum_comm]
    apply Finset.sum_congr rfl; intro j hj
    have hi' : i < c.length := by rw [hc]; exact Finset.mem_range.mp hi
    have hj' : j < c.length := by rw [hc]; exact Finset.mem_range.mp hj
    rw [← Finset.mul_sum]
    rw [List.getElem?_eq_getElem hi', List.getElem?_eq_getElem hj']
    simp only [Option.some.injEq]
    by_cases h : c[i] = c[j]
    · rw [if_pos h, h]
      simp
    · rw [if_neg h]
      rw [Finset.sum_eq_zero, mul_zero]
      rintro k -
      rw [if_neg]
      rintro ⟨rfl, h2⟩
      exact h h2.symm
  rw [h1]
  unfold withinAdj adj
  cases hd : G.directed with
  | true => simp
  | false =>
    simp only [Bool.false_eq_true, if_false, Nat.cast_add]
    have h2 : (∑ i ∈ range G.vcount, ∑ j ∈ range G.vcount,
        if c[i]? = c[j]? then (G.edges.count (i, j) : F) + (G.edges.count (j, i) : F) else 0) =
        (∑ i ∈ range G.vcount, ∑ j ∈ range G.vcount, if c[i]? = c[j]? then (G.edges.count (i, j) : F) else 0) +
        ∑ i ∈ range G.vcount, ∑ j ∈ range G.vcount, if c[i]? = c[j]? then (G.edges.count (j, i) : F) else 0 := by
      rw [← Finset.sum_add_distrib]
      apply Finset.sum_congr rfl; intro i _
      rw [← Finset.sum_add_distrib]
      apply Finset.sum_congr rfl; intro j _
      split <;> simp
    rw [h2, Finset.sum_comm (f := fun i j => if c[i]? = c[j]? then (G.edges.count (j, i) : F) else 0)]
    have h3 : (∑ y ∈ range G.vcount, ∑ x ∈ range G.vcount, if c[x]? = c[y]? then (G.edges.count (y, x) : F) else 0) =
        ∑ i ∈ range G.vcount, ∑ j ∈ range G.vcount, if c[i]? = c[j]? then (G.edges.count (i, j) : F) else 0 := by
      apply Finset.sum_congr rfl; intro i _
      apply Finset.sum_congr rfl; intro j _
      simp only [eq_comm]
    rw [h3]; ring

theorem unit_fromComm {G : Graph F} (hG : G.WF) (hw : UnitWeights G) (c : List Nat) (k : Nat) :
    fromComm G c k = ∑ v ∈ range G.vcount, if c[v]? = some k then (rowSum G v : F) else 0 := by
  unfold fromComm
  rw [unit_wEdges hw, List.map_map]
  cases hd : G.directed with
  | false =>
    have := unit_wStrength hG hd c k
    unfold wStrength at this
    rw [List.map_map] at this
    rw [← this]
    simp [Function.comp_def]
  | true =>
    have := edge_sum (M := F) G.vcount G.edges hG.1 (fun i _ => if c[i]? = some k then 1 else 0)
    simp only [Function.comp_def, Bool.true_eq_false, false_and, if_false, add_zero]
    rw [this]
    apply Finset.sum_congr rfl; intro i _
    unfold rowSum adj
    simp only [hd, if_true]
    by_cases h : c[i]? = some k <;> simp [h]

theorem unit_toComm {G : Graph F} (hG : G.WF) (hw : UnitWeights G) (c : List Nat) (k : Nat) :
    toComm G c k = ∑ v ∈ range G.vcount, if c[v]? = some k then (colSum G v : F) else 0 := by
  unfold toComm
  rw [unit_wEdges hw, List.map_map]
  cases hd : G.directed with
  | false =>
    have := unit_wStrength hG hd c k
    unfold wStrength at this
    rw [List.map_map] at this
    simp only [colSum_eq_rowSum hd]
    rw [← this]
    simp [Function.comp_def, add_comm]
  | true =>
    have := edge_sum (M := F) G.vcount G.edges hG.1 (fun _ j => if c[j]? = some k then 1 else 0)
    simp only [Function.comp_def, Bool.true_eq_false, false_and, if_false, add_zero]
    rw [this, Finset.sum_comm]
    apply Finset.sum_congr rfl; intro i _
    unfold colSum adj
    simp only [hd, if_true]
    by_cases h : c[i]? = some k <;> simp [h]

/-- leidenalg's quality of an unweighted graph is modularity. -/
theorem rbQuality_eq {G : Graph F} (hG : G.WF) (hw : UnitWeights G) {c : List Nat} (hc : c.length = G.vcount) (γ : F) :
    rbQuality G γ c = withinAdj G c - γ * withinNull G c := by
  have htot : wTotal (wEdges G) = (G.ecount : F) := by rw [unit_wEdges hw, unit_wTotal]; rfl
  unfold rbQuality
  rw [htot]
  by_cases he : G.ecount = 0
  · rw [if_pos (by rw [he]; simp)]
    have hempty : G.edges = [] := List.length_eq_zero_iff.mp he
    have hadj : ∀ i j, adj G i j = 0 := by intro i j; simp [adj, hempty]
    simp [withinAdj, withinNull, colSum, rowSum, hadj]
  · have he' : (G.ecount : F) ≠ 0 := by exact_mod_cast he
    rw [if_neg he', Finset.sum_sub_distrib, mul_sub, sum_commWeight hG hw hc]
    congr 1
    simp only [unit_fromComm hG hw, unit_toComm hG hw]
    have hp := pair_sum c (fun _ => (1 : F)) (fun v => (colSum G v : F)) (fun v => (rowSum G v : F))
    simp only [one_mul, hc] at hp
    have hk : ∀ k, γ * (∑ v ∈ range G.vcount, if c[v]? = some k then (rowSum G v : F) else 0) *
        (∑ v ∈ range G.vcount, if c[v]? = some k then (colSum G v : F) else 0) /
          ((if G.directed then 1 else 4) * (G.ecount : F)) =
        (γ / ((if G.directed then 1 else 4) * (G.ecount : F))) *
        ((∑ v ∈ range G.vcount, if c[v]? = some k then (colSum G v : F) else 0) *
          (∑ v ∈ range G.vcount, if c[v]? = some k then (rowSum G v : F) else 0)) := by
      intro k; ring
    simp only [hk]
    rw [← Finset.mul_sum, hp]
    have hnull : withinNull G c = (∑ i ∈ range G.vcount, ∑ j ∈ range G.vcount,
        if c[i]? = c[j]? then (Option.map (fun _ => (1 : F)) c[i]?).getD 0 * ((colSum G i : F) * (rowSum G j : F)) else 0) /
          (total G : F) := by
      unfold withinNull
      rw [Finset.sum_div]
      apply Finset.sum_congr rfl; intro i hi
      rw [Finset.sum_div]
      apply Finset.sum_congr rfl; intro j _
      have hi' : i < c.length := by rw [hc]; exact Finset.mem_range.mp hi
      rw [List.getElem?_eq_getElem hi']
      split <;> simp
    rw [hnull, total_eq hG]
    cases G.directed with
    | true => simp only [if_true]; field_simp
    | false =>
      simp only [Bool.false_eq_true, if_false]
      push_cast
      field_simp
      ring

/-- … and the quality of the interlayer part is the weight of the coupled pairs. -/
theorem cpmQuality_zero (possible : Bool → Nat → F) {G : Graph F} (hG : G.WF) (hw : UnitWeights G) {c : List Nat}
    (hc : c.length = G.vcount) : cpmQuality possible G 0 c = withinAdj G c := by
  unfold cpmQuality
  simp only [zero_mul, sub_zero]
  exact sum_commWeight hG hw hc

/-! ### The layers of an unweighted graph -/

/-- The layer graph of an unweighted graph. -/
theorem layerGraph_unit {G : Graph F} (hw : UnitWeights G) {ws : List F} (hws : G.weight = some ws) (layers : List Nat)
    (t : Nat) : UnitWeights (layerGraph G ws layers t) ∧
      (layerGraph G ws layers t).edges = G.edges.filter fun e => decide (layers[e.1]? = some t) := by
  have h : ws = List.replicate G.edges.length 1 := by
    have := hw; unfold UnitWeights at this; rw [hws] at this; exact Option.some.inj this
  subst h
  have hl : layerOf (G.edges.zip (List.replicate G.edges.length (1 : F))) layers t =
      (G.edges.filter fun e => decide (layers[e.1]? = some t)).map fun e => (e, 1) := by
    rw [zip_replicate_one]
    unfold layerOf
    rw [List.filter_map]; rfl
  unfold UnitWeights layerGraph
  simp only [hl, List.map_map, List.length_map]
  constructor
  · congr 1
    rw [List.eq_replicate_iff]
    simp
    rintro b x y - - rfl
    rfl
  · simp [Function.comp_def]

theorem layerGraph_wf {G : Graph F} (hG : G.WF) (ws : List F) (layers : List Nat) (t : Nat) :
    (layerGraph G ws layers t).WF := by
  refine ⟨?_, ?_⟩
  · intro e he
    obtain ⟨x, hx, rfl⟩ := List.mem_map.mp he
    exact hG.1 x.1 (List.of_mem_zip (List.mem_of_mem_filter hx)).1
  · intro gw hgw
    obtain rfl := Option.some.inj hgw
    simp [layerGraph]

theorem adj_noCross {G : Graph F} {layers : List Nat} (hx : ∀ e ∈ G.edges, layers[e.1]? = layers[e.2]?) {i j : Nat}
    (h : adj G i j ≠ 0) : layers[i]? = layers[j]? := by
  unfold adj at h
  split at h
  · exact hx (i, j) (List.count_pos_iff.mp (by omega))
  · by_cases h1 : G.edges.count (i, j) = 0
    · exact (hx (j, i) (List.count_pos_iff.mp (by omega))).symm
    · exact hx (i, j) (List.count_pos_iff.mp (by omega))

theorem adj_layerGraph {G : Graph F} (hw : UnitWeights G) {ws : List F} (hws : G.weight = some ws) {layers : List Nat}
    (hx : ∀ e ∈ G.edges, layers[e.1]? = layers[e.2]?) (t i j : Nat) :
    adj (layerGraph G ws layers t) i j = if layers[i]? = some t then adj G i j else 0 := by
  have hcount : ∀ a b, (layerGraph G ws layers t).edges.count (a, b) =
      if layers[a]? = some t then G.edges.count (a, b) else 0 := by
    intro a b
    rw [(layerGraph_unit hw hws layers t).2]
    split
    · rename_i h; rw [List.count_filter (by simpa using h)]
    · rename_i h
      rw [List.count_eq_zero]
      intro hm
      exact h (by simpa using (List.mem_filter.mp hm).2)
  unfold adj
  simp only [hcount]
  rw [show (layerGraph G ws layers t).directed = G.directed from rfl]
  cases hd : G.directed with
  | true => simp
  | false =>
    simp only [Bool.false_eq_true, if_false]
    by_cases h0 : G.edges.count (j, i) = 0
    · simp [h0]
    · have := hx (j, i) (List.count_pos_iff.mp (by omega))
      simp only at this
      rw [this]
      split <;> simp

theorem layerGraph_null {G : Graph F} (hw : UnitWeights G) {ws : List F} (hws : G.weight = some ws) {layers : List Nat}
    (hx : ∀ e ∈ G.edges, layers[e.1]? = layers[e.2]?) (c : List Nat) (t : Nat) :
    withinNull (layerGraph G ws layers t) c = ∑ i ∈ range G.vcount, ∑ j ∈ range G.vcount,
      if c[i]? = c[j]? ∧ layers[i]? = some t ∧ layers[j]? = some t then
        (colSum G i : F) * (rowSum G j : F) / (layerTotal G layers t : F) else 0 := by
  have hrow : ∀ i, rowSum (layerGraph G ws layers t) i = if layers[i]? = some t then rowSum G i else 0 := by
    intro i
    unfold rowSum
    simp only [adj_layerGraph hw hws hx]
    rw [show (layerGraph G ws layers t).vcount = G.vcount from rfl]
    split <;> simp
  have hcol : ∀ j, colSum (layerGraph G ws layers t) j = if layers[j]? = some t then colSum G j else 0 := by
    intro j
    unfold colSum
    simp only [adj_layerGraph hw hws hx]
    rw [show (layerGraph G ws layers t).vcount = G.vcount from rfl]
    by_cases h : layers[j]? = some t
    · rw [if_pos h]
      apply Finset.sum_congr rfl; intro i _
      by_cases h0 : adj G i j = 0
      · simp [h0]
      · rw [if_pos (by rw [adj_noCross hx h0]; exact h)]
    · rw [if_neg h]
      apply Finset.sum_eq_zero; intro i _
      by_cases h0 : adj G i j = 0
      · simp [h0]
      · rw [if_neg (by rw [adj_noCross hx h0]; exact h)]
  have htot : total (layerGraph G ws layers t) = layerTotal G layers t := by
    unfold total layerTotal
    simp only [adj_layerGraph hw hws hx]
    rfl
  unfold withinNull
  rw [show (layerGraph G ws layers t).vcount = G.vcount from rfl, htot]
  apply Finset.sum_congr rfl; intro i _
  apply Finset.sum_congr rfl; intro j _
  rw [hrow, hcol]
  by_cases h1 : c[i]? = c[j]? <;> by_cases h2 : layers[i]? = some t <;> by_cases h3 : layers[j]? = some t <;> simp [h1, h2, h3]

theorem sum_layers_adj {G : Graph F} (hw : UnitWeights G) {ws : List F} (hws : G.weight = some ws) {layers : List Nat}
    (hl : layers.length = G.vcount) (hx : ∀ e ∈ G.edges, layers[e.1]? = layers[e.2]?) {T : Nat}
    (hT : ∀ l ∈ layers, l < T) (c : List Nat) :
    ∑ t ∈ range T, (withinAdj (layerGraph G ws layers t) c : F) = withinAdj G c := by
  unfold withinAdj
  simp only [adj_layerGraph hw hws hx]
  simp only [show ∀ t, (layerGraph G ws layers t).vcount = G.vcount from fun _ => rfl]
  rw [Finset.sum_comm]
  apply Finset.sum_congr rfl; intro i hi
  rw [Finset.sum_comm]
  apply Finset.sum_congr rfl; intro j _
  have hi' : i < layers.length := by rw [hl]; exact Finset.mem_range.mp hi
  rw [List.getElem?_eq_getElem hi']
  by_cases h : c[i]? = c[j]?
  · simp only [h, if_true, Option.some.injEq]
    rw [Finset.sum_eq_single layers[i]]
    · simp
    · intro t _ ht
      rw [if_neg (fun e => ht e.symm)]; simp
    · intro hn
      exact absurd (Finset.mem_range.mpr (hT _ (List.getElem_mem hi'))) hn
  · simp [h]

theorem sum_layers_null {G : Graph F} (hw : UnitWeights G) {ws : List F} (hws : G.weight = some ws) {layers : List Nat}
    (hl : layers.length = G.vcount) (hx : ∀ e ∈ G.edges, layers[e.1]? = layers[e.2]?) {T : Nat}
    (hT : ∀ l ∈ layers, l < T) (c : List Nat) :
    ∑ t ∈ range T, (withinNull (layerGraph G ws layers t) c : F) = withinNullLayered G layers c := by
  simp only [layerGraph_null hw hws hx]
  unfold withinNullLayered
  rw [Finset.sum_comm]
  apply Finset.sum_congr rfl; intro i hi
  rw [Finset.sum_comm]
  apply Finset.sum_congr rfl; intro j hj
  have hi' : i < layers.length := by rw [hl]; exact Finset.mem_range.mp hi
  have hj' : j < layers.length := by rw [hl]; exact Finset.mem_range.mp hj
  rw [List.getElem?_eq_getElem hi', List.getElem?_eq_getElem hj']
  simp only [Option.some.injEq, Option.getD_some]
  by_cases h : c[i]? = c[j]? ∧ layers[i] = layers[j]
  · rw [if_pos h, Finset.sum_eq_single layers[i]]
    · rw [if_pos ⟨h.1, rfl, h.2.symm⟩]
    · rintro t - ht
      rw [if_neg (by rintro ⟨-, rfl, -⟩; exact ht rfl)]
    · intro hn
      exact absurd (Finset.mem_range.mpr (hT _ (List.getElem_mem hi'))) hn
  · rw [if_neg h]
    apply Finset.sum_eq_zero
    rintro t -
    rw [if_neg]
    rintro ⟨h1, h2, h3⟩
    exact h ⟨h1, h2.trans h3.symm⟩

theorem multiplexObjective_eq (possible : Bool → Nat → F) (Gs : List (Graph F)) (Gx : Graph F) (γ ω : F) (c : List Nat) :
    multiplexObjective possible (multiplexProblem Gs Gx γ ω) c =
      (Gs.map fun G => rbQuality G γ c).sum + ω * cpmQuality possible Gx 0 c := by
  unfold multiplexObjective multiplexProblem
  simp only [List.length_map]
  rw [List.zip_append (by simp), List.map_append, List.sum_append]
  congr 1
  · have : ∀ l : List (Graph F), ((((l.map fun G => VertexPartition.rb G γ).zip (List.replicate l.length (1 : F))).map
        fun pw => pw.2 * quality possible c pw.1)).sum = (l.map fun G => rbQuality G γ c).sum := by
      intro l
      induction l with
      | nil => rfl
      | cons a l ih =>
        rw [List.length_cons, List.replicate_succ, List.map_cons, List.zip_cons_cons, List.map_cons, List.sum_cons, ih,
          List.map_cons, List.sum_cons, one_mul]
        rfl
    exact this Gs
  · simp [quality]

end
end Verif
