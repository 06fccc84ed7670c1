import Verif.Proofs.Coefficients

set_option linter.unusedSectionVars false

namespace Verif
open Spec Finset

/-! ### indexed accumulation -/

section Bump
variable {F : Type} [AddCommMonoid F] {ε : Type}

/-- entrywise closed form of a loop of `acc[i(e)] += w(e)` -/
def bump (acc : List F) (l : List ε) (i : ε → Nat) (w : ε → F) : List F :=
  acc.mapIdx fun t x => x + (l.map fun e => if i e = t then w e else 0).sum

theorem bump_length (acc : List F) (l : List ε) (i : ε → Nat) (w : ε → F) : (bump acc l i w).length = acc.length := by
  simp [bump]

theorem pyAddAt_ok {acc : List F} {k : Nat} (h : k < acc.length) (x : F) :
    pyAddAt acc k x = .ok (acc.mapIdx fun t y => y + if k = t then x else 0) := by
  unfold pyAddAt
  rw [List.getElem?_eq_getElem h]
  simp only
  congr 1
  apply List.ext_getElem?
  intro t
  rw [List.getElem?_set, List.getElem?_mapIdx]
  by_cases hk : k = t
  · subst hk; simp [h]
  · simp only [hk, if_false, add_zero]
    cases acc[t]? <;> rfl

theorem foldlM_addAt (l : List ε) (idx : ε → Py Nat) (i : ε → Nat) (w : ε → F) (acc : List F)
    (h : ∀ e ∈ l, idx e = .ok (i e) ∧ i e < acc.length) :
    l.foldlM (fun acc e => (do let k ← idx e; pyAddAt acc k (w e) : Py (List F))) acc = .ok (bump acc l i w) := by
  induction l generalizing acc with
  | nil =>
    simp only [List.foldlM_nil, bump, List.map_nil, List.sum_nil, add_zero]
    show Except.ok acc = _
    congr 1
    apply List.ext_getElem?
    intro t
    rw [List.getElem?_mapIdx]
    cases acc[t]? <;> rfl
  | cons e l ih =>
    rw [List.foldlM_cons]
    obtain ⟨h1, h2⟩ := h e (by simp)
    simp only [h1]
    have hs : (do let k ← (Except.ok (i e) : Py Nat); pyAddAt acc k (w e) : Py (List F)) =
        .ok (acc.mapIdx fun t y => y + if i e = t then w e else 0) := pyAddAt_ok h2 (w e)
    rw [hs]
    show l.foldlM _ (acc.mapIdx fun t y => y + if i e = t then w e else 0) = _
    rw [ih]
    · congr 1
      unfold bump
      apply List.ext_getElem?
      intro t
      rw [List.getElem?_mapIdx, List.getElem?_mapIdx, List.getElem?_mapIdx]
      cases acc[t]? with
      | none => rfl
      | some y => simp [add_assoc]
    · intro e' he'
      have := h e' (List.mem_cons_of_mem _ he')
      simpa using this

theorem bump_replicate_getElem? (n : Nat) (l : List ε) (i : ε → Nat) (w : ε → F) (t : Nat) (ht : t < n) :
    (bump (List.replicate n 0) l i w)[t]? = some (l.map fun e => if i e = t then w e else 0).sum := by
  unfold bump
  rw [List.getElem?_mapIdx, List.getElem?_replicate]
  simp [ht]

end Bump

section FlSum
variable {F : Type} [Field F] [LinearOrder F]

theorem foldl_add_fin (l : List F) (x : F) :
    (l.map Fl.fin).foldl Fl.add (.fin x) = .fin (x + l.sum) := by
  induction l generalizing x with
  | nil => simp
  | cons a l ih => rw [List.map_cons, List.foldl_cons, List.sum_cons, ← add_assoc]; exact ih (x + a)

theorem Fl.sum_fin (l : List F) : Fl.sum (l.map Fl.fin) = .fin l.sum := by
  unfold Fl.sum; rw [foldl_add_fin, zero_add]

theorem foldl_add_nan (l : List (Fl F)) : l.foldl Fl.add .nan = .nan := by
  induction l with
  | nil => rfl
  | cons a l ih => rw [List.foldl_cons]; cases a <;> exact ih

theorem Fl.add_nan (x : Fl F) : Fl.add x .nan = .nan := by cases x <;> rfl

theorem foldl_add_mem_nan {l : List (Fl F)} (h : Fl.nan ∈ l) (x : Fl F) : l.foldl Fl.add x = .nan := by
  induction l generalizing x with
  | nil => simp at h
  | cons a l ih =>
    rw [List.foldl_cons]
    rcases List.mem_cons.mp h with rfl | h
    · rw [Fl.add_nan, foldl_add_nan]
    · exact ih h _

theorem Fl.sum_nan {l : List (Fl F)} (h : Fl.nan ∈ l) : Fl.sum l = .nan := foldl_add_mem_nan h _

/-- sums with a non-finite term are not finite -/
theorem foldl_add_not_fin {l : List (Fl F)} {x : Fl F} (h : (∀ r, x ≠ .fin r) ∨ ∃ y ∈ l, ∀ r, y ≠ .fin r) (r : F) :
    l.foldl Fl.add x ≠ .fin r := by
  induction l generalizing x with
  | nil =>
    rcases h with h | ⟨y, hy, _⟩
    · exact h r
    · simp at hy
  | cons a l ih =>
    rw [List.foldl_cons]
    apply ih
    rcases h with h | ⟨y, hy, hy'⟩
    · left
      intro r'
      cases x with
      | fin x => exact absurd rfl (h x)
      | _ => cases a <;> simp [Fl.add]
    · rcases List.mem_cons.mp hy with rfl | hy
      · left
        intro r'
        cases y with
        | fin y => exact absurd rfl (hy' y)
        | _ => cases x <;> simp [Fl.add]
      · right; exact ⟨y, hy, hy'⟩

theorem Fl.sum_not_fin {l : List (Fl F)} {y : Fl F} (hy : y ∈ l) (h : ∀ r, y ≠ .fin r) (r : F) :
    Fl.sum l ≠ .fin r := foldl_add_not_fin (Or.inr ⟨y, hy, h⟩) r

end FlSum

/-! ### edges per layer -/

section Layers
variable {F : Type} [Field F] [LinearOrder F] [IsStrictOrderedRing F] {α : Type} [DecidableEq α]

/-- number of edges whose source is in layer `t` -/
def layerEdges (edges : List (Nat × Nat)) (layer : List Nat) (t : Nat) : Nat :=
  edges.countP fun e => decide (layer[e.1]? = some t)

theorem sum_ite_one_eq_countP {ε : Type} (l : List ε) (p : ε → Bool) :
    (l.map fun e => if p e then (1 : F) else 0).sum = (l.countP p : F) := by
  induction l with
  | nil => simp
  | cons e l ih => rw [List.map_cons, List.sum_cons, ih, List.countP_cons]; push_cast; split <;> simp [add_comm]

theorem ecountPerLayer_ok {G : Graph F} (hG : G.WF) {layer : List Nat} (hl : layer.length = G.vcount)
    (hn : layer ≠ []) :
    ∃ ec, ecountPerLayer G layer = .ok ec ∧
      ∀ t ∈ layer, ec[t]? = some (layerEdges G.edges layer t : F) := by
  unfold ecountPerLayer
  cases hM : layer.max? with
  | none => rw [List.max?_eq_none_iff] at hM; exact absurd hM hn
  | some M =>
    obtain ⟨_, hMle⟩ := List.max?_eq_some_iff.mp hM
    refine ⟨_, foldlM_addAt G.edges (fun e => pyGet layer e.1) (fun e => layer[e.1]?.getD 0) (fun _ => (1 : F)) _ ?_, ?_⟩
    · intro e he
      have h1 := (hG.1 e he).1
      rw [← hl] at h1
      refine ⟨?_, ?_⟩
      · rw [pyGet_ok, List.getElem?_eq_getElem h1]; simp
      · rw [List.getElem?_eq_getElem h1]
        have := hMle _ (List.getElem_mem h1)
        simp; omega
    · intro t ht
      rw [bump_replicate_getElem? _ _ _ _ _ (by have := hMle t ht; omega)]
      congr 1
      unfold layerEdges
      rw [← sum_ite_one_eq_countP]
      congr 1
      apply List.map_congr_left
      intro e he
      have h1 := (hG.1 e he).1
      rw [← hl] at h1
      rw [List.getElem?_eq_getElem h1]
      simp

theorem layerTotal_directed {G : Graph F} (hG : G.WF) (hd : G.directed = true) (layer : List Nat) (t : Nat) :
    layerTotal G layer t = layerEdges G.edges layer t := by
  unfold layerTotal layerEdges adj
  rw [countP_eq_sum G.vcount _ hG.1 (fun i _ => decide (layer[i]? = some t))]
  simp [hd]

theorem layerTotal_undirected {G : Graph F} (hG : G.WF) (hd : G.directed = false) (layer : List Nat) (t : Nat)
    (hx : ∀ e ∈ G.edges, layer[e.1]? = layer[e.2]?) :
    layerTotal G layer t = 2 * layerEdges G.edges layer t := by
  have h1 := countP_eq_sum G.vcount _ hG.1 (fun i _ => decide (layer[i]? = some t))
  have h2 := countP_eq_sum G.vcount _ hG.1 (fun _ j => decide (layer[j]? = some t))
  have h3 : G.edges.countP (fun e => decide (layer[e.2]? = some t)) =
      G.edges.countP (fun e => decide (layer[e.1]? = some t)) := by
    apply List.countP_congr
    intro e he
    rw [hx e he]
  unfold layerTotal layerEdges adj
  rw [two_mul]
  nth_rewrite 1 [h1]
  rw [← h3, h2]
  simp only [hd, decide_eq_true_eq, Bool.false_eq_true, if_false]
  rw [Finset.sum_comm (f := fun i j => if layer[j]? = some t then G.edges.count (i, j) else 0),
    ← Finset.sum_add_distrib]
  apply Finset.sum_congr rfl; intro i _
  rw [← Finset.sum_add_distrib]
  apply Finset.sum_congr rfl; intro j _
  split <;> simp

/-- denominator used by the code for layer `t` -/
def codeDenom (G : Graph F) (layer : List Nat) (t : Nat) : F :=
  if G.directed then (layerEdges G.edges layer t : F) else 2 * (layerEdges G.edges layer t : F)

theorem zip_getElem?_eq {c : List α} {layer : List Nat} (h : c.length = layer.length) {i j : Nat}
    (hi : i < c.length) (hj : j < c.length) :
    (c.zip layer)[i]? = (c.zip layer)[j]? ↔ c[i]? = c[j]? ∧ layer[i]? = layer[j]? := by
  have hi' : i < layer.length := h ▸ hi
  have hj' : j < layer.length := h ▸ hj
  have hzi : i < (c.zip layer).length := by simp; omega
  have hzj : j < (c.zip layer).length := by simp; omega
  rw [List.getElem?_eq_getElem hzi, List.getElem?_eq_getElem hzj, List.getElem?_eq_getElem hi,
    List.getElem?_eq_getElem hj, List.getElem?_eq_getElem hi', List.getElem?_eq_getElem hj']
  simp

/-- terms of the 3D null model -/
theorem nullModelCoefficient3D_eq {G : Graph F} (hG : G.WF) {layer : List Nat} (hl : layer.length = G.vcount)
    {ec : List F} (hec : ∀ t ∈ layer, ec[t]? = some (layerEdges G.edges layer t : F)) {c : List α}
    (hc : c.length = G.vcount) :
    nullModelCoefficient3D G layer ec c =
      .ok (Fl.sum ((membershipToCommunities (c.zip layer)).map fun e =>
        npDiv (((e.2.map (colSum G)).sum * (e.2.map (rowSum G)).sum : Nat) : F) (codeDenom G layer e.1.2))) := by
  unfold nullModelCoefficient3D
  rw [membershipToLayeredCommunities_eq c layer (by omega)]
  have hzl : (c.zip layer).length = G.vcount := by simp; omega
  show (do let terms ← (membershipToCommunities (c.zip layer)).mapM _; _ : Py (Fl F)) = _
  rw [mapM_ok (g := fun e =>
        npDiv (((e.2.map (colSum G)).sum * (e.2.map (rowSum G)).sum : Nat) : F) (codeDenom G layer e.1.2))]
  · rfl
  · rintro ⟨⟨k, t⟩, vs⟩ he
    obtain ⟨hm, rfl⟩ := (mem_membershipToCommunities _ _ vs).mp he
    have ht : t ∈ layer := (List.of_mem_zip hm).2
    have hlt : ∀ v ∈ verticesOf (c.zip layer) (k, t), v < G.vcount := fun v hv => by
      rw [← hzl]; exact verticesOf_lt hv
    have hg := pyGet_ok.mpr (hec t ht)
    by_cases hd : G.directed
    · simp only [hd, if_true]
      rw [degreeSum_ok (fun v hv => inDegrees_getElem? hG v hv) hlt,
        degreeSum_ok (fun v hv => outDegrees_getElem? hG v hv) hlt, hg]
      show Except.ok _ = _
      simp [codeDenom, hd]
    · have hd' : G.directed = false := by simpa using hd
      simp only [hd', Bool.false_eq_true, if_false]
      rw [degreeSum_ok (fun v hv => allDegrees_getElem? hG hd' v hv) hlt, hg]
      show Except.ok _ = _
      have : colSum G = rowSum G := funext fun i => colSum_eq_rowSum hd' i
      rw [this, ← pow_two]
      simp [codeDenom, hd']

theorem nullModelCoefficient3D_fin {G : Graph F} (hG : G.WF) {layer : List Nat} (hl : layer.length = G.vcount)
    {ec : List F} (hec : ∀ t ∈ layer, ec[t]? = some (layerEdges G.edges layer t : F)) {c : List α}
    (hc : c.length = G.vcount) (hpos : ∀ t ∈ layer, codeDenom G layer t ≠ 0) :
    nullModelCoefficient3D G layer ec c =
      .ok (.fin (∑ i ∈ range G.vcount, ∑ j ∈ range G.vcount,
        if c[i]? = c[j]? ∧ layer[i]? = layer[j]? then
          (colSum G i : F) * (rowSum G j : F) / codeDenom G layer (layer[i]?.getD 0) else 0)) := by
  rw [nullModelCoefficient3D_eq hG hl hec hc]
  have hzl : (c.zip layer).length = G.vcount := by simp; omega
  have h1 : ((membershipToCommunities (c.zip layer)).map fun e =>
        npDiv (((e.2.map (colSum G)).sum * (e.2.map (rowSum G)).sum : Nat) : F) (codeDenom G layer e.1.2)) =
      ((membershipToCommunities (c.zip layer)).map fun e => (codeDenom G layer e.1.2)⁻¹ *
        ((((e.2.map (colSum G)).sum : Nat) : F) * (((e.2.map (rowSum G)).sum : Nat) : F))).map Fl.fin := by
    rw [List.map_map]
    apply List.map_congr_left
    rintro ⟨⟨k, t⟩, vs⟩ he
    obtain ⟨hm, rfl⟩ := (mem_membershipToCommunities _ _ vs).mp he
    have ht : t ∈ layer := (List.of_mem_zip hm).2
    simp only [npDiv, ne_eq, hpos t ht, not_false_eq_true, if_true, Function.comp]
    push_cast
    congr 1
    rw [div_eq_inv_mul]
  rw [h1, Fl.sum_fin, communities_sum (c.zip layer) (fun k vs => (codeDenom G layer k.2)⁻¹ *
        ((((vs.map (colSum G)).sum : Nat) : F) * (((vs.map (rowSum G)).sum : Nat) : F)))]
  simp only [verticesOf_sum]
  push_cast
  have := pair_sum (c.zip layer) (fun k => (codeDenom G layer k.2)⁻¹) (fun v => (colSum G v : F))
    (fun v => (rowSum G v : F))
  rw [this, hzl]
  congr 2
  apply Finset.sum_congr rfl; intro i hi; apply Finset.sum_congr rfl; intro j hj
  rw [Finset.mem_range] at hi hj
  have hi1 : i < c.length := by omega
  have hi2 : i < layer.length := by omega
  have hz : (c.zip layer)[i]? = some (c[i], layer[i]) := by
    rw [List.getElem?_eq_getElem (by omega)]; simp
  by_cases hcond : c[i]? = c[j]? ∧ layer[i]? = layer[j]?
  · rw [if_pos hcond, if_pos ((zip_getElem?_eq (by omega) hi1 (by omega)).mpr hcond), hz,
      List.getElem?_eq_getElem hi2]
    simp only [Option.map_some, Option.getD_some]
    rw [div_eq_inv_mul]
  · rw [if_neg hcond, if_neg (fun h => hcond ((zip_getElem?_eq (by omega) hi1 (by omega)).mp h))]

/-- the layers' denominators agree with the specification -/
theorem codeDenom_eq {G : Graph F} (hG : G.WF) {layer : List Nat}
    (hx : G.directed = true ∨ ∀ e ∈ G.edges, layer[e.1]? = layer[e.2]?) (t : Nat) :
    codeDenom G layer t = (layerTotal G layer t : F) := by
  unfold codeDenom
  by_cases hd : G.directed
  · rw [if_pos hd, layerTotal_directed hG hd]
  · have hd' : G.directed = false := by simpa using hd
    have hx' := hx.resolve_left (by simp [hd'])
    rw [if_neg hd, layerTotal_undirected hG hd' layer t hx']
    push_cast; rfl

theorem codeDenom_ne {G : Graph F} {layer : List Nat} {t : Nat}
    (h : ∃ e ∈ G.edges, layer[e.1]? = some t) : codeDenom G layer t ≠ 0 := by
  obtain ⟨e, he, het⟩ := h
  have : 0 < layerEdges G.edges layer t := by
    unfold layerEdges; rw [List.countP_pos_iff]; exact ⟨e, he, by simpa using het⟩
  have h' : (layerEdges G.edges layer t : F) ≠ 0 := by exact_mod_cast this.ne'
  unfold codeDenom
  split
  · exact h'
  · exact mul_ne_zero two_ne_zero h'

theorem coefficients3D_ok {Gi Gx : Graph F} (hG : Gi.WF) (hX : Gx.WF) (hv : Gx.vcount = Gi.vcount)
    {layer : List Nat} (hl : layer.length = Gi.vcount) (hn : layer ≠ [])
    (hx : Gi.directed = true ∨ ∀ e ∈ Gi.edges, layer[e.1]? = layer[e.2]?)
    (hedge : ∀ t ∈ layer, ∃ e ∈ Gi.edges, layer[e.1]? = some t) {parts : List (List α)}
    (hp : ∀ c ∈ parts, c.length = Gi.vcount) :
    partitionCoefficients3DSerial Gi Gx layer parts =
      .ok (parts.map (withinAdj Gi), parts.map (fun c => Fl.fin (withinNullLayered Gi layer c)),
        parts.map (withinAdj Gx)) := by
  obtain ⟨ec, hec1, hec2⟩ := ecountPerLayer_ok hG hl hn
  have hA : ∀ {G : Graph F}, G.WF → G.vcount = Gi.vcount → ∃ g : List α → Nat, ∀ c ∈ parts,
      adjacencyCoefficient G.directed G.edges c = .ok (g c) ∧ (g c : F) = withinAdj G c := by
    intro G hG hv
    classical
    refine ⟨fun c => if h : c.length = G.vcount then (adjacencyCoefficient_ok hG h).choose else 0, ?_⟩
    intro c hc
    have h : c.length = G.vcount := (hp c hc).trans hv.symm
    simp only [h, dif_pos]
    exact (adjacencyCoefficient_ok hG h).choose_spec
  obtain ⟨g1, hg1⟩ := hA hG rfl
  obtain ⟨g2, hg2⟩ := hA hX hv
  unfold partitionCoefficients3DSerial
  rw [mapM_ok (g := g1) (fun c hc => (hg1 c hc).1), hec1]
  rw [mapM_ok (g := g2) (fun c hc => (hg2 c hc).1)]
  show (do let P ← parts.mapM (nullModelCoefficient3D Gi layer ec); _ : Py _) = _
  rw [mapM_ok (g := fun c => Fl.fin (withinNullLayered Gi layer c))]
  · show Except.ok _ = _
    congr 1
    refine Prod.ext ?_ (Prod.ext rfl ?_)
    · simp only [List.map_map]
      exact List.map_congr_left fun c hc => (hg1 c hc).2
    · simp only [List.map_map]
      exact List.map_congr_left fun c hc => (hg2 c hc).2
  · intro c hc
    rw [nullModelCoefficient3D_fin hG hl hec2 (hp c hc) (fun t ht => codeDenom_ne (hedge t ht))]
    simp only [codeDenom_eq hG hx]
    rfl

end Layers
end Verif
