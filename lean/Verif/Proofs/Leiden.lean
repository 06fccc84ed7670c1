import Verif.Model.Leiden
import Verif.Proofs.IterateMono
import Verif.Proofs.Estimation
import Verif.Proofs.Partition

/-!
# Lemmas about the layer split
-/

namespace Verif
open Spec

section
variable {F : Type}

theorem pyAppendAt_range {β : Type} {T l : Nat} (hl : l < T) (f : Nat → List β) (x : β) :
    pyAppendAt ((List.range T).map f) l x = .ok ((List.range T).map fun t => if t = l then f t ++ [x] else f t) := by
  unfold pyAppendAt
  have : ((List.range T).map f)[l]? = some (f l) := by simp [hl]
  rw [this]
  simp only [Except.ok.injEq]
  apply List.ext_getElem
  · simp
  · intro i h1 h2
    rw [List.getElem_set]
    simp only [List.getElem_map, List.getElem_range]
    by_cases h : l = i
    · subst h; simp
    · rw [if_neg h, if_neg (fun e => h e.symm)]

/-- The per-layer fold. -/
theorem splitFold {layers : List Nat} {T : Nat} (hT : ∀ l ∈ layers, l < T) (es : List ((Nat × Nat) × F))
    (hes : ∀ e ∈ es, e.1.1 < layers.length) (f : Nat → List (Nat × Nat)) (g : Nat → List F) :
    es.foldlM (fun (acc : List (List (Nat × Nat)) × List (List F)) e => (do
      let l ← pyGet layers e.1.1
      let a ← pyAppendAt acc.1 l e.1
      let b ← pyAppendAt acc.2 l e.2
      return (a, b) : Py _)) ((List.range T).map f, (List.range T).map g) =
    .ok ((List.range T).map fun t => f t ++ (layerOf es layers t).map Prod.fst,
         (List.range T).map fun t => g t ++ (layerOf es layers t).map Prod.snd) := by
  induction es generalizing f g with
  | nil => simp [layerOf]; rfl
  | cons e es ih =>
    rw [List.foldlM_cons]
    have hlt : e.1.1 < layers.length := hes e (by simp)
    have hget : pyGet layers e.1.1 = .ok layers[e.1.1] := by
      unfold pyGet; rw [List.getElem?_eq_getElem hlt]
    have hl : layers[e.1.1] < T := hT _ (List.getElem_mem hlt)
    simp only [hget, Py.ok_bind]
    rw [pyAppendAt_range hl, Py.ok_bind, pyAppendAt_range hl, Py.ok_bind]
    rw [Py.pure_eq, Py.ok_bind]
    rw [ih (fun e' he' => hes e' (by simp [he']))]
    congr 2
    · apply List.map_congr_left
      intro t _
      by_cases h : t = layers[e.1.1]
      · subst h
        simp [layerOf, List.getElem?_eq_getElem hlt]
      · rw [if_neg h]
        simp only [layerOf]
        rw [List.filter_cons_of_neg]
        simp [List.getElem?_eq_getElem hlt]
        exact fun e => h e.symm
    · apply List.map_congr_left
      intro t _
      by_cases h : t = layers[e.1.1]
      · subst h
        simp [layerOf, List.getElem?_eq_getElem hlt]
      · rw [if_neg h]
        simp only [layerOf]
        rw [List.filter_cons_of_neg]
        simp [List.getElem?_eq_getElem hlt]
        exact fun e => h e.symm

theorem setEsWeight_exact {G : Graph F} {ws : List F} (h : ws.length = G.edges.length) :
    G.setEsWeight ws = .ok { G with weight := some ws } := by
  unfold Graph.setEsWeight
  rw [if_neg]
  · congr 3
    rw [← h]
    apply List.ext_getElem?
    intro i
    have : (List.range ws.length).filterMap (fun i => ws[i % ws.length]?) = ws := by
      have h1 : (List.range ws.length).filterMap (fun i => ws[i % ws.length]?) =
          (List.range ws.length).filterMap (fun i => ws[i]?) := by
        apply List.filterMap_congr
        intro i hi
        rw [Nat.mod_eq_of_lt (List.mem_range.mp hi)]
      rw [h1]
      clear h1 h
      induction ws using List.reverseRecOn with
      | nil => rfl
      | append_singleton l a ih =>
        rw [List.length_append, List.length_singleton, List.range_succ, List.filterMap_append]
        have : (List.range l.length).filterMap (fun i => (l ++ [a])[i]?) = (List.range l.length).filterMap (fun i => l[i]?) := by
          apply List.filterMap_congr
          intro i hi
          rw [List.getElem?_append_left (List.mem_range.mp hi)]
        rw [this, ih]
        simp
    rw [this]
  · rintro ⟨rfl, hne⟩
    exact hne (List.length_eq_zero_iff.mp h.symm)

/-- The graph of one layer: all vertices, the edges whose source is in layer `t`, with their weights. -/
def layerGraph (G : Graph F) (ws : List F) (layers : List Nat) (t : Nat) : Graph F :=
  ⟨G.vcount, G.directed, (layerOf (G.edges.zip ws) layers t).map Prod.fst,
    some ((layerOf (G.edges.zip ws) layers t).map Prod.snd)⟩

theorem countLayers_ok {layers : List Nat} (h : layers ≠ []) :
    ∃ T, countLayers layers = .ok T ∧ (∀ l ∈ layers, l < T) ∧ T - 1 ∈ layers ∧ 0 < T := by
  unfold countLayers
  cases hm : layers.max? with
  | none => exact absurd (List.max?_eq_none_iff.mp hm) h
  | some M =>
    obtain ⟨h1, h2⟩ := List.max?_eq_some_iff.mp hm
    refine ⟨M + 1, rfl, ?_, by simpa using h1, Nat.succ_pos _⟩
    intro l hl
    have := h2 l hl
    omega

theorem splitLayers_ok {G : Graph F} (hG : G.WF) {ws : List F} (hw : G.weight = some ws) {layers : List Nat}
    (hl : layers.length = G.vcount) {T : Nat} (hT : countLayers layers = .ok T) (hT' : ∀ l ∈ layers, l < T) :
    splitLayers G.vcount G.edges G.weight G.directed layers = .ok ((List.range T).map (layerGraph G ws layers)) := by
  unfold splitLayers
  rw [hT, Py.ok_bind]
  have he : Graph.weightedEdges ⟨G.vcount, G.directed, G.edges, G.weight⟩ = .ok (G.edges.zip ws) := by
    unfold Graph.weightedEdges; simp only [hw]
  rw [he, Py.ok_bind]
  have hzip : ∀ e ∈ G.edges.zip ws, e.1 ∈ G.edges := fun e h => (List.of_mem_zip h).1
  have h0 : List.replicate T ([] : List (Nat × Nat)) = (List.range T).map fun _ => [] := by
    apply List.ext_getElem <;> simp
  have h0' : List.replicate T ([] : List F) = (List.range T).map fun _ => [] := by
    apply List.ext_getElem <;> simp
  rw [h0, h0', splitFold hT' _ (fun e h => by rw [hl]; exact (hG.1 _ (hzip e h)).1), Py.ok_bind]
  simp only [List.nil_append]
  apply mapM_ok
  intro t ht
  have ht' := List.mem_range.mp ht
  have g1 : pyGet ((List.range T).map fun t => (layerOf (G.edges.zip ws) layers t).map Prod.fst) t =
      .ok ((layerOf (G.edges.zip ws) layers t).map Prod.fst) := pyGet_range_map ht' _
  have g2 : pyGet ((List.range T).map fun t => (layerOf (G.edges.zip ws) layers t).map Prod.snd) t =
      .ok ((layerOf (G.edges.zip ws) layers t).map Prod.snd) := pyGet_range_map ht' _
  rw [g1, Py.ok_bind]
  have g3 : newGraph (F := F) G.vcount ((layerOf (G.edges.zip ws) layers t).map Prod.fst) G.directed =
      .ok ⟨G.vcount, G.directed, (layerOf (G.edges.zip ws) layers t).map Prod.fst, none⟩ := by
    unfold newGraph
    rw [if_pos]
    rw [List.all_eq_true]
    intro e he
    obtain ⟨x, hx, rfl⟩ := List.mem_map.mp he
    have := hG.1 x.1 (hzip x (List.mem_of_mem_filter hx))
    simpa using this
  rw [g3, Py.ok_bind, g2, Py.ok_bind, setEsWeight_exact (by simp)]
  rfl

end

/-! ### The cache of capacity at least one -/

theorem LRU.call_ok {κ ν : Type} [DecidableEq κ] (c : LRU κ ν) (k : κ) (v : ν) : ∃ v', (c.call k (.ok v)).2 = .ok v' := by
  unfold LRU.call
  cases c.entries.lookup k with
  | some v' => exact ⟨v', rfl⟩
  | none => exact ⟨v, rfl⟩

theorem LRU.call_hit {κ ν : Type} [DecidableEq κ] {c : LRU κ ν} (hc : 0 < c.cap) {k : κ} {fresh : Py ν} {v : ν}
    (h : (c.call k fresh).2 = .ok v) (fresh' : Py ν) :
    ((c.call k fresh).1.call k fresh').2 = .ok v ∧ (c.call k fresh).1.cap = c.cap := by
  unfold LRU.call at h ⊢
  cases hl : c.entries.lookup k with
  | some v' =>
    rw [hl] at h
    simp only [Except.ok.injEq] at h
    subst h
    simp
  | none =>
    rw [hl] at h
    cases fresh with
    | error e => simp at h
    | ok v' =>
      simp only [Except.ok.injEq] at h
      subst h
      obtain ⟨n, hn⟩ : ∃ n, c.cap = n + 1 := ⟨c.cap - 1, by omega⟩
      simp [hn, List.take_succ_cons]

end Verif
