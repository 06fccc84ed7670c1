import Mathlib.Tactic.Ring
import Mathlib.Tactic.Linarith
import Verif.Model.Consistency
import Verif.Spec.Consistency
import Verif.Proofs.Estimation

/-! # Lemmas about the consistency check -/

namespace Verif
open Spec
variable {F : Type} [Field F] [LinearOrder F]

/-- Truth value of a proposition. -/
noncomputable def truth (P : Prop) : Bool := @decide P (Classical.propDecidable P)

@[simp] theorem truth_iff (P : Prop) : truth P = true ↔ P := by unfold truth; simp

theorem eq_truth {b : Bool} {P : Prop} (h : b = true ↔ P) : b = truth P := by
  rw [Bool.eq_iff_iff, truth_iff]; exact h

theorem truth_congr {P Q : Prop} (h : P ↔ Q) : truth P = truth Q := by rw [propext h]

theorem decide_truth {P : Prop} [Decidable P] : decide P = truth P := eq_truth (by simp)

theorem pyAll_ok {α : Type _} {p : α → Py Bool} {q : α → Prop} {l : List α}
    (h : ∀ x ∈ l, p x = .ok (truth (q x))) : pyAll p l = .ok (truth (∀ x ∈ l, q x)) := by
  induction l with
  | nil => simp only [pyAll]; rw [← eq_truth (b := true) (by simp)]
  | cons x xs ih =>
    rw [pyAll, h x (by simp), Py.ok_bind]
    by_cases hq : q x
    · rw [if_pos ((truth_iff _).mpr hq), ih fun y hy => h y (by simp [hy])]
      rw [truth_congr]; simp [hq]
    · rw [if_neg (by simpa using hq), ← eq_truth (b := false) (by simp [hq])]

theorem pyAll_true {α : Type _} {p : α → Py Bool} {l : List α} (h : pyAll p l = .ok true) :
    ∀ x ∈ l, p x = .ok true := by
  induction l with
  | nil => simp
  | cons x xs ih =>
    rw [pyAll] at h
    obtain ⟨b, hb, h⟩ := Py.bind_ok' h
    cases b
    · simp at h
    · intro y hy
      rcases List.mem_cons.mp hy with rfl | hy
      · exact hb
      · exact ih (by simpa using h) y hy

theorem sameLayer_ok {layer : List Nat} {e : Nat × Nat} (h : e.1 < layer.length ∧ e.2 < layer.length) :
    sameLayer layer e = .ok (truth (layer[e.1]? = layer[e.2]?)) := by
  unfold sameLayer
  rw [pyGet_lt h.1, pyGet_lt h.2]
  simp only [Py.ok_bind, Py.pure_eq, List.getElem?_eq_getElem h.1, List.getElem?_eq_getElem h.2, Option.some.injEq,
    decide_truth]

theorem sameLayer_true {layer : List Nat} {e : Nat × Nat} (h : sameLayer layer e = .ok true) :
    layer[e.1]? = layer[e.2]? ∧ e.1 < layer.length ∧ e.2 < layer.length := by
  unfold sameLayer at h
  obtain ⟨a, ha, h⟩ := Py.bind_ok' h
  obtain ⟨b, hb, h⟩ := Py.bind_ok' h
  have hab : a = b := by simpa [Py.pure_eq] using h
  unfold pyGet at ha hb
  cases h1 : layer[e.1]? with
  | none => rw [h1] at ha; cases ha
  | some x =>
    cases h2 : layer[e.2]? with
    | none => rw [h2] at hb; cases hb
    | some y =>
      rw [h1] at ha; rw [h2] at hb
      injection ha with ha; injection hb with hb
      exact ⟨by rw [ha, hb, hab], (List.getElem?_eq_some_iff.mp h1).1, (List.getElem?_eq_some_iff.mp h2).1⟩

theorem unlessModel_ok {model m : String} {c : Py Bool} {P : Prop} (h : c = .ok (truth P)) :
    unlessModel model m c = .ok (truth (model = m → P)) := by
  unfold unlessModel
  by_cases hm : model = m
  · rw [if_neg (by simpa using hm), h, truth_congr]; simp [hm]
  · rw [if_pos hm, ← eq_truth (b := true)]; simp [hm]

theorem edgeCountIs_ok {n : Nat} {rhs : Py Int} {z : Int} (h : rhs = .ok z) :
    edgeCountIs n rhs = .ok (truth ((n : Int) = z)) := by
  subst h; unfold edgeCountIs; rw [Py.ok_bind, Py.pure_eq, decide_truth]

theorem bothMultiples_ok {a b T : Nat} (hT : T ≠ 0) :
    bothMultiples a b T = .ok (truth (T ∣ a ∧ T ∣ b)) := by
  unfold bothMultiples pyMod
  simp only [Nat.dvd_iff_mod_eq_zero]
  rw [if_neg hT, if_neg hT, Py.ok_bind]
  by_cases h : a % T = 0
  · rw [if_pos h, Py.ok_bind, Py.pure_eq, decide_truth, truth_congr]
    simp [h]
  · rw [if_neg h, Py.pure_eq, ← eq_truth (b := false)]
    simp [h]

omit [Field F] [LinearOrder F] in
theorem inDegrees_all (G : Graph F) : (G.inDegrees.all fun d => decide (d ≤ 1)) = truth (∀ v < G.vcount,
    (if G.directed then inEdges G v else (G.edges.filter fun e => decide (e.1 = v)).length + inEdges G v) ≤ 1) := by
  apply eq_truth
  unfold Graph.inDegrees inEdges
  by_cases hd : G.directed
  · simp [hd, List.countP_eq_length_filter]
  · simp [hd, Graph.allDegrees, List.countP_eq_length_filter]

/-- The evaluated rules are the documented ones. -/
theorem evalRules_ok (Gi Gx : Graph F) {layer : List Nat} (model : String) (mt : List F) {T : Nat} (hT : T ≠ 0) (N : Nat)
    (Nt : List Nat) (hends : ∀ e ∈ Gi.edges, e.1 < layer.length ∧ e.2 < layer.length) :
    evalRules (consistencyRules Gi Gx layer model mt T (some N) (some Nt)) =
      .ok ((documentedRules Gi Gx layer model mt T N Nt).map fun r => (truth r.holds, r.message)) := by
  unfold consistencyRules documentedRules
  have hT1 : ((T - 1 : Nat) : Int) = (T : Int) - 1 := by omega
  have e1 : (decide (1 < T)) = truth (2 ≤ T) := eq_truth (by simp; omega)
  have e2 : Gx.directed = truth (Gx.directed = true) := eq_truth Iff.rfl
  have e3 : decide (Gx.vcount = Gi.vcount) = truth (Gx.vcount = Gi.vcount) := decide_truth
  have e4 : decide (layer.length = Gi.vcount) = truth (layer.length = Gi.vcount) := decide_truth
  have e5 : (mt.all fun m => decide (0 < m)) = truth (∀ m ∈ mt, 0 < m) := eq_truth (by simp)
  have e6 : pyAll (sameLayer layer) Gi.edges = .ok (truth (∀ e ∈ Gi.edges, layer[e.1]? = layer[e.2]?)) :=
    pyAll_ok fun e he => sameLayer_ok (hends e he)
  have e7 : edgeCountIs Gx.ecount (mulNone (some N) ((T : Int) - 1)) = .ok (truth (Gx.ecount = N * (T - 1))) := by
    refine (edgeCountIs_ok (z := (N : Int) * ((T : Int) - 1)) rfl).trans ?_
    congr 1; apply truth_congr; rw [← hT1]; exact_mod_cast Iff.rfl
  have e8 := bothMultiples_ok (a := Gx.vcount) (b := Gi.vcount) hT
  have e9 : allEqual (some Nt) (some N) = .ok (truth (∀ n ∈ Nt, n = N)) := by
    unfold allEqual
    exact congrArg _ (eq_truth (by simp))
  have e10 : allPositive (some Nt) = .ok (truth (∀ n ∈ Nt, 0 < n)) := by
    unfold allPositive
    exact congrArg _ (eq_truth (by simp))
  have e13 : edgeCountIs Gx.ecount (mulMulNone (some N) T) = .ok (truth (Gx.ecount = N * T * (T - 1))) := by
    refine (edgeCountIs_ok (z := (N : Int) * (T : Int) * ((T : Int) - 1)) rfl).trans ?_
    congr 1; apply truth_congr; rw [← hT1]; exact_mod_cast Iff.rfl
  have e11 := inDegrees_all Gx
  rw [e1, e3, e4, e5, e6, unlessModel_ok e7, unlessModel_ok e8, unlessModel_ok e9, unlessModel_ok e10,
    unlessModel_ok (congrArg Except.ok e11), unlessModel_ok e9, unlessModel_ok e13]
  simp only [evalRules, Py.ok_bind, Py.pure_eq, List.map_cons, List.map_nil]
  rw [← e2]

theorem evalRules_true {rules : List (Py Bool × String)} {out : List (Bool × String)} (h : evalRules rules = .ok out)
    (hall : out.all (fun r => r.1) = true) : ∀ r ∈ rules, r.1 = .ok true := by
  induction rules generalizing out with
  | nil => simp
  | cons r rest ih =>
    obtain ⟨c, msg⟩ := r
    rw [evalRules] at h
    obtain ⟨b, hb, h⟩ := Py.bind_ok' h
    obtain ⟨out', ho, h⟩ := Py.bind_ok' h
    injection h with h
    subst h
    simp only [List.all_cons, Bool.and_eq_true] at hall
    intro r hr
    rcases List.mem_cons.mp hr with rfl | hr
    · simp [hb, hall.1]
    · exact ih ho hall.2 r hr

section
open Finset

/-- exact value of the multilevel persistence -/
theorem multilevelPersistence_eq {Gx : Graph F} {c layer : List Nat} {T : Nat}
    (hxe : ∀ e ∈ Gx.edges, e.1 < c.length ∧ e.2 < c.length) (hl : layer.length = c.length) (hle : LayersBelow layer T)
    (hpos : ∀ t < T, ((layer.count t : Nat) : F) ≠ 0) (hT1 : (T : F) - 1 ≠ 0) :
    multilevelPersistence Gx c layer ((List.range T).map fun t => layer.count t) T =
      .ok ((∑ t ∈ range T, ((Gx.edges.countP fun e => decide (layer[e.2]? = some t ∧ c[e.1]? = c[e.2]?) : Nat) : F) /
        (layer.count t : Nat)) / ((T : F) - 1)) := by
  unfold multilevelPersistence
  have hcount : ∀ t, (List.map (fun e : Nat × Nat => if layer[e.2]? = some t then
      (if c[e.1]? = c[e.2]? then (1 : F) else 0) else 0) Gx.edges).sum =
      ((Gx.edges.countP fun e => decide (layer[e.2]? = some t ∧ c[e.1]? = c[e.2]?) : Nat) : F) := by
    intro t
    induction Gx.edges with
    | nil => simp
    | cons e es ih =>
      rw [List.map_cons, List.sum_cons, ih, List.countP_cons]
      by_cases h1 : layer[e.2]? = some t
      · by_cases h2 : c[e.1]? = c[e.2]?
        · simp [h1, h2, add_comm]
        · simp [h1, h2]
      · simp [h1]
  rw [foldlM_replicate Gx.edges _ (fun e t => if layer[e.2]? = some t then
    (if c[e.1]? = c[e.2]? then (1 : F) else 0) else 0)]
  · rw [Py.ok_bind, mapM_ok (g := fun t => ((Gx.edges.countP fun e =>
      decide (layer[e.2]? = some t ∧ c[e.1]? = c[e.2]?) : Nat) : F) / ((layer.count t : Nat) : F))]
    · rw [Py.ok_bind]
      unfold pyDiv
      rw [if_neg hT1, list_range_sum]
    · intro t ht
      rw [pyGet_range_map (List.mem_range.mp ht), Py.ok_bind, pyGet_range_map (List.mem_range.mp ht), Py.ok_bind]
      unfold pyDiv
      rw [if_neg (hpos t (List.mem_range.mp ht)), hcount]
  · intro e he acc hacc
    obtain ⟨h1, h2⟩ := hxe e he
    have h2' : e.2 < layer.length := by rw [hl]; exact h2
    rw [pyGet_lt h2', Py.ok_bind, pyGet_lt h1, Py.ok_bind, pyGet_lt h2, Py.ok_bind,
      pyAddAt_ok (by rw [hacc]; exact hle _ (List.getElem_mem h2')), List.getElem?_eq_getElem h2',
      List.getElem?_eq_getElem h1, List.getElem?_eq_getElem h2]
    simp only [Option.some.injEq]

end

end Verif
