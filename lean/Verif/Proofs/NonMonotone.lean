import Verif.Proofs.Prune
import Verif.Proofs.Bistable
import Verif.Model.NonMonotone

/-! # Exhaustive search over the partitions of a small graph, with a proof of its completeness -/

namespace Verif.Proofs
open Verif Verif.Spec Finset

/-- entries of `ws` at the positions where `l` has label `k`, summed -/
def sameSum (k : Nat) : List Nat → List (Nat × Nat) → Nat × Nat
  | x :: l, w :: ws => if Nat.beq x k then ((sameSum k l ws).1 + w.1, (sameSum k l ws).2 + w.2) else sameSum k l ws
  | _, _ => (0, 0)

/-- all `k < n` -/
def allBelow : Nat → (Nat → Bool) → Bool
  | 0, _ => true
  | n + 1, f => f n && allBelow n f

theorem allBelow_iff {n : Nat} {f : Nat → Bool} : allBelow n f = true ↔ ∀ k < n, f k = true := by
  induction n with
  | zero => simp [allBelow]
  | succ n ih =>
    simp only [allBelow, Bool.and_eq_true, ih]
    constructor
    · rintro ⟨h1, h2⟩ k hk
      rcases Nat.lt_succ_iff_lt_or_eq.mp hk with h | rfl
      · exact h2 k h
      · exact h1
    · intro h
      exact ⟨h n (by omega), fun k hk => h k (by omega)⟩

/-- all ways to label the remaining vertices; `l` lists the labels so far, last vertex first, `m` is the number of labels used,
`A` and `D` the weights of the pairs in the same community -/
def search (leaf : List Nat → Nat → Nat → Bool) : List (List (Nat × Nat)) → List Nat → Nat → Nat → Nat → Bool
  | [], l, _, A, D => leaf l A D
  | row :: rows, l, m, A, D => allBelow (m + 1) fun k =>
      search leaf rows (k :: l) (if Nat.blt k m then m else m + 1) (A + (sameSum k l row).1) (D + (sameSum k l row).2)

/-- pair weights of a complete labelling, last vertex first; `rows` belongs to the vertices after those in `l` -/
def pairWeights : List (List (Nat × Nat)) → List Nat → List Nat → Nat × Nat
  | row :: rows, l, k :: ks =>
    ((sameSum k l row).1 + (pairWeights rows (k :: l) ks).1, (sameSum k l row).2 + (pairWeights rows (k :: l) ks).2)
  | _, _, _ => (0, 0)

/-- labels `ks` continue a labelling with `m` labels in order of first appearance -/
def Grows : Nat → List Nat → Prop
  | _, [] => True
  | m, k :: ks => k ≤ m ∧ Grows (if k < m then m else m + 1) ks

theorem search_complete {leaf : List Nat → Nat → Nat → Bool} {rows : List (List (Nat × Nat))} {l : List Nat} {m A D : Nat}
    (h : search leaf rows l m A D = true) {ks : List Nat} (hl : ks.length = rows.length) (hg : Grows m ks) :
    leaf (ks.reverse ++ l) (A + (pairWeights rows l ks).1) (D + (pairWeights rows l ks).2) = true := by
  induction rows generalizing l m A D ks with
  | nil =>
    obtain rfl : ks = [] := by simpa using hl
    simpa [pairWeights, search] using h
  | cons row rows ih =>
    cases ks with
    | nil => simp at hl
    | cons k ks =>
      simp only [search] at h
      have hk := allBelow_iff.mp h k (Nat.lt_succ_of_le hg.1)
      have hb : (if Nat.blt k m then m else m + 1) = if k < m then m else m + 1 := by
        by_cases hkm : k < m
        · simp [hkm]
        · simp [hkm]
      rw [hb] at hk
      have := ih hk (by simpa using hl) hg.2
      simpa [pairWeights, List.append_assoc, add_assoc] using this

theorem grows_of_first {t : List Nat} (h : FirstAppearanceOrder t) : Grows 0 t := by
  suffices hs : ∀ (t pre : List Nat) (m : Nat), (∀ x, x ∈ pre ↔ x < m) → FirstAppearanceOrder (pre ++ t) → Grows m t from
    hs t [] 0 (by simp) h
  intro t
  induction t with
  | nil => intros; trivial
  | cons k ks ih =>
    intro pre m hm hf
    have hk : k ≤ m := by
      by_contra hlt
      push Not at hlt
      obtain ⟨j, hj, hj'⟩ := hf pre.length k (by simp) m hlt
      rw [List.getElem?_append_left hj] at hj'
      exact absurd ((hm m).mp (List.mem_of_getElem? hj')) (lt_irrefl m)
    refine ⟨hk, ih (pre ++ [k]) _ ?_ (by simpa using hf)⟩
    intro x
    simp only [List.mem_append, List.mem_singleton, hm]
    split
    · omega
    · omega

theorem sameSum_eq (k : Nat) (l : List Nat) (f g : Nat → Nat) :
    sameSum k l ((List.range l.length).reverse.map fun u => (f u, g u)) =
      (∑ u ∈ range l.length, if l.reverse[u]? = some k then f u else 0,
        ∑ u ∈ range l.length, if l.reverse[u]? = some k then g u else 0) := by
  induction l with
  | nil => simp [sameSum]
  | cons x l ih =>
    have e : (List.range (x :: l).length).reverse.map (fun u => (f u, g u)) =
        (f l.length, g l.length) :: (List.range l.length).reverse.map fun u => (f u, g u) := by
      rw [List.length_cons, List.range_succ, List.reverse_append]
      rfl
    rw [e]
    have hlast : (x :: l).reverse[l.length]? = some x := by
      rw [List.reverse_cons, List.getElem?_append_right (by simp)]
      simp
    have hrest : ∀ h : Nat → Nat, (∑ u ∈ range l.length, if (x :: l).reverse[u]? = some k then h u else 0) =
        ∑ u ∈ range l.length, if l.reverse[u]? = some k then h u else 0 := by
      intro h
      refine Finset.sum_congr rfl fun u hu => ?_
      rw [List.reverse_cons, List.getElem?_append_left (by simpa using hu)]
    simp only [sameSum, List.length_cons, Finset.sum_range_succ, hlast, hrest, ih, Option.some.injEq]
    by_cases hx : x = k
    · simp [hx]
    · have : Nat.beq x k = false := by
        cases h : Nat.beq x k
        · rfl
        · exact absurd (Nat.eq_of_beq_eq_true h) hx
      simp [this, hx]

theorem pairWeights_eq (f g : Nat → Nat → Nat) (ks l : List Nat) :
    pairWeights ((List.range ks.length).map fun i => (List.range (l.length + i)).reverse.map fun u =>
        (f u (l.length + i), g u (l.length + i))) l ks =
      (∑ i ∈ range ks.length, ∑ u ∈ range (l.length + i),
          if (l.reverse ++ ks)[u]? = (l.reverse ++ ks)[l.length + i]? then f u (l.length + i) else 0,
        ∑ i ∈ range ks.length, ∑ u ∈ range (l.length + i),
          if (l.reverse ++ ks)[u]? = (l.reverse ++ ks)[l.length + i]? then g u (l.length + i) else 0) := by
  induction ks generalizing l with
  | nil => simp [pairWeights]
  | cons k ks ih =>
    rw [List.length_cons, List.range_succ_eq_map, List.map_cons, List.map_map]
    have e : (fun i => (List.range (l.length + i)).reverse.map fun u => (f u (l.length + i), g u (l.length + i))) ∘ Nat.succ =
        fun i => (List.range ((k :: l).length + i)).reverse.map fun u =>
          (f u ((k :: l).length + i), g u ((k :: l).length + i)) := by
      funext i
      simp only [Function.comp_def, List.length_cons]
      rw [show l.length + i.succ = l.length + 1 + i by omega]
    have hs := sameSum_eq k l (fun u => f u (l.length + 0)) (fun u => g u (l.length + 0))
    rw [e, pairWeights, ih (k :: l)]
    rw [show List.range (l.length + 0) = List.range l.length from rfl, hs]
    have hk : (l.reverse ++ k :: ks)[l.length + 0]? = some k := by
      rw [List.getElem?_append_right (by simp)]; simp
    rw [add_zero] at hk
    have hu : ∀ u ∈ range l.length, (l.reverse ++ k :: ks)[u]? = l.reverse[u]? := by
      intro u hu
      rw [List.getElem?_append_left (by simpa using hu)]
    have hcat : (k :: l).reverse ++ ks = l.reverse ++ k :: ks := by simp
    simp only [hcat, List.length_cons]
    rw [Finset.sum_range_succ', Finset.sum_range_succ']
    simp only [add_zero]
    rw [add_comm (∑ u ∈ range l.length, _), add_comm (∑ u ∈ range l.length, _)]
    congr 1
    · congr 1
      · refine Finset.sum_congr rfl fun i _ => ?_
        rw [show l.length + 1 + i = l.length + (i + 1) by omega]
      · refine Finset.sum_congr rfl fun u hu' => ?_
        rw [hu u hu', hk]
    · congr 1
      · refine Finset.sum_congr rfl fun i _ => ?_
        rw [show l.length + 1 + i = l.length + (i + 1) by omega]
      · refine Finset.sum_congr rfl fun u hu' => ?_
        rw [hu u hu', hk]

/-! ### the graph with nine vertices -/

/-- A 5-vertex core with two pendant paths of two vertices: 9 vertices, 12 edges, connected and simple. -/
def gNine : Graph ℝ :=
  ⟨9, false, [(0, 4), (0, 1), (3, 4), (0, 3), (2, 3), (4, 5), (5, 6), (0, 2), (4, 7), (7, 8), (1, 2), (1, 4)], none⟩

/-- rows of pair weights: (adjacency, product of degrees) -/
def nineRows : List (List (Nat × Nat)) := (List.range 9).map fun i => (List.range (0 + i)).reverse.map fun u =>
  (adj gNine u (0 + i), rowSum gNine u * rowSum gNine (0 + i))

/-- the literal rows -/
def nineRowsLit : List (List (Nat × Nat)) :=
  [[], [(1, 12)], [(1, 9), (1, 12)], [(1, 9), (0, 9), (1, 12)], [(1, 15), (0, 15), (1, 15), (1, 20)],
   [(1, 10), (0, 6), (0, 6), (0, 6), (0, 8)], [(1, 2), (0, 5), (0, 3), (0, 3), (0, 3), (0, 4)],
   [(0, 2), (0, 4), (1, 10), (0, 6), (0, 6), (0, 6), (0, 8)],
   [(1, 2), (0, 1), (0, 2), (0, 5), (0, 3), (0, 3), (0, 3), (0, 4)]]

theorem nineRows_eq : nineRows = nineRowsLit := by decide +kernel

/-- the check at a complete labelling (last vertex first): strictly worse than the three communities at `γ = 3/4` unless equal
to them, and strictly worse than the two communities at `γ = 24/25` unless equal to them -/
def nineLeaf (l : List Nat) (A D : Nat) : Bool :=
  (Nat.blt (96 * A + 396) (960 + 3 * D) || decide (l = [2, 2, 1, 1, 0, 0, 0, 0, 0])) &&
  (Nat.blt (25 * A + 106) (225 + D) || decide (l = [1, 1, 1, 1, 1, 0, 0, 0, 0]))

set_option maxRecDepth 100000 in
theorem nine_search : search nineLeaf nineRowsLit [] 0 0 0 = true := by decide +kernel

end Verif.Proofs
