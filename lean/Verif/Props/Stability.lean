import Mathlib.Tactic.NormNum
import Verif.Proofs.Polygon

/-!
# Properties C35–C37: the stability tests
-/

namespace Verif.Props
open Verif Verif.Spec
variable {α : Type}

open Classical in
/-- **C35.** For every list of entries `(lo, hi, membership, estimate)`: the result is, in order, the memberships of
exactly those entries whose estimate is a real number in the closed interval `[lo, hi]`.  `None`, NaN and infinite
estimates are never stable. -/
theorem c35_single_layer_filter (ests : List (ℝ × ℝ × List α × Option (Fl ℝ))) :
    stablePartitions2D ests =
      (ests.filter fun e => decide (∃ g : ℝ, e.2.2.2 = some (.fin g) ∧ e.1 ≤ g ∧ g ≤ e.2.1)).map fun e => e.2.2.1 := by
  unfold stablePartitions2D
  congr 1
  apply List.filter_congr
  intro e _
  rw [Bool.eq_iff_iff, decide_eq_true_iff]
  obtain ⟨lo, hi, m, _ | (x | _ | _ | _)⟩ := e <;> simp [Fl.le]

example : stablePartitions2D [(0, 1, ([0, 1] : List Nat), some (.fin 1)), (0, 1, [0, 0], some (.fin 2)),
    (0, 1, [1, 1], none), (0, 1, [2, 2], some .nan)] = [[0, 1]] := by
  simp [stablePartitions2D, Fl.le]

/-- **C36.** For a strictly convex polygon with vertices in boundary order (either direction) and a real estimate, the
domain is kept iff the estimate is in the topological interior of the convex hull of the vertices. -/
theorem c36_point_in_polygon {poly : List (ℝ × ℝ)} (h : ConvexPolygon poly) (m : List α) (γ ω : ℝ) :
    ((γ, ω) ∈ interior (convexHull ℝ {q | q ∈ poly}) →
      stablePartitions3D [(poly, m, some (.fin γ), some (.fin ω))] = [m]) ∧
    ((γ, ω) ∉ interior (convexHull ℝ {q | q ∈ poly}) →
      stablePartitions3D [(poly, m, some (.fin γ), some (.fin ω))] = []) := by
  have key : sameSideOfAllEdges poly (.fin γ) (.fin ω) = true ↔ (γ, ω) ∈ interior (convexHull ℝ {q | q ∈ poly}) := by
    rcases strictPoly_of_convex h with h | h <;> exact h.test_iff γ ω
  unfold stablePartitions3D stableDomains
  simp only [List.filter_cons, List.filter_nil]
  constructor
  · intro hq
    simp [key.mpr hq]
  · intro hq
    have : sameSideOfAllEdges poly (.fin γ) (.fin ω) = false := by
      rw [Bool.eq_false_iff]; exact fun h => hq (key.mp h)
    simp [this]

/-- **C36 (lists).** The result consists of the kept entries of the input, in input order: it distributes over
concatenation. -/
theorem c36_in_order (ds es : List (DomainEstimate α)) :
    stableDomains (ds ++ es) = stableDomains ds ++ stableDomains es ∧ (stableDomains ds).Sublist ds ∧
      stablePartitions3D ds = (stableDomains ds).map fun d => d.2.1 :=
  ⟨List.filter_append _ _, List.filter_sublist, rfl⟩

/-- The unit square, clockwise. -/
def unitSquare : List (ℝ × ℝ) := [(0, 0), (0, 1), (1, 1), (1, 0)]

theorem unitSquare_convex : ConvexPolygon unitSquare := by
  refine ⟨by decide, by unfold unitSquare; simp [List.nodup_cons], Or.inl ?_⟩
  intro i j hi hj hij r hr h1 h2
  have hlen : unitSquare.length = 4 := rfl
  rw [hlen] at hi hij
  have hi' : i = 0 ∨ i = 1 ∨ i = 2 ∨ i = 3 := by omega
  simp only [unitSquare, List.mem_cons, List.not_mem_nil, or_false] at hr
  rcases hi' with rfl | rfl | rfl | rfl <;> simp at hij <;> subst hij <;>
    rcases hr with rfl | rfl | rfl | rfl <;>
    simp [unitSquare, orient] at h1 h2 ⊢

/-- a point inside is stable -/
example : stablePartitions3D [(unitSquare, ([0] : List Nat), some (.fin (1 / 2)), some (.fin (1 / 3)))] = [[0]] := by
  refine (c36_point_in_polygon unitSquare_convex [0] _ _).1 ?_
  have h : StrictPoly 1 unitSquare ∨ StrictPoly (-1) unitSquare := strictPoly_of_convex unitSquare_convex
  have ho : ∀ i < unitSquare.length, orient (vtx unitSquare i) (vtx unitSquare ((i + 1) % unitSquare.length))
      (1 / 2, 1 / 3) < 0 := by
    intro i hi
    have hlen : unitSquare.length = 4 := rfl
    rw [hlen] at hi ⊢
    have hi' : i = 0 ∨ i = 1 ∨ i = 2 ∨ i = 3 := by omega
    rcases hi' with rfl | rfl | rfl | rfl <;> simp [unitSquare, vtx, orient] <;> norm_num
  rcases h with h | h
  · exact (h.interior_iff _).mpr fun i hi => by rw [one_mul]; exact ho i hi
  · exfalso
    refine h.not_all_outside (1 / 2, 1 / 3) fun i hi => ?_
    have := ho i hi
    linarith

/-- **C36 (limits).** The hypothesis "at least three different vertices in boundary order" cannot be dropped: an empty
polygon and a one-vertex polygon declare *every* estimate stable, and a segment declares every point of the infinite line
through it stable. -/
theorem c36_degenerate_polygons (γ ω : ℝ) (p q : ℝ × ℝ) (m : List α) :
    stablePartitions3D [(([] : List (ℝ × ℝ)), m, some (.fin γ), some (.fin ω))] = [m] ∧
    stablePartitions3D [([p], m, some (.fin γ), some (.fin ω))] = [m] ∧
    (p ≠ q → (stablePartitions3D [([p, q], m, some (.fin γ), some (.fin ω))] = [m] ↔ orient p q (γ, ω) = 0)) := by
  refine ⟨?_, ?_, ?_⟩
  · simp [stablePartitions3D, stableDomains, List.filter_cons, sameSideOfAllEdges, polygonEdges]
  · have hside : ∀ x y : ℝ, leftOrRight p p (.fin x) (.fin y) = true := by
      intro x y; rw [leftOrRight_fin]; unfold orient; simp
    have hm : ∀ x : ℝ, npMean [x] = .fin x := by intro x; simp [npMean, npDiv]
    simp [stablePartitions3D, stableDomains, List.filter_cons, sameSideOfAllEdges, polygonEdges, hside, hm,
      List.range_succ]
  · intro hpq
    have hm : ∀ x y : ℝ, npMean [x, y] = .fin ((x + y) / 2) := by intro x y; simp [npMean, npDiv]
    have hc1 : leftOrRight p q (.fin ((p.1 + q.1) / 2)) (.fin ((p.2 + q.2) / 2)) = true := by
      rw [leftOrRight_fin, decide_eq_true_iff]; apply le_of_eq; unfold orient; ring
    have hc2 : leftOrRight q p (.fin ((p.1 + q.1) / 2)) (.fin ((p.2 + q.2) / 2)) = true := by
      rw [leftOrRight_fin, decide_eq_true_iff]; apply le_of_eq; unfold orient; ring
    have htest : sameSideOfAllEdges [p, q] (.fin γ) (.fin ω) = true ↔ orient p q (γ, ω) = 0 := by
      have hE : polygonEdges [p, q] = [(q, p), (p, q)] := by
        simp [polygonEdges, List.range_succ, hm, hc1, hc2]
      unfold sameSideOfAllEdges
      rw [hE]
      simp only [List.map_cons, List.map_nil, leftOrRight_fin, orient_swap p q, List.all_cons, List.all_nil,
        Bool.and_true, Bool.or_eq_true, Bool.and_eq_true, decide_eq_true_eq, Bool.not_eq_true', decide_eq_false_iff_not,
        not_le]
      constructor
      · rintro (⟨h1, h2⟩ | ⟨h1, h2⟩) <;> linarith
      · intro h; left; rw [h]; simp
    unfold stablePartitions3D stableDomains
    simp only [List.filter_cons, List.filter_nil]
    by_cases hq : orient p q (γ, ω) = 0
    · simp [hq, htest.mpr hq]
    · have : sameSideOfAllEdges [p, q] (.fin γ) (.fin ω) = false := by
        rw [Bool.eq_false_iff]; exact fun h => hq (htest.mp h)
      simp [hq, this]

/-- **C36 (infinite estimates).** On a strictly convex polygon a domain with exactly one infinite estimate is never kept:
an infinite point is not in the interior of a polygon. -/
theorem c36_infinite {poly : List (ℝ × ℝ)} (h : ConvexPolygon poly) (m : List α) (x : ℝ) {i : Fl ℝ}
    (hi : i = .pinf ∨ i = .ninf) :
    stablePartitions3D [(poly, m, some i, some (.fin x))] = [] ∧
      stablePartitions3D [(poly, m, some (.fin x), some i)] = [] := by
  have key : sameSideOfAllEdges poly i (.fin x) = false ∧ sameSideOfAllEdges poly (.fin x) i = false := by
    rcases strictPoly_of_convex h with h | h <;> rcases hi with rfl | rfl
    · exact ⟨h.test_mixed Prod.snd (Or.inr rfl) (Or.inl fun _ _ => leftOrRight_pinf_left _ _ _),
        h.test_mixed Prod.fst (Or.inl rfl) (Or.inr fun _ _ => leftOrRight_pinf_right _ _ _)⟩
    · exact ⟨h.test_mixed Prod.snd (Or.inr rfl) (Or.inr fun _ _ => leftOrRight_ninf_left _ _ _),
        h.test_mixed Prod.fst (Or.inl rfl) (Or.inl fun _ _ => leftOrRight_ninf_right _ _ _)⟩
    · exact ⟨h.test_mixed Prod.snd (Or.inr rfl) (Or.inl fun _ _ => leftOrRight_pinf_left _ _ _),
        h.test_mixed Prod.fst (Or.inl rfl) (Or.inr fun _ _ => leftOrRight_pinf_right _ _ _)⟩
    · exact ⟨h.test_mixed Prod.snd (Or.inr rfl) (Or.inr fun _ _ => leftOrRight_ninf_left _ _ _),
        h.test_mixed Prod.fst (Or.inl rfl) (Or.inl fun _ _ => leftOrRight_ninf_right _ _ _)⟩
  unfold stablePartitions3D stableDomains
  simp [key.1, key.2]

example : stablePartitions3D [(unitSquare, ([0] : List Nat), some .pinf, some (.fin (1 / 3)))] = [] :=
  (c36_infinite unitSquare_convex [0] _ (Or.inl rfl)).1

/-- **C36 (limits).** With both estimates infinite the test can accept: on the unit square the products `inf * 0` are
NaN, so every comparison is false. -/
theorem c36_both_infinite (m : List α) :
    stablePartitions3D [(unitSquare, m, some .pinf, some .pinf)] = [m] := by
  have hm : npMean [(0 : ℝ), 0, 1, 1] = .fin (1 / 2) ∧ npMean [(0 : ℝ), 1, 1, 0] = .fin (1 / 2) := by
    constructor <;> (unfold npMean npDiv; norm_num)
  have : sameSideOfAllEdges unitSquare .pinf .pinf = true := by
    unfold sameSideOfAllEdges
    rw [Bool.or_eq_true]
    right
    rw [List.all_eq_true]
    intro b hb
    obtain ⟨e, he, rfl⟩ := List.mem_map.mp hb
    rcases strictPoly_of_convex unitSquare_convex with h | h
    all_goals
      rw [h.edges_eq] at he
      obtain ⟨i, hi, rfl⟩ := List.mem_map.mp he
      have hlen : unitSquare.length = 4 := rfl
      rw [hlen] at hi ⊢
      have hi' : i = 0 ∨ i = 1 ∨ i = 2 ∨ i = 3 := by have := List.mem_range.mp hi; omega
      rcases hi' with rfl | rfl | rfl | rfl <;>
        simp [unitSquare, vtx, leftOrRight, Fl.sub, Fl.add, Fl.mul, Fl.le] <;> norm_num
  unfold stablePartitions3D stableDomains
  simp [this]

/-- **C37 (partial).** A domain whose gamma or omega estimate is `None` is never reported stable.
What is missing, and false of the code, is the same for NaN: see `c37_nan_is_stable`. -/
theorem c37_none_not_stable_partial (ds : List (DomainEstimate α)) :
    ∀ d ∈ stableDomains ds, d.2.2.1 ≠ none ∧ d.2.2.2 ≠ none := by
  intro d hd
  have := (List.mem_filter.mp hd).2
  constructor
  · intro h; rw [h] at this; simp at this
  · intro h
    cases h1 : d.2.2.1 with
    | none => rw [h, h1] at this; simp at this
    | some g => rw [h, h1] at this; simp at this

/-- **C37 is false of the code.** A domain with a NaN gamma or omega estimate (and no `None`) is *always* reported stable,
whatever its polygon. -/
theorem c37_nan_is_stable (poly : List (ℝ × ℝ)) (m : List α) (g o : Fl ℝ) (h : g = .nan ∨ o = .nan) :
    stablePartitions3D [(poly, m, some g, some o)] = [m] := by
  have : sameSideOfAllEdges poly g o = true := by
    unfold sameSideOfAllEdges
    rw [Bool.or_eq_true]
    right
    rw [List.all_eq_true]
    intro b hb
    obtain ⟨e, _, rfl⟩ := List.mem_map.mp hb
    rcases h with rfl | rfl
    · rw [leftOrRight_nan_left]; rfl
    · rw [leftOrRight_nan_right]; rfl
  unfold stablePartitions3D stableDomains
  simp [this]

end Verif.Props
