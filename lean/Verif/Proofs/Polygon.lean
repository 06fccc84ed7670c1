import Mathlib.Analysis.Convex.Combination
import Mathlib.Analysis.Convex.Topology
import Mathlib.Tactic.Ring
import Mathlib.Tactic.Linarith
import Mathlib.Tactic.FieldSimp
import Mathlib.Algebra.Order.BigOperators.Group.List
import Verif.Model.Stability
import Verif.Spec.PolygonInterior

/-! # Geometry of the stability test -/

namespace Verif
open Spec Finset

theorem orient_swap (p q r : ℝ × ℝ) : orient q p r = -orient p q r := by unfold orient; ring

theorem orient_cycle_sum (a b c q : ℝ × ℝ) : orient a b q + orient b c q + orient c a q = orient a b c := by
  unfold orient; ring

/-- A point on the same side of the three edges of a triangle is in the triangle. -/
theorem mem_triangle {s : ℝ} {a b c q : ℝ × ℝ} (h1 : s * orient a b q ≤ 0) (h2 : s * orient b c q ≤ 0)
    (h3 : s * orient c a q ≤ 0) (h : s * orient a b q + s * orient b c q + s * orient c a q < 0) {S : Set (ℝ × ℝ)}
    (ha : a ∈ S) (hb : b ∈ S) (hc : c ∈ S) : q ∈ convexHull ℝ S := by
  set D := s * orient a b q + s * orient b c q + s * orient c a q with hD
  have hDne : D ≠ 0 := h.ne
  have hq : q = (s * orient b c q / D) • a + (s * orient c a q / D) • b + (s * orient a b q / D) • c := by
    have e1 : D * q.1 = s * orient b c q * a.1 + s * orient c a q * b.1 + s * orient a b q * c.1 := by
      rw [hD]; unfold orient; ring
    have e2 : D * q.2 = s * orient b c q * a.2 + s * orient c a q * b.2 + s * orient a b q * c.2 := by
      rw [hD]; unfold orient; ring
    ext
    · simp only [Prod.fst_add, Prod.smul_fst, smul_eq_mul]
      field_simp
      linarith
    · simp only [Prod.snd_add, Prod.smul_snd, smul_eq_mul]
      field_simp
      linarith
  have hcx := convex_convexHull ℝ S
  have := hcx.sum_mem (t := (Finset.univ : Finset (Fin 3)))
    (w := ![s * orient b c q / D, s * orient c a q / D, s * orient a b q / D]) (z := ![a, b, c]) ?_ ?_ ?_
  · rw [Fin.sum_univ_three] at this
    have this' : (s * orient b c q / D) • a + (s * orient c a q / D) • b + (s * orient a b q / D) • c ∈
      convexHull ℝ S := this
    rwa [← hq] at this'
  · intro i _
    fin_cases i
    · exact div_nonneg_of_nonpos h2 h.le
    · exact div_nonneg_of_nonpos h3 h.le
    · exact div_nonneg_of_nonpos h1 h.le
  · rw [Fin.sum_univ_three]
    simp only [Matrix.cons_val_zero, Matrix.cons_val_one, Matrix.cons_val]
    rw [← add_div, ← add_div, div_eq_one_iff_eq hDne, hD]; ring
  · intro i _
    fin_cases i
    · exact subset_convexHull ℝ S ha
    · exact subset_convexHull ℝ S hb
    · exact subset_convexHull ℝ S hc

/-- Fan triangulation: a point strictly on the same side of all edges of a closed polygon is in the convex hull. -/
theorem mem_hull_of_sides {s : ℝ} {n : Nat} (hn : 3 ≤ n) (p : Nat → ℝ × ℝ) {q : ℝ × ℝ}
    (h : ∀ i < n, s * orient (p i) (p ((i + 1) % n)) q < 0) : q ∈ convexHull ℝ {r | ∃ i < n, p i = r} := by
  classical
  have hf1 : s * orient (p 0) (p 1) q < 0 := by
    have := h 0 (by omega)
    rwa [Nat.zero_add, Nat.mod_eq_of_lt (by omega)] at this
  have hfn : 0 < s * orient (p 0) (p (n - 1)) q := by
    have := h (n - 1) (by omega)
    rw [Nat.sub_add_cancel (by omega), Nat.mod_self, orient_swap] at this
    linarith
  have hex : ∃ j, 1 ≤ j ∧ j < n ∧ 0 ≤ s * orient (p 0) (p j) q := ⟨n - 1, by omega, by omega, hfn.le⟩
  obtain ⟨hj1, hjn, hj⟩ := Nat.find_spec hex
  set j := Nat.find hex with hjdef
  have hj2 : 2 ≤ j := by
    by_contra hlt
    have : j = 1 := by omega
    rw [this] at hj; linarith
  have hprev : s * orient (p 0) (p (j - 1)) q < 0 := by
    by_contra hcon
    have := Nat.find_min hex (m := j - 1) (by omega)
    exact this ⟨by omega, by omega, not_lt.mp hcon⟩
  have hedge := h (j - 1) (by omega)
  rw [Nat.sub_add_cancel hj1, Nat.mod_eq_of_lt hjn] at hedge
  have hlast : s * orient (p j) (p 0) q ≤ 0 := by rw [orient_swap]; linarith
  exact mem_triangle hprev.le hedge.le hlast (by linarith) ⟨0, by omega, rfl⟩ ⟨j - 1, by omega, rfl⟩ ⟨j, hjn, rfl⟩

theorem continuous_orient (p q : ℝ × ℝ) : Continuous fun r => orient p q r := by
  unfold orient
  fun_prop

theorem orient_convex (s : ℝ) (p q : ℝ × ℝ) : Convex ℝ {r | s * orient p q r ≤ 0} := by
  intro a ha b hb u v hu hv huv
  simp only [Set.mem_ofPred_eq] at ha hb ⊢
  have : s * orient p q (u • a + v • b) = u * (s * orient p q a) + v * (s * orient p q b) := by
    have hu' : u = 1 - v := by linarith
    subst hu'
    unfold orient
    simp only [Prod.fst_add, Prod.snd_add, Prod.smul_fst, Prod.smul_snd, smul_eq_mul]
    ring
  rw [this]
  nlinarith [mul_nonneg hu (neg_nonneg.mpr ha), mul_nonneg hv (neg_nonneg.mpr hb)]

/-- An interior point of the hull is strictly on the inner side of every supporting edge. -/
theorem interior_strict {s : ℝ} (hs : s ≠ 0) {S : Set (ℝ × ℝ)} {a b q : ℝ × ℝ} (hab : a ≠ b)
    (hS : ∀ r ∈ S, s * orient a b r ≤ 0) (hq : q ∈ interior (convexHull ℝ S)) : s * orient a b q < 0 := by
  have hsub : convexHull ℝ S ⊆ {r | s * orient a b r ≤ 0} := convexHull_min hS (orient_convex s a b)
  have hq0 : s * orient a b q ≤ 0 := hsub (interior_subset hq)
  rcases lt_or_eq_of_le hq0 with h | h
  · exact h
  exfalso
  set v : ℝ × ℝ := (-(s * (b.2 - a.2)), s * (b.1 - a.1)) with hv
  have hcont : Continuous fun t : ℝ => q + t • v := by fun_prop
  have hev : ∀ᶠ t in nhds (0 : ℝ), q + t • v ∈ convexHull ℝ S := by
    have : Filter.Tendsto (fun t : ℝ => q + t • v) (nhds 0) (nhds q) := by
      have := hcont.tendsto 0
      simpa using this
    exact this.eventually (mem_interior_iff_mem_nhds.mp hq)
  have hev' : ∀ᶠ t in nhdsWithin (0 : ℝ) (Set.Ioi 0), q + t • v ∈ convexHull ℝ S := hev.filter_mono nhdsWithin_le_nhds
  obtain ⟨t, ht, ht0⟩ := (hev'.and self_mem_nhdsWithin).exists
  have ht0 : 0 < t := ht0
  have hle := hsub ht
  simp only [Set.mem_ofPred_eq] at hle
  have hexp : s * orient a b (q + t • v) = s * orient a b q + t * (s ^ 2 * ((b.1 - a.1) ^ 2 + (b.2 - a.2) ^ 2)) := by
    rw [hv]
    unfold orient
    simp only [Prod.fst_add, Prod.snd_add, Prod.smul_fst, Prod.smul_snd, smul_eq_mul]
    ring
  rw [hexp, h, zero_add] at hle
  have hpos : 0 < (b.1 - a.1) ^ 2 + (b.2 - a.2) ^ 2 := by
    rcases (add_nonneg (sq_nonneg (b.1 - a.1)) (sq_nonneg (b.2 - a.2))).lt_or_eq with h0 | h0
    · exact h0
    · exfalso
      apply hab
      have e1 : (b.1 - a.1) ^ 2 = 0 := by nlinarith [sq_nonneg (b.1 - a.1), sq_nonneg (b.2 - a.2)]
      have e2 : (b.2 - a.2) ^ 2 = 0 := by nlinarith [sq_nonneg (b.1 - a.1), sq_nonneg (b.2 - a.2)]
      ext
      · linarith [pow_eq_zero_iff (two_ne_zero) |>.mp e1]
      · linarith [pow_eq_zero_iff (two_ne_zero) |>.mp e2]
  have : 0 < t * (s ^ 2 * ((b.1 - a.1) ^ 2 + (b.2 - a.2) ^ 2)) :=
    mul_pos ht0 (mul_pos (by positivity) hpos)
  linarith

theorem sum_cyclic {n : Nat} (g : Nat → ℝ) : ∑ i ∈ range n, g ((i + 1) % n) = ∑ i ∈ range n, g i := by
  cases n with
  | zero => simp
  | succ m =>
    rw [Finset.sum_range_succ, Nat.mod_self, Finset.sum_range_succ' g]
    congr 1
    apply Finset.sum_congr rfl
    intro i hi
    rw [Nat.mod_eq_of_lt (by have := mem_range.mp hi; omega)]

/-- The sum of the orientations along a closed polygon does not depend on the point. -/
theorem sum_orient_const {n : Nat} (p : Nat → ℝ × ℝ) (q q' : ℝ × ℝ) :
    ∑ i ∈ range n, orient (p i) (p ((i + 1) % n)) q = ∑ i ∈ range n, orient (p i) (p ((i + 1) % n)) q' := by
  have h1 := sum_cyclic (n := n) fun i => (p i).1
  have h2 := sum_cyclic (n := n) fun i => (p i).2
  rw [← sub_eq_zero, ← Finset.sum_sub_distrib]
  have : ∀ i, orient (p i) (p ((i + 1) % n)) q - orient (p i) (p ((i + 1) % n)) q' =
      ((p ((i + 1) % n)).1 - (p i).1) * (q.2 - q'.2) - ((p ((i + 1) % n)).2 - (p i).2) * (q.1 - q'.1) := by
    intro i; unfold orient; ring
  simp only [this]
  rw [Finset.sum_sub_distrib, ← Finset.sum_mul, ← Finset.sum_mul, Finset.sum_sub_distrib, Finset.sum_sub_distrib, h1, h2]
  simp

theorem sum_orient_list (a b : ℝ × ℝ) (l : List (ℝ × ℝ)) :
    (l.map fun r => orient a b r).sum =
      (b.1 - a.1) * ((l.map Prod.snd).sum - l.length * a.2) - (b.2 - a.2) * ((l.map Prod.fst).sum - l.length * a.1) := by
  induction l with
  | nil => simp
  | cons r l ih =>
    rw [List.map_cons, List.sum_cons, ih]
    simp only [List.map_cons, List.sum_cons, List.length_cons, Nat.cast_add, Nat.cast_one]
    unfold orient; ring

theorem leftOrRight_fin (p₁ p₂ : ℝ × ℝ) (x y : ℝ) :
    leftOrRight p₁ p₂ (.fin x) (.fin y) = decide (orient p₁ p₂ (x, y) ≤ 0) := by
  unfold leftOrRight orient
  simp only [Fl.sub, Fl.add, Fl.mul, Fl.le]
  congr 1
  rw [eq_iff_iff]
  constructor <;> intro h <;> linarith

theorem leftOrRight_nan_left (p₁ p₂ : ℝ × ℝ) (y : Fl ℝ) : leftOrRight p₁ p₂ .nan y = false := by
  unfold leftOrRight
  cases y <;> simp [Fl.sub, Fl.add, Fl.mul, Fl.le]

theorem leftOrRight_nan_right (p₁ p₂ : ℝ × ℝ) (x : Fl ℝ) : leftOrRight p₁ p₂ x .nan = false := by
  unfold leftOrRight
  have : ∀ z : Fl ℝ, Fl.le (.fin 0) (Fl.sub z .nan) = false := by
    intro z; cases z <;> rfl
  have h2 : Fl.mul (Fl.sub (Fl.nan : Fl ℝ) (.fin p₁.2)) (.fin (p₂.1 - p₁.1)) = .nan := rfl
  rw [h2]; exact this _

theorem leftOrRight_pinf_left (p₁ p₂ : ℝ × ℝ) (y : ℝ) :
    leftOrRight p₁ p₂ .pinf (.fin y) = decide (0 < p₂.2 - p₁.2) := by
  unfold leftOrRight
  simp only [Fl.sub, Fl.add, Fl.mul]
  by_cases h1 : 0 < p₂.2 - p₁.2
  · simp only [h1, if_true, decide_true, Fl.le]
  · by_cases h2 : p₂.2 - p₁.2 < 0
    · simp only [h1, h2, if_true, if_false, decide_false, Fl.le]
    · simp only [h1, h2, if_false, decide_false, Fl.le]

theorem leftOrRight_ninf_left (p₁ p₂ : ℝ × ℝ) (y : ℝ) :
    leftOrRight p₁ p₂ .ninf (.fin y) = decide (p₂.2 - p₁.2 < 0) := by
  unfold leftOrRight
  simp only [Fl.sub, Fl.add, Fl.mul]
  by_cases h1 : 0 < p₂.2 - p₁.2
  · simp only [h1, if_true, not_lt.mpr h1.le, decide_false, Fl.le]
  · by_cases h2 : p₂.2 - p₁.2 < 0
    · simp only [h1, h2, if_true, if_false, decide_true, Fl.le]
    · simp only [h1, h2, if_false, decide_false, Fl.le]

theorem leftOrRight_pinf_right (p₁ p₂ : ℝ × ℝ) (x : ℝ) :
    leftOrRight p₁ p₂ (.fin x) .pinf = decide (p₂.1 - p₁.1 < 0) := by
  unfold leftOrRight
  simp only [Fl.sub, Fl.add, Fl.mul]
  by_cases h1 : 0 < p₂.1 - p₁.1
  · simp only [h1, if_true, not_lt.mpr h1.le, decide_false, Fl.le]
  · by_cases h2 : p₂.1 - p₁.1 < 0
    · simp only [h1, h2, if_true, if_false, decide_true, Fl.le]
    · simp only [h1, h2, if_false, decide_false, Fl.le]

theorem leftOrRight_ninf_right (p₁ p₂ : ℝ × ℝ) (x : ℝ) :
    leftOrRight p₁ p₂ (.fin x) .ninf = decide (0 < p₂.1 - p₁.1) := by
  unfold leftOrRight
  simp only [Fl.sub, Fl.add, Fl.mul]
  by_cases h1 : 0 < p₂.1 - p₁.1
  · simp only [h1, if_true, decide_true, Fl.le]
  · by_cases h2 : p₂.1 - p₁.1 < 0
    · simp only [h1, h2, if_true, if_false, decide_false, Fl.le]
    · simp only [h1, h2, if_false, decide_false, Fl.le]

/-- The `i`-th vertex. -/
def vtx (l : List (ℝ × ℝ)) (i : Nat) : ℝ × ℝ := l.getD i (0, 0)

theorem vtx_eq {l : List (ℝ × ℝ)} {i : Nat} (h : i < l.length) : vtx l i = l[i] := by
  unfold vtx; simp [List.getD, h]

/-- All other vertices are strictly on one side of every edge. -/
structure StrictPoly (s : ℝ) (l : List (ℝ × ℝ)) : Prop where
  sign : s = 1 ∨ s = -1
  three : 3 ≤ l.length
  nodup : l.Nodup
  side : ∀ i < l.length, ∀ r ∈ l, r ≠ vtx l i → r ≠ vtx l ((i + 1) % l.length) →
    s * orient (vtx l i) (vtx l ((i + 1) % l.length)) r < 0

theorem strictPoly_of_convex {l : List (ℝ × ℝ)} (h : ConvexPolygon l) : StrictPoly 1 l ∨ StrictPoly (-1) l := by
  obtain ⟨h3, hnd, h | h⟩ := h
  · refine Or.inl ⟨Or.inl rfl, h3, hnd, ?_⟩
    intro i hi r hr h1 h2
    have hj : (i + 1) % l.length < l.length := Nat.mod_lt _ (by omega)
    rw [vtx_eq hi] at h1 ⊢
    rw [vtx_eq hj] at h2 ⊢
    rw [one_mul]
    exact h i _ hi hj rfl r hr h1 h2
  · refine Or.inr ⟨Or.inr rfl, h3, hnd, ?_⟩
    intro i hi r hr h1 h2
    have hj : (i + 1) % l.length < l.length := Nat.mod_lt _ (by omega)
    rw [vtx_eq hi] at h1 ⊢
    rw [vtx_eq hj] at h2 ⊢
    have := h i _ hi hj rfl r hr h1 h2
    linarith

section
variable {s : ℝ} {l : List (ℝ × ℝ)} (h : StrictPoly s l)
include h

theorem StrictPoly.side_le {i : Nat} (hi : i < l.length) {r : ℝ × ℝ} (hr : r ∈ l) :
    s * orient (vtx l i) (vtx l ((i + 1) % l.length)) r ≤ 0 := by
  by_cases h1 : r = vtx l i
  · rw [h1]; unfold orient; simp
  by_cases h2 : r = vtx l ((i + 1) % l.length)
  · rw [h2]; unfold orient; apply le_of_eq; ring
  exact (h.side i hi r hr h1 h2).le

theorem StrictPoly.edge_ne {i : Nat} (hi : i < l.length) : vtx l i ≠ vtx l ((i + 1) % l.length) := by
  have hj : (i + 1) % l.length < l.length := Nat.mod_lt _ (by omega)
  rw [vtx_eq hi, vtx_eq hj]
  intro heq
  have := (List.Nodup.getElem_inj_iff h.nodup).mp heq
  have h3 := h.three
  by_cases hlt : i + 1 < l.length
  · rw [Nat.mod_eq_of_lt hlt] at this; omega
  · have hl : i + 1 = l.length := by omega
    rw [hl, Nat.mod_self] at this
    omega

theorem StrictPoly.exists_third {i : Nat} (hi : i < l.length) :
    ∃ r ∈ l, r ≠ vtx l i ∧ r ≠ vtx l ((i + 1) % l.length) := by
  have hj : (i + 1) % l.length < l.length := Nat.mod_lt _ (by omega)
  have h3 := h.three
  obtain ⟨k, hk, hki, hkj⟩ : ∃ k < l.length, k ≠ i ∧ k ≠ (i + 1) % l.length := by
    by_contra hcon
    push Not at hcon
    have h0 := hcon 0 (by omega)
    have h1 := hcon 1 (by omega)
    have h2 := hcon 2 (by omega)
    omega
  refine ⟨l[k], List.getElem_mem hk, ?_, ?_⟩
  · rw [vtx_eq hi]; exact fun e => hki ((List.Nodup.getElem_inj_iff h.nodup).mp e)
  · rw [vtx_eq hj]; exact fun e => hkj ((List.Nodup.getElem_inj_iff h.nodup).mp e)

/-- The centroid is strictly inside. -/
theorem StrictPoly.centroid_side {i : Nat} (hi : i < l.length) :
    s * orient (vtx l i) (vtx l ((i + 1) % l.length))
      ((l.map Prod.fst).sum / l.length, (l.map Prod.snd).sum / l.length) < 0 := by
  set a := vtx l i
  set b := vtx l ((i + 1) % l.length)
  have hn : (0 : ℝ) < l.length := by have := h.three; exact_mod_cast (by omega : 0 < l.length)
  have hsum : (l.map fun r => s * orient a b r).sum < 0 := by
    obtain ⟨r, hr, h1, h2⟩ := h.exists_third hi
    have hle : ∀ r ∈ l, s * orient a b r ≤ 0 := fun r hr => h.side_le hi hr
    have hlt : s * orient a b r < 0 := h.side i hi r hr h1 h2
    have := List.sum_lt_sum (l := l) (f := fun r => s * orient a b r) (g := fun _ => 0) hle ⟨r, hr, hlt⟩
    simpa using this
  rw [List.sum_map_mul_left, sum_orient_list] at hsum
  have : s * orient a b ((l.map Prod.fst).sum / l.length, (l.map Prod.snd).sum / l.length) =
      s * ((b.1 - a.1) * ((l.map Prod.snd).sum - l.length * a.2) -
        (b.2 - a.2) * ((l.map Prod.fst).sum - l.length * a.1)) / l.length := by
    unfold orient; field_simp
  rw [this]
  exact div_neg_of_neg_of_pos hsum hn

theorem StrictPoly.not_all_outside (q : ℝ × ℝ)
    (hq : ∀ i < l.length, 0 ≤ s * orient (vtx l i) (vtx l ((i + 1) % l.length)) q) : False := by
  have h1 : 0 ≤ s * ∑ i ∈ range l.length, orient (vtx l i) (vtx l ((i + 1) % l.length)) q := by
    rw [Finset.mul_sum]
    exact Finset.sum_nonneg fun i hi => hq i (mem_range.mp hi)
  rw [sum_orient_const _ q ((l.map Prod.fst).sum / l.length, (l.map Prod.snd).sum / l.length), Finset.mul_sum] at h1
  have h2 := Finset.sum_neg (s := range l.length)
    (f := fun i => s * orient (vtx l i) (vtx l ((i + 1) % l.length))
      ((l.map Prod.fst).sum / l.length, (l.map Prod.snd).sum / l.length))
    (fun i hi => h.centroid_side (mem_range.mp hi)) ⟨0, mem_range.mpr (by have := h.three; omega)⟩
  exact absurd h1 (not_le.mpr h2)

theorem StrictPoly.interior_iff (q : ℝ × ℝ) : q ∈ interior (convexHull ℝ {r | r ∈ l}) ↔
    ∀ i < l.length, s * orient (vtx l i) (vtx l ((i + 1) % l.length)) q < 0 := by
  have hs : s ≠ 0 := by rcases h.sign with h | h <;> rw [h] <;> norm_num
  constructor
  · intro hq i hi
    exact interior_strict hs (h.edge_ne hi) (fun r hr => h.side_le hi hr) hq
  · intro hq
    have hopen : IsOpen {q : ℝ × ℝ | ∀ i < l.length, s * orient (vtx l i) (vtx l ((i + 1) % l.length)) q < 0} := by
      have : {q : ℝ × ℝ | ∀ i < l.length, s * orient (vtx l i) (vtx l ((i + 1) % l.length)) q < 0} =
          ⋂ i ∈ range l.length, {q | s * orient (vtx l i) (vtx l ((i + 1) % l.length)) q < 0} := by
        ext q; simp
      rw [this]
      exact isOpen_biInter_finset fun i _ =>
        isOpen_lt (continuous_const.mul (continuous_orient _ _)) continuous_const
    refine mem_interior.mpr ⟨_, ?_, hopen, hq⟩
    intro r hr
    refine convexHull_mono ?_ (mem_hull_of_sides h.three (vtx l) hr)
    rintro _ ⟨i, hi, rfl⟩
    rw [vtx_eq hi]; exact List.getElem_mem hi

theorem StrictPoly.edges_eq : polygonEdges l = (List.range l.length).map fun i =>
    if s = 1 then (vtx l ((i + 1) % l.length), vtx l i) else (vtx l i, vtx l ((i + 1) % l.length)) := by
  have h3 := h.three
  have hn : (l.length : ℝ) ≠ 0 := by
    have : l.length ≠ 0 := by omega
    exact_mod_cast this
  have hmean : ∀ f : ℝ × ℝ → ℝ, npMean (l.map f) = .fin ((l.map f).sum / l.length) := by
    intro f; unfold npMean npDiv; rw [List.length_map, if_pos hn]
  unfold polygonEdges
  simp only [hmean]
  rw [show ∀ (f : Nat → (ℝ × ℝ) × (ℝ × ℝ)), (List.range l.length).map f =
    (List.range l.length).filterMap (some ∘ f) from fun f => (congrFun List.filterMap_eq_map _).symm]
  apply List.filterMap_congr
  intro i hi
  have hi := List.mem_range.mp hi
  have hj : (i + 1) % l.length < l.length := Nat.mod_lt _ (by omega)
  rw [List.getElem?_eq_getElem hi, List.getElem?_eq_getElem hj, ← vtx_eq hi, ← vtx_eq hj]
  simp only [Function.comp, Option.some.injEq, leftOrRight_fin, decide_eq_true_eq]
  have hc := h.centroid_side hi
  rcases h.sign with hs | hs
  · rw [hs, one_mul] at hc
    rw [if_pos hc.le, if_pos hs]
  · rw [hs] at hc
    rw [if_neg (by linarith), if_neg (by rw [hs]; norm_num)]

theorem StrictPoly.test_iff (x y : ℝ) : sameSideOfAllEdges l (.fin x) (.fin y) = true ↔
    (x, y) ∈ interior (convexHull ℝ {r | r ∈ l}) := by
  rw [h.interior_iff]
  have hedges := h.edges_eq
  unfold sameSideOfAllEdges
  rw [hedges]
  simp only [Bool.or_eq_true, List.all_eq_true, List.mem_map, List.mem_range]
  have hside : ∀ i, leftOrRight
      (if s = 1 then (vtx l ((i + 1) % l.length), vtx l i) else (vtx l i, vtx l ((i + 1) % l.length))).1
      (if s = 1 then (vtx l ((i + 1) % l.length), vtx l i) else (vtx l i, vtx l ((i + 1) % l.length))).2 (.fin x) (.fin y) =
      decide (0 ≤ s * orient (vtx l i) (vtx l ((i + 1) % l.length)) (x, y)) := by
    intro i
    rw [leftOrRight_fin]
    rcases h.sign with hs | hs
    · rw [hs]
      simp only [if_true, one_mul]
      rw [orient_swap]
      congr 1
      rw [eq_iff_iff]
      constructor <;> intro h <;> linarith
    · have hne : ¬ s = 1 := by rw [hs]; norm_num
      simp only [hne, if_false]
      congr 1
      rw [hs, eq_iff_iff]
      constructor <;> intro h <;> linarith
  constructor
  · rintro (hall | hall)
    · exfalso
      refine h.not_all_outside (x, y) fun i hi => ?_
      have := hall _ ⟨_, ⟨i, hi, rfl⟩, rfl⟩
      rw [hside] at this
      simpa using this
    · intro i hi
      have := hall _ ⟨_, ⟨i, hi, rfl⟩, rfl⟩
      rw [hside] at this
      simpa using this
  · intro hall
    right
    rintro _ ⟨_, ⟨i, hi, rfl⟩, rfl⟩
    rw [hside]
    simpa using hall i hi

/-- the vertices are not all on a horizontal or vertical line -/
theorem StrictPoly.not_flat (π : ℝ × ℝ → ℝ) (hπ : π = Prod.fst ∨ π = Prod.snd) :
    ∃ i < l.length, π (vtx l ((i + 1) % l.length)) - π (vtx l i) ≠ 0 := by
  by_contra hcon
  push Not at hcon
  have h3 := h.three
  have hall : ∀ i < l.length, π (vtx l i) = π (vtx l 0) := by
    intro i
    induction i with
    | zero => intro _; rfl
    | succ i ih =>
      intro hi
      have := hcon i (by omega)
      rw [Nat.mod_eq_of_lt hi] at this
      rw [← ih (by omega)]; linarith
  obtain ⟨r, hr, h1, h2⟩ := h.exists_third (i := 0) (by omega)
  have hlt := h.side 0 (by omega) r hr h1 h2
  obtain ⟨k, hk, rfl⟩ := List.getElem_of_mem hr
  have hk' := hall k hk
  have hj := hall ((0 + 1) % l.length) (Nat.mod_lt _ (by omega))
  rw [vtx_eq hk] at hk'
  have h0 : orient (vtx l 0) (vtx l ((0 + 1) % l.length)) l[k] = 0 := by
    unfold orient
    rcases hπ with rfl | rfl
    · rw [hk', hj]; ring
    · rw [hk', hj]; ring
  rw [h0, mul_zero] at hlt
  exact lt_irrefl _ hlt

/-- some edge goes up, some edge goes down -/
theorem StrictPoly.up_down (π : ℝ × ℝ → ℝ) (hπ : π = Prod.fst ∨ π = Prod.snd) :
    (∃ i < l.length, 0 < π (vtx l ((i + 1) % l.length)) - π (vtx l i)) ∧
      ∃ i < l.length, π (vtx l ((i + 1) % l.length)) - π (vtx l i) < 0 := by
  have hsum : ∑ i ∈ range l.length, (π (vtx l ((i + 1) % l.length)) - π (vtx l i)) = 0 := by
    rw [Finset.sum_sub_distrib, sum_cyclic (fun i => π (vtx l i)), sub_self]
  obtain ⟨i, hi, hne⟩ := h.not_flat π hπ
  constructor
  · obtain ⟨j, hj, hpos⟩ := Finset.exists_pos_of_sum_zero_of_exists_nonzero _ hsum ⟨i, mem_range.mpr hi, hne⟩
    exact ⟨j, mem_range.mp hj, hpos⟩
  · have hsum' : ∑ i ∈ range l.length, -(π (vtx l ((i + 1) % l.length)) - π (vtx l i)) = 0 := by
      rw [Finset.sum_neg_distrib, hsum, neg_zero]
    obtain ⟨j, hj, hpos⟩ := Finset.exists_pos_of_sum_zero_of_exists_nonzero _ hsum'
      ⟨i, mem_range.mpr hi, neg_ne_zero.mpr hne⟩
    exact ⟨j, mem_range.mp hj, by linarith⟩

theorem StrictPoly.test_mixed (π : ℝ × ℝ → ℝ) (hπ : π = Prod.fst ∨ π = Prod.snd) {g o : Fl ℝ}
    (hside : (∀ p₁ p₂, leftOrRight p₁ p₂ g o = decide (0 < π p₂ - π p₁)) ∨
      ∀ p₁ p₂, leftOrRight p₁ p₂ g o = decide (π p₂ - π p₁ < 0)) : sameSideOfAllEdges l g o = false := by
  obtain ⟨⟨i, hi, hup⟩, j, hj, hdown⟩ := h.up_down π hπ
  have hmem : ∀ k < l.length, leftOrRight
      (if s = 1 then (vtx l ((k + 1) % l.length), vtx l k) else (vtx l k, vtx l ((k + 1) % l.length))).1
      (if s = 1 then (vtx l ((k + 1) % l.length), vtx l k) else (vtx l k, vtx l ((k + 1) % l.length))).2 g o ∈
      (polygonEdges l).map fun e => leftOrRight e.1 e.2 g o := by
    intro k hk
    rw [h.edges_eq]
    exact List.mem_map.mpr ⟨_, List.mem_map.mpr ⟨k, List.mem_range.mpr hk, rfl⟩, rfl⟩
  have key : ∃ b ∈ (polygonEdges l).map fun e => leftOrRight e.1 e.2 g o, b = true := by
    rcases hside with hs | hs <;> by_cases h1 : s = 1
    · refine ⟨_, hmem j hj, ?_⟩; simp only [h1, if_true, hs, decide_eq_true_eq]; linarith
    · refine ⟨_, hmem i hi, ?_⟩; simp only [h1, if_false, hs, decide_eq_true_eq]; linarith
    · refine ⟨_, hmem i hi, ?_⟩; simp only [h1, if_true, hs, decide_eq_true_eq]; linarith
    · refine ⟨_, hmem j hj, ?_⟩; simp only [h1, if_false, hs, decide_eq_true_eq]; linarith
  have key' : ∃ b ∈ (polygonEdges l).map fun e => leftOrRight e.1 e.2 g o, b = false := by
    rcases hside with hs | hs <;> by_cases h1 : s = 1
    · refine ⟨_, hmem i hi, ?_⟩; simp only [h1, if_true, hs, decide_eq_false_iff_not]; linarith
    · refine ⟨_, hmem j hj, ?_⟩; simp only [h1, if_false, hs, decide_eq_false_iff_not]; linarith
    · refine ⟨_, hmem j hj, ?_⟩; simp only [h1, if_true, hs, decide_eq_false_iff_not]; linarith
    · refine ⟨_, hmem i hi, ?_⟩; simp only [h1, if_false, hs, decide_eq_false_iff_not]; linarith
  obtain ⟨b, hb, rfl⟩ := key
  obtain ⟨b', hb', rfl⟩ := key'
  unfold sameSideOfAllEdges
  rw [Bool.or_eq_false_iff]
  constructor
  · rw [List.all_eq_false]; exact ⟨_, hb', by simp⟩
  · rw [List.all_eq_false]; exact ⟨_, hb, by simp⟩

end

end Verif
