import Mathlib.Analysis.Convex.KreinMilman
import Mathlib.Analysis.Convex.Exposed
import Mathlib.Analysis.Convex.Topology
import Mathlib.Topology.Algebra.Module.FiniteDimension
import Mathlib.Analysis.Normed.Module.FiniteDimension
import Mathlib.Tactic.Linarith
import Mathlib.Tactic.Ring
import Mathlib.Tactic.FieldSimp
import Mathlib.Tactic.Positivity
import Verif.Spec.Qhull

namespace Verif
open Spec
variable {d : Nat}

/-- linear part -/
noncomputable def HS.dir (h : HS d) (u : Fin d → ℝ) : ℝ := ∑ k, h.normal k * u k

theorem HS.eval_eq (h : HS d) (x : Fin d → ℝ) : h.eval x = h.dir x + h.offset := rfl

theorem HS.dir_add (h : HS d) (u v : Fin d → ℝ) : h.dir (u + v) = h.dir u + h.dir v := by
  simp only [HS.dir, Pi.add_apply, mul_add, Finset.sum_add_distrib]

theorem HS.dir_smul (h : HS d) (t : ℝ) (u : Fin d → ℝ) : h.dir (t • u) = t * h.dir u := by
  simp only [HS.dir, Pi.smul_apply, smul_eq_mul, Finset.mul_sum]
  apply Finset.sum_congr rfl; intro k _; ring

theorem HS.dir_sub (h : HS d) (u v : Fin d → ℝ) : h.dir (u - v) = h.dir u - h.dir v := by
  rw [sub_eq_add_neg, ← neg_one_smul ℝ v, h.dir_add, h.dir_smul]; ring

theorem HS.eval_move (h : HS d) (x u : Fin d → ℝ) (t : ℝ) : h.eval (x + t • u) = h.eval x + t * h.dir u := by
  rw [h.eval_eq, h.eval_eq, h.dir_add, h.dir_smul]; ring

theorem HS.eval_comb (h : HS d) (x y : Fin d → ℝ) {a b : ℝ} (hab : a + b = 1) :
    h.eval (a • x + b • y) = a * h.eval x + b * h.eval y := by
  rw [h.eval_eq, h.eval_eq, h.eval_eq, h.dir_add, h.dir_smul, h.dir_smul]
  have : h.offset = a * h.offset + b * h.offset := by rw [← add_mul, hab, one_mul]
  linarith

theorem HS.continuous_eval (h : HS d) : Continuous h.eval := by
  unfold HS.eval
  exact (continuous_finsetSum _ fun k _ => continuous_const.mul (continuous_apply k)).add continuous_const

theorem HS.dir_normal_pos {h : HS d} (hn : h.normal ≠ 0) : 0 < h.dir h.normal := by
  obtain ⟨k, hk⟩ : ∃ k, h.normal k ≠ 0 := by
    by_contra hc
    push Not at hc
    exact hn (funext hc)
  unfold HS.dir
  have h2 := Finset.single_le_sum (s := Finset.univ) (f := fun k => h.normal k * h.normal k)
    (fun i _ => mul_self_nonneg _) (Finset.mem_univ k)
  have h1 : 0 < h.normal k * h.normal k := mul_self_pos.mpr hk
  linarith

theorem poly_closed (hs : List (HS d)) : IsClosed (poly hs) := by
  have : poly hs = ⋂ h ∈ hs, {x | h.eval x ≤ 0} := by
    ext x; simp [poly]
  rw [this]
  exact isClosed_iInter fun h => isClosed_iInter fun _ => isClosed_le h.continuous_eval continuous_const

theorem poly_convex (hs : List (HS d)) : Convex ℝ (poly hs) := by
  intro x hx y hy a b ha hb hab h hh
  rw [h.eval_comb x y hab]
  have h1 := mul_nonneg ha (neg_nonneg.mpr (hx h hh))
  have h2 := mul_nonneg hb (neg_nonneg.mpr (hy h hh))
  linarith

theorem poly_compact {hs : List (HS d)} (hb : Bornology.IsBounded (poly hs)) : IsCompact (poly hs) :=
  Metric.isCompact_of_isClosed_isBounded (poly_closed hs) hb

/-- small moves keep strict rows strict -/
theorem small_move (l : List (HS d)) {x : Fin d → ℝ} (u : Fin d → ℝ) (hx : ∀ h ∈ l, h.eval x < 0) :
    ∃ ε : ℝ, 0 < ε ∧ ∀ t : ℝ, |t| ≤ ε → ∀ h ∈ l, h.eval (x + t • u) < 0 := by
  induction l with
  | nil => exact ⟨1, one_pos, by simp⟩
  | cons a l ih =>
    obtain ⟨ε, hε, hl⟩ := ih fun h hh => hx h (List.mem_cons_of_mem _ hh)
    have ha := hx a (by simp)
    refine ⟨min ε (-(a.eval x) / (2 * (|a.dir u| + 1))), lt_min hε (div_pos (by linarith) (by positivity)), ?_⟩
    intro t ht h hh
    rcases List.mem_cons.mp hh with rfl | hh
    · rw [h.eval_move]
      have h1 : |t| ≤ -(h.eval x) / (2 * (|h.dir u| + 1)) := ht.trans (min_le_right _ _)
      rw [le_div_iff₀ (by positivity)] at h1
      have h2 : t * h.dir u ≤ |t| * |h.dir u| := by rw [← abs_mul]; exact le_abs_self _
      have h3 : 0 ≤ |t| := abs_nonneg t
      nlinarith
    · exact hl t (ht.trans (min_le_left _ _)) h hh

/-- Rows of `J`. -/
noncomputable def rowsOf (hs : List (HS d)) (J : Finset Nat) : List (HS d) := J.toList.filterMap fun i => hs[i]?

theorem mem_rowsOf {hs : List (HS d)} {J : Finset Nat} {h : HS d} :
    h ∈ rowsOf hs J ↔ ∃ i ∈ J, hs[i]? = some h := by
  simp [rowsOf]

section
variable {hs : List (HS d)} {J : Finset Nat}

/-- (a) every irredundant row has a point where it alone is tight -/
theorem Spec.Irredundant.relint (hJ : Irredundant hs J) {x₀ : Fin d → ℝ} (hx₀ : ∀ h ∈ hs, h.eval x₀ < 0) {j : Nat}
    (hj : j ∈ J) : ∃ h z, hs[j]? = some h ∧ z ∈ poly hs ∧ h.eval z = 0 ∧
      ∀ i ∈ J, i ≠ j → ∀ h', hs[i]? = some h' → h'.eval z < 0 := by
  obtain ⟨y, hy, hyn⟩ := hJ.minimal j hj
  obtain ⟨h, hh⟩ : ∃ h, hs[j]? = some h := ⟨_, List.getElem?_eq_getElem (hJ.inRange j hj)⟩
  have hyj : 0 < h.eval y := by
    by_contra hc
    apply hyn
    apply hJ.describes
    intro i hi h' hh'
    by_cases hij : i = j
    · subst hij; rw [hh] at hh'; cases hh'; linarith
    · exact hy i hi hij h' hh'
  have h0 := hx₀ h (List.mem_of_getElem? hh)
  set a := h.eval y / (h.eval y - h.eval x₀) with ha
  set b := -(h.eval x₀) / (h.eval y - h.eval x₀) with hb
  have hden : 0 < h.eval y - h.eval x₀ := by linarith
  have hab : a + b = 1 := by rw [ha, hb, ← add_div, ← sub_eq_add_neg, div_self hden.ne']
  have ha0 : 0 < a := div_pos hyj hden
  have hb0 : 0 < b := div_pos (by linarith) hden
  have hz0 : h.eval (a • x₀ + b • y) = 0 := by
    rw [h.eval_comb _ _ hab, ha, hb]; field_simp; ring
  have hstrict : ∀ i ∈ J, i ≠ j → ∀ h', hs[i]? = some h' → h'.eval (a • x₀ + b • y) < 0 := by
    intro i hi hij h' hh'
    rw [h'.eval_comb _ _ hab]
    have h1 := mul_pos ha0 (neg_pos.mpr (hx₀ h' (List.mem_of_getElem? hh')))
    have h2 := mul_nonneg hb0.le (neg_nonneg.mpr (hy i hi hij h' hh'))
    linarith
  refine ⟨h, a • x₀ + b • y, hh, ?_, hz0, hstrict⟩
  apply hJ.describes
  intro i hi h' hh'
  by_cases hij : i = j
  · subst hij; rw [hh] at hh'; cases hh'; exact hz0.le
  · exact (hstrict i hi hij h' hh').le

/-- from a point where row `j` alone is tight one can move along the facet -/
theorem Spec.Irredundant.move_in_facet (hJ : Irredundant hs J) {j : Nat} {h : HS d} (hh : hs[j]? = some h)
    {z : Fin d → ℝ} (hz : h.eval z = 0)
    (hstrict : ∀ i ∈ J, i ≠ j → ∀ h', hs[i]? = some h' → h'.eval z < 0) {u : Fin d → ℝ} (hu : h.dir u = 0) :
    ∃ ε : ℝ, 0 < ε ∧ ∀ t : ℝ, |t| ≤ ε → z + t • u ∈ poly hs ∧ h.eval (z + t • u) = 0 := by
  obtain ⟨ε, hε, hmv⟩ := small_move (rowsOf hs (J.erase j)) (x := z) u (by
    intro h' hh'
    obtain ⟨i, hi, hi'⟩ := mem_rowsOf.mp hh'
    rw [Finset.mem_erase] at hi
    exact hstrict i hi.2 hi.1 h' hi')
  refine ⟨ε, hε, fun t ht => ?_⟩
  have hzero : h.eval (z + t • u) = 0 := by rw [h.eval_move, hz, hu]; ring
  refine ⟨hJ.describes _ fun i hi h' hh' => ?_, hzero⟩
  by_cases hij : i = j
  · subst hij; rw [hh] at hh'; cases hh'; exact hzero.le
  · exact (hmv t ht h' (mem_rowsOf.mpr ⟨i, Finset.mem_erase.mpr ⟨hij, hi⟩, hh'⟩)).le

/-- (c) a feasible point tight on some row is tight on an irredundant one -/
theorem Spec.Irredundant.boundary (hJ : Irredundant hs J) (hnz : ∀ h ∈ hs, h.normal ≠ 0) {x : Fin d → ℝ}
    (hx : x ∈ poly hs) {h : HS d} (hh : h ∈ hs) (ht : h.eval x = 0) :
    ∃ j ∈ J, ∃ h', hs[j]? = some h' ∧ h'.eval x = 0 := by
  by_contra hc
  push Not at hc
  obtain ⟨ε, hε, hmv⟩ := small_move (rowsOf hs J) (x := x) h.normal (by
    intro h' hh'
    obtain ⟨i, hi, hi'⟩ := mem_rowsOf.mp hh'
    exact lt_of_le_of_ne (hx h' (List.mem_of_getElem? hi')) (hc i hi h' hi'))
  have hfe : x + ε • h.normal ∈ poly hs := hJ.describes _ fun i hi h' hh' =>
    (hmv ε (by rw [abs_of_pos hε]) h' (mem_rowsOf.mpr ⟨i, hi, hh'⟩)).le
  have := hfe h hh
  rw [h.eval_move, ht, zero_add] at this
  have := mul_pos hε (HS.dir_normal_pos (hnz h hh))
  linarith

end

/-- The face where row `h` is tight. -/
def face (hs : List (HS d)) (h : HS d) : Set (Fin d → ℝ) := {x | x ∈ poly hs ∧ h.eval x = 0}

theorem face_extreme {hs : List (HS d)} {h : HS d} (hh : h ∈ hs) : IsExtreme ℝ (poly hs) (face hs h) := by
  refine ⟨fun x hx => hx.1, ?_⟩
  rintro x hx y hy z hz ⟨a, b, ha, hb, hab, rfl⟩
  refine ⟨hx, ?_⟩
  have := hz.2
  rw [h.eval_comb _ _ hab] at this
  have h1 := hx h hh
  have h2 := hy h hh
  have h3 := mul_nonneg ha.le (neg_nonneg.mpr h1)
  have h4 := mul_nonneg hb.le (neg_nonneg.mpr h2)
  have h5 : a * h.eval x = 0 := by linarith
  rcases mul_eq_zero.mp h5 with h6 | h6
  · linarith
  · exact h6

theorem face_convex (hs : List (HS d)) (h : HS d) : Convex ℝ (face hs h) := by
  intro x hx y hy a b ha hb hab
  refine ⟨poly_convex hs hx.1 hy.1 ha hb hab, ?_⟩
  rw [h.eval_comb _ _ hab, hx.2, hy.2]; ring

theorem face_closed (hs : List (HS d)) (h : HS d) : IsClosed (face hs h) :=
  (poly_closed hs).inter (isClosed_eq h.continuous_eval continuous_const)

section
variable {hs : List (HS d)} {V : List ((Fin d → ℝ) × List Nat)} {J : Finset Nat}

/-- The vertices reported with row `j`. -/
def vertsOf (V : List ((Fin d → ℝ) × List Nat)) (j : Nat) : List (Fin d → ℝ) :=
  (V.filter fun vi => decide (j ∈ vi.2)).map Prod.fst

theorem mem_vertsOf (hV : Vertices hs V J) {j : Nat} (hj : j ∈ J) {h : HS d} (hh : hs[j]? = some h)
    {v : Fin d → ℝ} : v ∈ vertsOf V j ↔ v ∈ (poly hs).extremePoints ℝ ∧ h.eval v = 0 := by
  unfold vertsOf
  simp only [List.mem_map, List.mem_filter, decide_eq_true_eq]
  constructor
  · rintro ⟨vi, ⟨hvi, hi⟩, rfl⟩
    refine ⟨(hV.extreme _).mp (List.mem_map.mpr ⟨vi, hvi, rfl⟩), ?_⟩
    obtain ⟨-, h', hh', h0⟩ := (hV.tight vi hvi j).mp hi
    rw [hh] at hh'; cases hh'; exact h0
  · rintro ⟨h1, h2⟩
    obtain ⟨vi, hvi, rfl⟩ := List.mem_map.mp ((hV.extreme v).mpr h1)
    exact ⟨vi, ⟨hvi, (hV.tight vi hvi j).mpr ⟨hj, h, hh, h2⟩⟩, rfl⟩

theorem vertsOf_nodup (hV : Vertices hs V J) (j : Nat) : (vertsOf V j).Nodup := by
  unfold vertsOf
  exact List.Nodup.sublist (List.Sublist.map _ List.filter_sublist) hV.nodup

/-- (b) the facet of row `j` is the convex hull of the vertices reported with `j` -/
theorem facet_eq_hull (hV : Vertices hs V J) (hb : Bornology.IsBounded (poly hs)) {j : Nat} (hj : j ∈ J) {h : HS d}
    (hh : hs[j]? = some h) : face hs h = convexHull ℝ {v | v ∈ vertsOf V j} := by
  have hmem : h ∈ hs := List.mem_of_getElem? hh
  have hcomp : IsCompact (face hs h) := (poly_compact hb).of_isClosed_subset (face_closed hs h) fun x hx => hx.1
  have hkm := closure_convexHull_extremePoints hcomp (face_convex hs h)
  have hext : (face hs h).extremePoints ℝ = {v | v ∈ vertsOf V j} := by
    rw [(face_extreme hmem).extremePoints_eq]
    ext v
    simp only [Set.mem_inter_iff, Set.mem_ofPred_eq]
    rw [mem_vertsOf hV hj hh]
    constructor
    · rintro ⟨h1, h2⟩; exact ⟨h2, h1.2⟩
    · rintro ⟨h1, h2⟩; exact ⟨⟨h1.1, h2⟩, h1⟩
  rw [hext] at hkm
  rw [← hkm]
  exact ((List.finite_toSet (vertsOf V j)).isClosed_convexHull ℝ).closure_eq

end

/-! ## An exact intersection exists -/

theorem irredundant_exists (hs : List (HS d)) : ∃ J, Irredundant hs J := by
  classical
  let P : Finset Nat → Prop := fun J => (∀ i ∈ J, i < hs.length) ∧
    ∀ x, (∀ i ∈ J, ∀ h, hs[i]? = some h → h.eval x ≤ 0) → x ∈ poly hs
  have hP : P (Finset.range hs.length) := by
    refine ⟨fun i hi => Finset.mem_range.mp hi, fun x hx h hh => ?_⟩
    obtain ⟨i, hi, rfl⟩ := List.getElem_of_mem hh
    exact hx i (Finset.mem_range.mpr hi) _ (List.getElem?_eq_getElem hi)
  obtain ⟨J, hJ, hmin⟩ : ∃ J, P J ∧ ∀ J', P J' → J.card ≤ J'.card := by
    have hex : ∃ n, ∃ J, P J ∧ J.card = n := ⟨_, _, hP, rfl⟩
    obtain ⟨J, hJ, hc⟩ := Nat.find_spec hex
    refine ⟨J, hJ, fun J' hJ' => ?_⟩
    rw [hc]
    exact Nat.find_min' hex ⟨J', hJ', rfl⟩
  refine ⟨J, hJ.1, hJ.2, fun j hj => ?_⟩
  by_contra hc
  push Not at hc
  have := hmin (J.erase j) ⟨fun i hi => hJ.1 i (Finset.mem_of_mem_erase hi), fun x hx =>
    hc x fun i hi hij h hh => hx i (Finset.mem_erase.mpr ⟨hij, hi⟩) h hh⟩
  rw [Finset.card_erase_of_mem hj] at this
  have := Finset.card_pos.mpr ⟨j, hj⟩
  omega

/-- an extreme point is determined by the rows tight at it -/
theorem extreme_determined {hs : List (HS d)} {v w : Fin d → ℝ} (hv : v ∈ (poly hs).extremePoints ℝ) (hw : w ∈ poly hs)
    (htight : ∀ h ∈ hs, h.eval v = 0 → h.eval w = 0) : v = w := by
  classical
  obtain ⟨ε, hε, hmv⟩ := small_move (hs.filter fun h => decide (h.eval v < 0)) (x := v) (v - w) (by
    intro h hh; exact of_decide_eq_true (List.mem_filter.mp hh).2)
  have hfe : v + ε • (v - w) ∈ poly hs := by
    intro h hh
    by_cases h0 : h.eval v < 0
    · exact (hmv ε (by rw [abs_of_pos hε]) h (List.mem_filter.mpr ⟨hh, decide_eq_true h0⟩)).le
    · have h1 : h.eval v = 0 := le_antisymm (hv.1 h hh) (not_lt.mp h0)
      have h2 := htight h hh h1
      have h3 : h.dir (v - w) = 0 := by
        rw [h.dir_sub]
        rw [h.eval_eq] at h1 h2
        linarith
      rw [h.eval_move, h1, h3]; simp
  have hseg : v ∈ openSegment ℝ w (v + ε • (v - w)) := by
    refine ⟨ε / (1 + ε), 1 / (1 + ε), by positivity, by positivity, by field_simp; ring, ?_⟩
    ext k
    simp only [Pi.add_apply, Pi.smul_apply, smul_eq_mul, Pi.sub_apply]
    field_simp
    ring
  exact (hv.2 hw hfe hseg).symm

theorem extremePoints_finite (hs : List (HS d)) : ((poly hs).extremePoints ℝ).Finite := by
  classical
  let T : (Fin d → ℝ) → Set (Fin hs.length) := fun v => {i | (hs[i]).eval v = 0}
  apply Set.Finite.of_finite_image (f := T) (Set.toFinite _)
  intro v hv w hw hvw
  apply extreme_determined hv hw.1
  intro h hh h0
  obtain ⟨i, hi, rfl⟩ := List.getElem_of_mem hh
  have : (⟨i, hi⟩ : Fin hs.length) ∈ T v := h0
  rw [hvw] at this
  exact this

theorem vertices_exist (hs : List (HS d)) : ∃ V J, Vertices hs V J := by
  classical
  obtain ⟨J, hJ⟩ := irredundant_exists hs
  let E := (extremePoints_finite hs).toFinset
  let V : List ((Fin d → ℝ) × List Nat) := E.toList.map fun v =>
    (v, (J.filter fun i => ∃ h, hs[i]? = some h ∧ h.eval v = 0).toList)
  refine ⟨V, J, hJ, ?_, ?_, ?_, ?_⟩
  · rw [List.map_map]
    have : (Prod.fst ∘ fun v : Fin d → ℝ => (v, (J.filter fun i => ∃ h, hs[i]? = some h ∧ h.eval v = 0).toList)) = id :=
      rfl
    rw [this, List.map_id]
    exact Finset.nodup_toList _
  · intro v
    rw [List.map_map]
    have : (Prod.fst ∘ fun v : Fin d → ℝ => (v, (J.filter fun i => ∃ h, hs[i]? = some h ∧ h.eval v = 0).toList)) = id :=
      rfl
    rw [this, List.map_id]
    simp [E]
  · intro vi hvi
    obtain ⟨v, -, rfl⟩ := List.mem_map.mp hvi
    exact Finset.nodup_toList _
  · intro vi hvi i
    obtain ⟨v, -, rfl⟩ := List.mem_map.mp hvi
    simp [Finset.mem_filter]

/-- An exact halfspace intersection. -/
noncomputable def exactQhull : (d : Nat) → List (HS d) → (Fin d → ℝ) → List (Option (Fin d → ℝ) × List Nat) :=
  fun _ hs _ => (vertices_exist hs).choose.map fun vi => (some vi.1, vi.2)

theorem exactQhull_exact : ExactQhull exactQhull := by
  intro d hs x _ _
  obtain ⟨J, hJ⟩ := (vertices_exist hs).choose_spec
  exact ⟨_, J, rfl, hJ⟩

end Verif
