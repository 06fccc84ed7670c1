import Verif.Proofs.Polyhedron
import Verif.Proofs.Communities
import Mathlib.Tactic.FinCases
import Mathlib.Algebra.BigOperators.Field

namespace Verif
open Spec

theorem exists_max_list {β : Type _} (l : List β) (f : β → ℝ) (hne : l ≠ []) :
    ∃ m ∈ l, ∀ b ∈ l, f b ≤ f m := by
  induction l with
  | nil => exact absurd rfl hne
  | cons a l ih =>
    by_cases hl : l = []
    · subst hl; exact ⟨a, by simp, by simp⟩
    · obtain ⟨m, hm, hmax⟩ := ih hl
      by_cases h : f m ≤ f a
      · refine ⟨a, by simp, fun b hb => ?_⟩
        rcases List.mem_cons.mp hb with rfl | hb
        · exact le_refl _
        · exact (hmax b hb).trans h
      · refine ⟨m, List.mem_cons_of_mem _ hm, fun b hb => ?_⟩
        rcases List.mem_cons.mp hb with rfl | hb
        · exact (not_le.mp h).le
        · exact hmax b hb

/-! ## Normalisation -/

section
variable {d : Nat}

theorem rowNorm_pos {h : HS d} (hn : h.normal ≠ 0) : 0 < h.rowNorm := by
  unfold HS.rowNorm
  apply Real.sqrt_pos.mpr
  have h1 := HS.dir_normal_pos hn
  have h2 : h.dir h.normal = ∑ k, h.normal k ^ 2 := by
    unfold HS.dir; apply Finset.sum_congr rfl; intro k _; ring
  have h3 := sq_nonneg h.offset
  linarith

theorem normalise_eval (h : HS d) (x : Fin d → ℝ) : h.normalise.eval x = h.eval x / h.rowNorm := by
  unfold HS.normalise HS.eval
  rw [add_div, Finset.sum_div]
  congr 1
  apply Finset.sum_congr rfl; intro k _; ring

theorem normalise_le {h : HS d} (hn : h.normal ≠ 0) (x : Fin d → ℝ) : h.normalise.eval x ≤ 0 ↔ h.eval x ≤ 0 := by
  rw [normalise_eval, div_le_iff₀ (rowNorm_pos hn), zero_mul]

theorem normalise_lt {h : HS d} (hn : h.normal ≠ 0) (x : Fin d → ℝ) : h.normalise.eval x < 0 ↔ h.eval x < 0 := by
  rw [normalise_eval, div_lt_iff₀ (rowNorm_pos hn), zero_mul]

theorem normalise_eq {h : HS d} (hn : h.normal ≠ 0) (x : Fin d → ℝ) : h.normalise.eval x = 0 ↔ h.eval x = 0 := by
  rw [normalise_eval, div_eq_zero_iff]
  exact ⟨fun h' => h'.resolve_right (rowNorm_pos hn).ne', Or.inl⟩

theorem normalise_normal {h : HS d} (hn : h.normal ≠ 0) : h.normalise.normal ≠ 0 := by
  intro hc
  apply hn
  funext k
  have := congrFun hc k
  unfold HS.normalise at this
  simp only [Pi.zero_apply] at this
  exact (div_eq_zero_iff.mp this).resolve_right (rowNorm_pos hn).ne'

/-! ## `facets_by_halfspace` -/

theorem mem_facets {V : List ((Fin d → ℝ) × List Nat)} (hi : ∀ vi ∈ V, vi.2.Nodup) (n : Nat)
    (e : Nat × List (Fin d → ℝ)) :
    e ∈ facetsByHalfspace n V ↔ e.1 < n ∧ (∃ vi ∈ V, e.1 ∈ vi.2) ∧ e.2 = vertsOf V e.1 := by
  unfold facetsByHalfspace
  rw [mem_foldl_dictAppend]
  have hkeys : e.1 ∈ ((V.flatMap fun vi => (vi.2.filter fun i => decide (i < n)).map fun i => (i, vi.1)).map
      Prod.fst) ↔ e.1 < n ∧ ∃ vi ∈ V, e.1 ∈ vi.2 := by
    simp only [List.mem_map, List.mem_flatMap, List.mem_filter, decide_eq_true_eq]
    constructor
    · rintro ⟨_, ⟨vi, hvi, i, ⟨hi1, hi2⟩, rfl⟩, he⟩
      simp only at he
      rw [← he]; exact ⟨hi2, vi, hvi, hi1⟩
    · rintro ⟨h1, vi, hvi, h2⟩
      exact ⟨(e.1, vi.1), ⟨vi, hvi, e.1, ⟨h2, h1⟩, rfl⟩, rfl⟩
  rw [hkeys, and_assoc]
  apply and_congr_right
  intro hlt
  apply and_congr_right
  intro hex
  clear hex
  have hval : ((V.flatMap fun vi => (vi.2.filter fun i => decide (i < n)).map fun i => (i, vi.1)).filter
      fun cv => decide (cv.1 = e.1)).map Prod.snd = vertsOf V e.1 := by
    clear hkeys
    unfold vertsOf
    induction V with
    | nil => rfl
    | cons vi V ih =>
      rw [List.flatMap_cons, List.filter_append, List.map_append, ih fun x hx => hi x (List.mem_cons_of_mem _ hx),
        List.filter_cons]
      have hone : (((vi.2.filter fun i => decide (i < n)).map fun i => (i, vi.1)).filter
          fun cv => decide (cv.1 = e.1)).map Prod.snd = if e.1 ∈ vi.2 then [vi.1] else [] := by
        have hnd := hi vi (by simp)
        generalize vi.2 = idx at hnd
        induction idx with
        | nil => rfl
        | cons i idx ih2 =>
          rw [List.nodup_cons] at hnd
          have ih2 := ih2 hnd.2
          by_cases hie : i = e.1
          · have hnot : e.1 ∉ idx := by rw [← hie]; exact hnd.1
            rw [if_neg hnot] at ih2
            rw [if_pos (by rw [hie]; simp)]
            rw [List.filter_cons, if_pos (by rw [hie]; exact decide_eq_true hlt), List.map_cons, List.filter_cons,
              if_pos (by simpa using hie), List.map_cons, ih2]
          · have : (e.1 ∈ i :: idx) ↔ e.1 ∈ idx := by
              rw [List.mem_cons]; exact ⟨fun h => h.resolve_left (fun h' => hie h'.symm), Or.inr⟩
            rw [if_congr this rfl rfl, ← ih2]
            rw [List.filter_cons]
            split
            · rw [List.map_cons, List.filter_cons, if_neg (by simpa using hie)]
            · rfl
      rw [hone]
      by_cases hm : e.1 ∈ vi.2
      · rw [if_pos hm, if_pos (decide_eq_true hm)]; rfl
      · rw [if_neg hm, if_neg (by simpa using hm)]; rfl
  rw [hval]

/-- `facets_by_halfspace` as a function of the irredundant rows. -/
theorem facets_eq {hs : List (HS d)} {V : List ((Fin d → ℝ) × List Nat)} {J : Finset Nat} (hV : Vertices hs V J)
    (hne : ∀ j ∈ J, vertsOf V j ≠ []) (n : Nat) :
    ∃ keys : List Nat, keys.Nodup ∧ (∀ j, j ∈ keys ↔ j ∈ J ∧ j < n) ∧
      facetsByHalfspace n V = keys.map fun j => (j, vertsOf V j) := by
  refine ⟨(facetsByHalfspace n V).map Prod.fst, foldl_dictAppend_nodup _, ?_, ?_⟩
  · intro j
    rw [List.mem_map]
    constructor
    · rintro ⟨e, he, rfl⟩
      obtain ⟨h1, ⟨vi, hvi, h2⟩, -⟩ := (mem_facets hV.idxNodup n e).mp he
      exact ⟨((hV.tight vi hvi e.1).mp h2).1, h1⟩
    · rintro ⟨h1, h2⟩
      refine ⟨(j, vertsOf V j), (mem_facets hV.idxNodup n _).mpr ⟨h2, ?_, rfl⟩, rfl⟩
      obtain ⟨v, hv⟩ := List.exists_mem_of_ne_nil _ (hne j h1)
      unfold vertsOf at hv
      obtain ⟨vi, hvi, -⟩ := List.mem_map.mp hv
      rw [List.mem_filter, decide_eq_true_eq] at hvi
      exact ⟨vi, hvi.1, hvi.2⟩
  · rw [List.map_map]
    conv_lhs => rw [← List.map_id (facetsByHalfspace n V)]
    apply List.map_congr_left
    intro e he
    obtain ⟨-, -, h⟩ := (mem_facets hV.idxNodup n e).mp he
    simp only [Function.comp, id, ← h]

theorem vertsOf_ne_nil {hs : List (HS d)} {V : List ((Fin d → ℝ) × List Nat)} {J : Finset Nat} (hV : Vertices hs V J)
    (hb : Bornology.IsBounded (poly hs)) {x₀ : Fin d → ℝ} (hx₀ : ∀ h ∈ hs, h.eval x₀ < 0) :
    ∀ j ∈ J, vertsOf V j ≠ [] := by
  intro j hj hnil
  obtain ⟨h, z, hh, hz, hz0, -⟩ := hV.irredundant.relint hx₀ hj
  have := facet_eq_hull hV hb hj hh
  rw [hnil] at this
  have hz' : z ∈ face hs h := ⟨hz, hz0⟩
  rw [this] at hz'
  simp at hz'

theorem requireFinitePoints_some (V : List ((Fin d → ℝ) × List Nat)) :
    requireFinitePoints (V.map fun vi => (some vi.1, vi.2)) = .ok V := by
  unfold requireFinitePoints
  induction V with
  | nil => rfl
  | cons a V ih => rw [List.map_cons, List.mapM_cons, ih]; rfl

end

/-! ## The 2D halfspace array -/

/-- The array built by `champ2DHalfspaces`. -/
noncomputable def hsArray2D (L : List (ℝ × ℝ)) (top bottom γ₀ γf : ℝ) : List (HS 2) :=
  (L.map halfspace2D ++ boundaries2D top bottom γ₀ γf).map HS.normalise

theorem eval_halfspace2D (ap : ℝ × ℝ) (x : Fin 2 → ℝ) : (halfspace2D ap).eval x = ap.1 - ap.2 * x 0 - x 1 := by
  unfold halfspace2D HS.eval
  simp [Fin.sum_univ_two]; ring

theorem halfspace2D_normal (ap : ℝ × ℝ) : (halfspace2D ap).normal ≠ 0 := by
  intro h
  have := congrFun h 1
  simp [halfspace2D] at this

theorem boundaries2D_normal {top bottom γ₀ γf : ℝ} : ∀ h ∈ boundaries2D top bottom γ₀ γf, h.normal ≠ 0 := by
  intro h hh
  simp only [boundaries2D, List.mem_cons, List.not_mem_nil, or_false] at hh
  rcases hh with rfl | rfl | rfl | rfl <;> intro hc <;>
    (have h0 := congrFun hc 0; have h1 := congrFun hc 1; simp at h0 h1)

section
variable {L : List (ℝ × ℝ)} {top bottom γ₀ γf : ℝ}

theorem raw_normals2D : ∀ h ∈ L.map halfspace2D ++ boundaries2D top bottom γ₀ γf, h.normal ≠ 0 := by
  intro h hh
  rcases List.mem_append.mp hh with hh | hh
  · obtain ⟨ap, -, rfl⟩ := List.mem_map.mp hh
    exact halfspace2D_normal ap
  · exact boundaries2D_normal h hh

theorem hsArray2D_normals : ∀ h ∈ hsArray2D L top bottom γ₀ γf, h.normal ≠ 0 := by
  intro h hh
  obtain ⟨h', hh', rfl⟩ := List.mem_map.mp hh
  exact normalise_normal (raw_normals2D h' hh')

theorem mem_poly2D {x : Fin 2 → ℝ} : x ∈ poly (hsArray2D L top bottom γ₀ γf) ↔
    (∀ ap ∈ L, ap.1 - ap.2 * x 0 ≤ x 1) ∧ x 1 ≤ top ∧ bottom ≤ x 1 ∧ x 0 ≤ γf ∧ γ₀ ≤ x 0 := by
  have : x ∈ poly (hsArray2D L top bottom γ₀ γf) ↔
      ∀ h ∈ L.map halfspace2D ++ boundaries2D top bottom γ₀ γf, h.eval x ≤ 0 := by
    unfold hsArray2D poly
    simp only [Set.mem_ofPred_eq, List.forall_mem_map]
    apply forall₂_congr
    intro h hh
    exact normalise_le (raw_normals2D h hh) x
  rw [this]
  simp only [List.forall_mem_append, List.forall_mem_map, eval_halfspace2D]
  apply and_congr
  · apply forall₂_congr; intro ap _; constructor <;> intro h <;> linarith
  · simp only [boundaries2D, List.forall_mem_cons, HS.eval, Fin.sum_univ_two]
    simp

theorem interior2D {x : Fin 2 → ℝ} : (∀ h ∈ hsArray2D L top bottom γ₀ γf, h.eval x < 0) ↔
    (∀ ap ∈ L, ap.1 - ap.2 * x 0 < x 1) ∧ x 1 < top ∧ bottom < x 1 ∧ x 0 < γf ∧ γ₀ < x 0 := by
  have : (∀ h ∈ hsArray2D L top bottom γ₀ γf, h.eval x < 0) ↔
      ∀ h ∈ L.map halfspace2D ++ boundaries2D top bottom γ₀ γf, h.eval x < 0 := by
    unfold hsArray2D
    simp only [List.forall_mem_map]
    apply forall₂_congr
    intro h hh
    exact normalise_lt (raw_normals2D h hh) x
  rw [this]
  simp only [List.forall_mem_append, List.forall_mem_map, eval_halfspace2D]
  apply and_congr
  · apply forall₂_congr; intro ap _; constructor <;> intro h <;> linarith
  · simp only [boundaries2D, List.forall_mem_cons, HS.eval, Fin.sum_univ_two]
    simp

theorem hsArray2D_bounded : Bornology.IsBounded (poly (hsArray2D L top bottom γ₀ γf)) := by
  apply (Metric.isBounded_Icc (![γ₀, bottom] : Fin 2 → ℝ) ![γf, top]).subset
  intro x hx
  obtain ⟨-, h1, h2, h3, h4⟩ := mem_poly2D.mp hx
  constructor <;> intro k <;> fin_cases k <;> simp <;> assumption

theorem hsArray2D_get {j : Nat} {ap : ℝ × ℝ} (hj : L[j]? = some ap) :
    (hsArray2D L top bottom γ₀ γf)[j]? = some (halfspace2D ap).normalise := by
  have hlt : j < L.length := (List.getElem?_eq_some_iff.mp hj).1
  unfold hsArray2D
  rw [List.getElem?_map, List.getElem?_append_left (by simpa using hlt), List.getElem?_map, hj]
  rfl

theorem hsArray2D_tight {j : Nat} {ap : ℝ × ℝ} {h : HS 2} (hj : L[j]? = some ap)
    (hh : (hsArray2D L top bottom γ₀ γf)[j]? = some h) (x : Fin 2 → ℝ) : h.eval x = 0 ↔ x 1 = ap.1 - ap.2 * x 0 := by
  rw [hsArray2D_get hj] at hh
  cases hh
  rw [normalise_eq (halfspace2D_normal ap), eval_halfspace2D]
  constructor <;> intro h <;> linarith

variable {V : List ((Fin 2 → ℝ) × List Nat)} {J : Finset Nat}

/-- Exactly two vertices are reported with an irredundant partition row, and its facet is the segment between them. -/
theorem facet2D (hV : Vertices (hsArray2D L top bottom γ₀ γf) V J) {x₀ : Fin 2 → ℝ}
    (hx₀ : ∀ h ∈ hsArray2D L top bottom γ₀ γf, h.eval x₀ < 0) {j : Nat} (hj : j ∈ J) {ap : ℝ × ℝ}
    (hjL : L[j]? = some ap) :
    ∃ v w, vertsOf V j = [v, w] ∧ v 0 ≠ w 0 ∧
      ∀ γ, (min (v 0) (w 0) ≤ γ ∧ γ ≤ max (v 0) (w 0)) ↔
        ![γ, ap.1 - ap.2 * γ] ∈ poly (hsArray2D L top bottom γ₀ γf) := by
  set hs := hsArray2D L top bottom γ₀ γf with hhs
  obtain ⟨h, z, hh, hz, hz0, hstrict⟩ := hV.irredundant.relint hx₀ hj
  have htight : ∀ x, h.eval x = 0 ↔ x 1 = ap.1 - ap.2 * x 0 := hsArray2D_tight hjL hh
  have hhull := facet_eq_hull hV hsArray2D_bounded hj hh
  have hmem : ∀ {v}, v ∈ vertsOf V j ↔ v ∈ (poly hs).extremePoints ℝ ∧ h.eval v = 0 := mem_vertsOf hV hj hh
  have hnd := vertsOf_nodup hV j
  -- first coordinates determine the points
  have hinj : ∀ {v w}, h.eval v = 0 → h.eval w = 0 → v 0 = w 0 → v = w := by
    intro v w hv hw h0
    have h1 := (htight v).mp hv
    have h2 := (htight w).mp hw
    funext k
    fin_cases k
    · exact h0
    · show v 1 = w 1
      rw [h1, h2, h0]
  -- a point strictly between two others is not extreme
  have hbetween : ∀ {u v w}, u ∈ vertsOf V j → v ∈ vertsOf V j → w ∈ vertsOf V j → u 0 < v 0 → v 0 < w 0 → False := by
    intro u v w hu hv hw h1 h2
    obtain ⟨hu1, hu2⟩ := hmem.mp hu
    obtain ⟨hv1, hv2⟩ := hmem.mp hv
    obtain ⟨hw1, hw2⟩ := hmem.mp hw
    have hseg : v ∈ openSegment ℝ u w := by
      have hpos : 0 < w 0 - u 0 := by linarith
      refine ⟨(w 0 - v 0) / (w 0 - u 0), (v 0 - u 0) / (w 0 - u 0), div_pos (by linarith) hpos,
        div_pos (by linarith) hpos, by rw [← add_div]; field_simp; ring, ?_⟩
      apply hinj _ hv2
      · simp only [Pi.add_apply, Pi.smul_apply, smul_eq_mul]
        field_simp; ring
      · rw [h.eval_comb _ _ (by rw [← add_div]; field_simp; ring), hu2, hw2]; ring
    have := hv1.2 hu1.1 hw1.1 hseg
    rw [this] at h1
    exact lt_irrefl _ h1
  match hl : vertsOf V j with
  | [] => exact absurd hl (vertsOf_ne_nil hV hsArray2D_bounded hx₀ j hj)
  | [v] =>
    exfalso
    have hu : h.dir ![1, -ap.2] = 0 := by
      have h1 : h.eval ![(0 : ℝ), ap.1] = 0 := (htight _).mpr (by simp)
      have h2 : h.eval (![(0 : ℝ), ap.1] + (1 : ℝ) • ![(1 : ℝ), -ap.2]) = 0 := (htight _).mpr (by simp; ring)
      rw [h.eval_move, h1] at h2
      linarith
    obtain ⟨ε, hε, hmv⟩ := hV.irredundant.move_in_facet hh hz0 hstrict hu
    have h1 : z ∈ face hs h := ⟨hz, hz0⟩
    have h2 : z + ε • ![(1 : ℝ), -ap.2] ∈ face hs h := hmv ε (by rw [abs_of_pos hε])
    rw [hhull, hl] at h1 h2
    simp only [List.mem_singleton, Set.ofPred_eq_eq_singleton, convexHull_singleton, Set.mem_singleton_iff] at h1 h2
    rw [h1] at h2
    have := congrFun h2 0
    simp at this
    exact hε.ne' this
  | [v, w] =>
    refine ⟨v, w, rfl, ?_, ?_⟩
    · intro h0
      rw [hl] at hnd
      have hv := (hmem.mp (by rw [hl]; simp : v ∈ vertsOf V j)).2
      have hw := (hmem.mp (by rw [hl]; simp : w ∈ vertsOf V j)).2
      have := hinj hv hw h0
      rw [this] at hnd
      simp at hnd
    · have hv := (hmem.mp (by rw [hl]; simp : v ∈ vertsOf V j)).2
      have hw := (hmem.mp (by rw [hl]; simp : w ∈ vertsOf V j)).2
      have hseg : face hs h = segment ℝ v w := by
        rw [hhull, hl]
        have : {u | u ∈ [v, w]} = ({v, w} : Set (Fin 2 → ℝ)) := by ext u; simp
        rw [this, convexHull_pair]
      have hface : ∀ γ : ℝ, ![γ, ap.1 - ap.2 * γ] ∈ poly hs ↔ ![γ, ap.1 - ap.2 * γ] ∈ face hs h := by
        intro γ
        exact ⟨fun hp => ⟨hp, (htight _).mpr (by simp)⟩, fun hp => hp.1⟩
      intro γ
      rw [hface, hseg]
      constructor
      · intro hγ
        have hmem : γ ∈ segment ℝ (v 0) (w 0) := by
          rw [segment_eq_uIcc]
          exact hγ
        obtain ⟨a, b, ha, hb, hab, hγ'⟩ := hmem
        refine ⟨a, b, ha, hb, hab, ?_⟩
        apply hinj
        · rw [h.eval_comb _ _ hab, hv, hw]; ring
        · exact (htight _).mpr (by simp)
        · simpa using hγ'
      · rintro ⟨a, b, ha, hb, hab, hγ'⟩
        have h0 := congrFun hγ' 0
        have : γ ∈ segment ℝ (v 0) (w 0) := ⟨a, b, ha, hb, hab, by simpa using h0⟩
        rw [segment_eq_uIcc] at this
        exact this
  | u :: v :: w :: rest =>
    exfalso
    have hu : u ∈ vertsOf V j := by rw [hl]; simp
    have hv : v ∈ vertsOf V j := by rw [hl]; simp
    have hw : w ∈ vertsOf V j := by rw [hl]; simp
    rw [hl] at hnd
    simp only [List.nodup_cons, List.mem_cons, not_or] at hnd
    obtain ⟨⟨n1, n2, -⟩, ⟨n3, -⟩, -⟩ := hnd
    have e1 : u 0 ≠ v 0 := fun h0 => n1 (hinj (hmem.mp hu).2 (hmem.mp hv).2 h0)
    have e2 : u 0 ≠ w 0 := fun h0 => n2 (hinj (hmem.mp hu).2 (hmem.mp hw).2 h0)
    have e3 : v 0 ≠ w 0 := fun h0 => n3 (hinj (hmem.mp hv).2 (hmem.mp hw).2 h0)
    rcases lt_or_gt_of_ne e1 with a | a <;> rcases lt_or_gt_of_ne e2 with b | b <;>
      rcases lt_or_gt_of_ne e3 with c | c
    · exact hbetween hu hv hw a c
    · exact hbetween hu hw hv b c
    · linarith
    · exact hbetween hw hu hv b a
    · exact hbetween hv hu hw a b
    · linarith
    · exact hbetween hv hw hu c b
    · exact hbetween hw hv hu c a

/-- distinct irredundant partition rows have distinct coefficients -/
theorem coefs_distinct (hV : Vertices (hsArray2D L top bottom γ₀ γf) V J) {j k : Nat} (hj : j ∈ J) (hk : k ∈ J)
    (hjk : j ≠ k) {ap : ℝ × ℝ} (hjL : L[j]? = some ap) : L[k]? ≠ some ap := by
  intro hkL
  obtain ⟨x, hx, hxn⟩ := hV.irredundant.minimal j hj
  apply hxn
  apply hV.irredundant.describes
  intro i hi h hh
  by_cases hij : i = j
  · subst hij
    have := hx k hk (Ne.symm hjk) h (by rw [hsArray2D_get hkL]; rw [hsArray2D_get hjL] at hh; exact hh)
    exact this
  · exact hx i hi hij h hh

/-- coverage of the open window -/
theorem cover2D (hV : Vertices (hsArray2D L top bottom γ₀ γf) V J) {x₀ : Fin 2 → ℝ}
    (hx₀ : ∀ h ∈ hsArray2D L top bottom γ₀ γf, h.eval x₀ < 0) (hP : ∀ ap ∈ L, 0 ≤ ap.2)
    (htop : ∀ ap ∈ L, ap.1 - ap.2 * γ₀ ≤ top) (htop' : ∃ ap ∈ L, ap.1 - ap.2 * γ₀ = top)
    (hbot : ∀ ap ∈ L, bottom ≤ ap.1 - ap.2 * γf) {γ : ℝ} (h1 : γ₀ < γ) (h2 : γ < γf) :
    ∃ j ∈ J, ∃ ap, L[j]? = some ap ∧ ∀ ap' ∈ L, ap'.1 - ap'.2 * γ ≤ ap.1 - ap.2 * γ := by
  obtain ⟨hi1, hi2, hi3, hi4, hi5⟩ := interior2D.mp hx₀
  have hne : L ≠ [] := by rintro rfl; obtain ⟨ap, h, -⟩ := htop'; simp at h
  obtain ⟨am, ham, hmax⟩ := exists_max_list L (fun ap => ap.1 - ap.2 * γ) hne
  have hxin : ![γ, am.1 - am.2 * γ] ∈ poly (hsArray2D L top bottom γ₀ γf) := by
    rw [mem_poly2D]
    simp only [Matrix.cons_val_zero, Matrix.cons_val_one]
    refine ⟨hmax, ?_, ?_, h2.le, h1.le⟩
    · have := htop am ham; have := mul_le_mul_of_nonneg_left h1.le (hP am ham); linarith
    · have := hbot am ham; have := mul_le_mul_of_nonneg_left h2.le (hP am ham); linarith
  obtain ⟨i, hi⟩ := List.getElem?_of_mem ham
  obtain ⟨j, hj, h', hh', ht⟩ := hV.irredundant.boundary hsArray2D_normals hxin
    (List.mem_of_getElem? (hsArray2D_get hi))
    ((hsArray2D_tight (top := top) (bottom := bottom) (γ₀ := γ₀) (γf := γf) hi (hsArray2D_get hi) _).mpr (by simp))
  refine ⟨j, hj, ?_⟩
  by_cases hlt : j < L.length
  · have hjL : L[j]? = some L[j] := List.getElem?_eq_getElem hlt
    have := (hsArray2D_tight hjL hh' _).mp ht
    simp only [Matrix.cons_val_zero, Matrix.cons_val_one] at this
    exact ⟨L[j], hjL, fun ap' hap' => by rw [← this]; exact hmax ap' hap'⟩
  · exfalso
    unfold hsArray2D at hh'
    rw [List.getElem?_map, List.getElem?_append_right (by simpa using hlt)] at hh'
    obtain ⟨h'', hh'', rfl⟩ := Option.map_eq_some_iff.mp hh'
    have hmemb : h'' ∈ boundaries2D top bottom γ₀ γf := List.mem_of_getElem? hh''
    rw [normalise_eq (boundaries2D_normal _ hmemb)] at ht
    simp only [boundaries2D, List.mem_cons, List.not_mem_nil, or_false] at hmemb
    rcases hmemb with rfl | rfl | rfl | rfl <;> simp [HS.eval, Fin.sum_univ_two] at ht
    · -- top
      have e1 := htop am ham
      have e2 := hP am ham
      have e3 : am.2 * (γ - γ₀) = 0 := le_antisymm (by linarith) (mul_nonneg e2 (by linarith))
      rcases mul_eq_zero.mp e3 with e4 | e4
      · have := hi1 am ham
        rw [e4] at this ht
        linarith
      · linarith
    · -- bottom
      have hall : ∀ ap ∈ L, ap.2 = 0 ∧ ap.1 = bottom := by
        intro ap hap
        have e1 := hbot ap hap
        have e2 := hmax ap hap
        have e3 : ap.2 * (γf - γ) = 0 :=
          le_antisymm (by linarith) (mul_nonneg (hP ap hap) (by linarith))
        rcases mul_eq_zero.mp e3 with e4 | e4
        · refine ⟨e4, ?_⟩
          rw [e4] at e1 e2
          linarith
        · linarith
      obtain ⟨at', hat, e⟩ := htop'
      obtain ⟨e1, e2⟩ := hall at' hat
      rw [e1, e2] at e
      linarith
    · linarith
    · linarith

end
end Verif
