import Verif.Proofs.Champ2D
import Mathlib.Analysis.Convex.Hull

namespace Verif
open Spec

/-- The array built by `champ3DHalfspaces`. -/
noncomputable def hsArray3D (L : List (ℝ × ℝ × ℝ)) (top bottom γ₀ γf ω₀ ωf : ℝ) : List (HS 3) :=
  (L.map halfspace3D ++ boundaries3D top bottom γ₀ γf ω₀ ωf).map HS.normalise

/-- `A_hat - γ P_hat + ω C_hat` -/
def val3 (t : ℝ × ℝ × ℝ) (γ ω : ℝ) : ℝ := t.1 - t.2.1 * γ + t.2.2 * ω

theorem eval_halfspace3D (t : ℝ × ℝ × ℝ) (x : Fin 3 → ℝ) : (halfspace3D t).eval x = val3 t (x 0) (x 1) - x 2 := by
  unfold halfspace3D HS.eval val3
  simp [Fin.sum_univ_three]; ring

theorem halfspace3D_normal (t : ℝ × ℝ × ℝ) : (halfspace3D t).normal ≠ 0 := by
  intro h
  have := congrFun h 2
  simp [halfspace3D] at this

theorem boundaries3D_normal {top bottom γ₀ γf ω₀ ωf : ℝ} :
    ∀ h ∈ boundaries3D top bottom γ₀ γf ω₀ ωf, h.normal ≠ 0 := by
  intro h hh
  simp only [boundaries3D, List.mem_cons, List.not_mem_nil, or_false] at hh
  rcases hh with rfl | rfl | rfl | rfl | rfl | rfl <;> intro hc <;>
    (have h0 := congrFun hc 0; have h1 := congrFun hc 1; have h2 := congrFun hc 2; simp at h0 h1 h2)

section
variable {L : List (ℝ × ℝ × ℝ)} {top bottom γ₀ γf ω₀ ωf : ℝ}

theorem raw_normals3D : ∀ h ∈ L.map halfspace3D ++ boundaries3D top bottom γ₀ γf ω₀ ωf, h.normal ≠ 0 := by
  intro h hh
  rcases List.mem_append.mp hh with hh | hh
  · obtain ⟨t, -, rfl⟩ := List.mem_map.mp hh
    exact halfspace3D_normal t
  · exact boundaries3D_normal h hh

theorem hsArray3D_normals : ∀ h ∈ hsArray3D L top bottom γ₀ γf ω₀ ωf, h.normal ≠ 0 := by
  intro h hh
  obtain ⟨h', hh', rfl⟩ := List.mem_map.mp hh
  exact normalise_normal (raw_normals3D h' hh')

theorem mem_poly3D {x : Fin 3 → ℝ} : x ∈ poly (hsArray3D L top bottom γ₀ γf ω₀ ωf) ↔
    (∀ t ∈ L, val3 t (x 0) (x 1) ≤ x 2) ∧ x 2 ≤ top ∧ bottom ≤ x 2 ∧ x 0 ≤ γf ∧ γ₀ ≤ x 0 ∧ x 1 ≤ ωf ∧ ω₀ ≤ x 1 := by
  have : x ∈ poly (hsArray3D L top bottom γ₀ γf ω₀ ωf) ↔
      ∀ h ∈ L.map halfspace3D ++ boundaries3D top bottom γ₀ γf ω₀ ωf, h.eval x ≤ 0 := by
    unfold hsArray3D poly
    simp only [Set.mem_ofPred_eq, List.forall_mem_map]
    apply forall₂_congr
    intro h hh
    exact normalise_le (raw_normals3D h hh) x
  rw [this]
  simp only [List.forall_mem_append, List.forall_mem_map, eval_halfspace3D]
  apply and_congr
  · apply forall₂_congr; intro t _; constructor <;> intro h <;> linarith
  · simp only [boundaries3D, List.forall_mem_cons, HS.eval, Fin.sum_univ_three]
    simp

theorem interior3D {x : Fin 3 → ℝ} : (∀ h ∈ hsArray3D L top bottom γ₀ γf ω₀ ωf, h.eval x < 0) ↔
    (∀ t ∈ L, val3 t (x 0) (x 1) < x 2) ∧ x 2 < top ∧ bottom < x 2 ∧ x 0 < γf ∧ γ₀ < x 0 ∧ x 1 < ωf ∧ ω₀ < x 1 := by
  have : (∀ h ∈ hsArray3D L top bottom γ₀ γf ω₀ ωf, h.eval x < 0) ↔
      ∀ h ∈ L.map halfspace3D ++ boundaries3D top bottom γ₀ γf ω₀ ωf, h.eval x < 0 := by
    unfold hsArray3D
    simp only [List.forall_mem_map]
    apply forall₂_congr
    intro h hh
    exact normalise_lt (raw_normals3D h hh) x
  rw [this]
  simp only [List.forall_mem_append, List.forall_mem_map, eval_halfspace3D]
  apply and_congr
  · apply forall₂_congr; intro t _; constructor <;> intro h <;> linarith
  · simp only [boundaries3D, List.forall_mem_cons, HS.eval, Fin.sum_univ_three]
    simp

theorem hsArray3D_bounded : Bornology.IsBounded (poly (hsArray3D L top bottom γ₀ γf ω₀ ωf)) := by
  apply (Metric.isBounded_Icc (![γ₀, ω₀, bottom] : Fin 3 → ℝ) ![γf, ωf, top]).subset
  intro x hx
  obtain ⟨-, h1, h2, h3, h4, h5, h6⟩ := mem_poly3D.mp hx
  constructor <;> intro k <;> fin_cases k <;> simp <;> assumption

theorem hsArray3D_get {j : Nat} {t : ℝ × ℝ × ℝ} (hj : L[j]? = some t) :
    (hsArray3D L top bottom γ₀ γf ω₀ ωf)[j]? = some (halfspace3D t).normalise := by
  have hlt : j < L.length := (List.getElem?_eq_some_iff.mp hj).1
  unfold hsArray3D
  rw [List.getElem?_map, List.getElem?_append_left (by simpa using hlt), List.getElem?_map, hj]
  rfl

theorem hsArray3D_tight {j : Nat} {t : ℝ × ℝ × ℝ} {h : HS 3} (hj : L[j]? = some t)
    (hh : (hsArray3D L top bottom γ₀ γf ω₀ ωf)[j]? = some h) (x : Fin 3 → ℝ) :
    h.eval x = 0 ↔ x 2 = val3 t (x 0) (x 1) := by
  rw [hsArray3D_get hj] at hh
  cases hh
  rw [normalise_eq (halfspace3D_normal t), eval_halfspace3D]
  constructor <;> intro h <;> linarith

/-- projection to the `(γ, ω)` plane -/
def proj3 : (Fin 3 → ℝ) →ₗ[ℝ] ℝ × ℝ where
  toFun v := (v 0, v 1)
  map_add' _ _ := rfl
  map_smul' _ _ := rfl

variable {V : List ((Fin 3 → ℝ) × List Nat)} {J : Finset Nat}

/-- The projected facet of an irredundant partition row: convex hull of the projected vertices, each of which is extreme;
at least three of them, all distinct. -/
theorem facet3D (hV : Vertices (hsArray3D L top bottom γ₀ γf ω₀ ωf) V J) {x₀ : Fin 3 → ℝ}
    (hx₀ : ∀ h ∈ hsArray3D L top bottom γ₀ γf ω₀ ωf, h.eval x₀ < 0) {j : Nat} (hj : j ∈ J) {t : ℝ × ℝ × ℝ}
    (hjL : L[j]? = some t) :
    (∀ q : ℝ × ℝ, q ∈ convexHull ℝ {q | q ∈ (vertsOf V j).map proj3} ↔
        ![q.1, q.2, val3 t q.1 q.2] ∈ poly (hsArray3D L top bottom γ₀ γf ω₀ ωf)) ∧
      (∀ q ∈ (vertsOf V j).map proj3, q ∈ (convexHull ℝ {q | q ∈ (vertsOf V j).map proj3}).extremePoints ℝ) ∧
      ((vertsOf V j).map proj3).Nodup ∧ 3 ≤ (vertsOf V j).length ∧
      ∃ z : ℝ × ℝ, ∃ ε : ℝ, 0 < ε ∧ z ∈ convexHull ℝ {q | q ∈ (vertsOf V j).map proj3} ∧
        (z.1 + ε, z.2) ∈ convexHull ℝ {q | q ∈ (vertsOf V j).map proj3} ∧
        (z.1, z.2 + ε) ∈ convexHull ℝ {q | q ∈ (vertsOf V j).map proj3} := by
  set hs := hsArray3D L top bottom γ₀ γf ω₀ ωf with hhs
  obtain ⟨h, z, hh, hz, hz0, hstrict⟩ := hV.irredundant.relint hx₀ hj
  have htight : ∀ x, h.eval x = 0 ↔ x 2 = val3 t (x 0) (x 1) := hsArray3D_tight hjL hh
  have hhull := facet_eq_hull hV hsArray3D_bounded hj hh
  have hmem : ∀ {v}, v ∈ vertsOf V j ↔ v ∈ (poly hs).extremePoints ℝ ∧ h.eval v = 0 := mem_vertsOf hV hj hh
  have hnd := vertsOf_nodup hV j
  have hinj : ∀ {v w}, h.eval v = 0 → h.eval w = 0 → proj3 v = proj3 w → v = w := by
    intro v w hv hw h0
    have h1 := (htight v).mp hv
    have h2 := (htight w).mp hw
    have e0 : v 0 = w 0 := congrArg Prod.fst h0
    have e1 : v 1 = w 1 := congrArg Prod.snd h0
    funext k
    fin_cases k
    · exact e0
    · exact e1
    · show v 2 = w 2
      rw [h1, h2, e0, e1]
  have himg : {q | q ∈ (vertsOf V j).map proj3} = proj3 '' {v | v ∈ vertsOf V j} := by
    ext q; simp [List.mem_map]
  have hproj : convexHull ℝ {q | q ∈ (vertsOf V j).map proj3} = proj3 '' face hs h := by
    rw [himg, hhull, ← LinearMap.image_convexHull]
  have hlift : ∀ q : ℝ × ℝ, q ∈ proj3 '' face hs h ↔ ![q.1, q.2, val3 t q.1 q.2] ∈ poly hs := by
    intro q
    constructor
    · rintro ⟨v, ⟨hv1, hv2⟩, rfl⟩
      have : v = ![(proj3 v).1, (proj3 v).2, val3 t (proj3 v).1 (proj3 v).2] := by
        apply hinj hv2
        · rw [htight]; simp
        · show (v 0, v 1) = _
          simp [proj3]
      rw [← this]; exact hv1
    · intro hq
      exact ⟨_, ⟨hq, by rw [htight]; simp⟩, by simp [proj3]⟩
  have hdir : ∀ a b : ℝ, h.dir ![a, b, -t.2.1 * a + t.2.2 * b] = 0 := by
    intro a b
    have h1 : h.eval ![(0 : ℝ), 0, t.1] = 0 := (htight _).mpr (by simp [val3])
    have h2 : h.eval (![(0 : ℝ), 0, t.1] + (1 : ℝ) • ![a, b, -t.2.1 * a + t.2.2 * b]) = 0 :=
      (htight _).mpr (by simp [val3]; ring)
    rw [h.eval_move, h1] at h2
    linarith
  obtain ⟨ε₁, hε₁, hmv₁⟩ := hV.irredundant.move_in_facet hh hz0 hstrict (hdir 1 0)
  obtain ⟨ε₂, hε₂, hmv₂⟩ := hV.irredundant.move_in_facet hh hz0 hstrict (hdir 0 1)
  set ε := min ε₁ ε₂ with hε
  have hεpos : 0 < ε := lt_min hε₁ hε₂
  have hz' : proj3 z ∈ proj3 '' face hs h := ⟨z, ⟨hz, hz0⟩, rfl⟩
  have hz1 : ((proj3 z).1 + ε, (proj3 z).2) ∈ proj3 '' face hs h :=
    ⟨_, hmv₁ ε (by rw [abs_of_pos hεpos]; exact min_le_left _ _), by simp [proj3]; exact ⟨rfl, rfl⟩⟩
  have hz2 : ((proj3 z).1, (proj3 z).2 + ε) ∈ proj3 '' face hs h :=
    ⟨_, hmv₂ ε (by rw [abs_of_pos hεpos]; exact min_le_right _ _), by simp [proj3]; exact ⟨rfl, rfl⟩⟩
  refine ⟨fun q => by rw [hproj, hlift], ?_, ?_, ?_, ?_⟩
  · intro q hq
    obtain ⟨v, hv, rfl⟩ := List.mem_map.mp hq
    obtain ⟨hv1, hv2⟩ := hmem.mp hv
    rw [hproj]
    refine ⟨⟨v, ⟨hv1.1, hv2⟩, rfl⟩, ?_⟩
    rintro _ ⟨a, ha, rfl⟩ _ ⟨b, hb, rfl⟩ ⟨s, r, hs0, hr0, hsr, heq⟩
    have hseg : v ∈ openSegment ℝ a b := by
      refine ⟨s, r, hs0, hr0, hsr, ?_⟩
      apply hinj _ hv2
      · rw [map_add, map_smul, map_smul]; exact heq
      · rw [h.eval_comb _ _ hsr, ha.2, hb.2]; ring
    rw [hv1.2 ha.1 hb.1 hseg]
  · apply List.Nodup.map_on _ hnd
    intro v hv w hw hvw
    exact hinj (hmem.mp hv).2 (hmem.mp hw).2 hvw
  · by_contra hlt
    -- all vertices on a line `v + s (w - v)`: impossible
    obtain ⟨v, w, hsub⟩ : ∃ v w : ℝ × ℝ, {q | q ∈ (vertsOf V j).map proj3} ⊆ {v, w} := by
      match hl : vertsOf V j with
      | [] => exact ⟨0, 0, by intro q hq; simp at hq⟩
      | [a] => exact ⟨proj3 a, proj3 a, by intro q hq; simp at hq; simp [hq]⟩
      | [a, b] => exact ⟨proj3 a, proj3 b, by intro q hq; simpa using hq⟩
      | a :: b :: c :: rest => rw [hl] at hlt; simp at hlt
    have hseg : ∀ q ∈ proj3 '' face hs h, q ∈ segment ℝ v w := by
      intro q hq
      rw [← hproj] at hq
      have := convexHull_mono hsub hq
      rwa [convexHull_pair] at this
    obtain ⟨a0, b0, -, -, s0, e0⟩ := hseg _ hz'
    obtain ⟨a1, b1, -, -, s1, e1⟩ := hseg _ hz1
    obtain ⟨a2, b2, -, -, s2, e2⟩ := hseg _ hz2
    have f0 := congrArg Prod.fst e0
    have g0 := congrArg Prod.snd e0
    have f1 := congrArg Prod.fst e1
    have g1 := congrArg Prod.snd e1
    have f2 := congrArg Prod.fst e2
    have g2 := congrArg Prod.snd e2
    simp only [Prod.fst_add, Prod.snd_add, Prod.smul_fst, Prod.smul_snd, smul_eq_mul] at f0 g0 f1 g1 f2 g2
    have ha0 : a0 = 1 - b0 := by linarith
    have ha1 : a1 = 1 - b1 := by linarith
    have ha2 : a2 = 1 - b2 := by linarith
    subst ha0 ha1 ha2
    -- (b1 - b0)(w - v) = (ε, 0), (b2 - b0)(w - v) = (0, ε)
    have p1 : (b1 - b0) * (w.1 - v.1) = ε := by linarith
    have p2 : (b1 - b0) * (w.2 - v.2) = 0 := by linarith
    have p3 : (b2 - b0) * (w.1 - v.1) = 0 := by linarith
    have p4 : (b2 - b0) * (w.2 - v.2) = ε := by linarith
    rcases mul_eq_zero.mp p2 with h' | h'
    · rw [h', zero_mul] at p1; linarith
    · rw [h', mul_zero] at p4; linarith
  · rw [hproj]
    exact ⟨proj3 z, ε, hεpos, hz', hz1, hz2⟩

theorem coefs_distinct3D (hV : Vertices (hsArray3D L top bottom γ₀ γf ω₀ ωf) V J) {j k : Nat} (hj : j ∈ J) (hk : k ∈ J)
    (hjk : j ≠ k) {t : ℝ × ℝ × ℝ} (hjL : L[j]? = some t) : L[k]? ≠ some t := by
  intro hkL
  obtain ⟨x, hx, hxn⟩ := hV.irredundant.minimal j hj
  apply hxn
  apply hV.irredundant.describes
  intro i hi h hh
  by_cases hij : i = j
  · subst hij
    exact hx k hk (Ne.symm hjk) h (by rw [hsArray3D_get hkL]; rw [hsArray3D_get hjL] at hh; exact hh)
  · exact hx i hi hij h hh

/-- feasibility of a graph point = optimality in the window -/
theorem optimal_iff_poly3D (hP : ∀ t ∈ L, 0 ≤ t.2.1) (hC : ∀ t ∈ L, 0 ≤ t.2.2)
    (htop : ∀ t ∈ L, val3 t γ₀ ωf ≤ top) (hbot : ∀ t ∈ L, bottom ≤ val3 t γf ω₀) {t : ℝ × ℝ × ℝ} (ht : t ∈ L)
    (γ ω : ℝ) : ![γ, ω, val3 t γ ω] ∈ poly (hsArray3D L top bottom γ₀ γf ω₀ ωf) ↔
      ((γ₀ ≤ γ ∧ γ ≤ γf) ∧ ω₀ ≤ ω ∧ ω ≤ ωf) ∧ ∀ t' ∈ L, val3 t' γ ω ≤ val3 t γ ω := by
  rw [mem_poly3D]
  simp only [Matrix.cons_val_zero, Matrix.cons_val_one, Matrix.cons_val_two, Matrix.cons_val]
  constructor
  · rintro ⟨h1, h2, h3, h4, h5, h6, h7⟩; exact ⟨⟨⟨h5, h4⟩, h7, h6⟩, h1⟩
  · rintro ⟨⟨⟨h1, h2⟩, h3, h4⟩, h5⟩
    refine ⟨h5, ?_, ?_, h2, h1, h4, h3⟩
    · show val3 t γ ω ≤ top
      have e := htop t ht
      have e1 := mul_le_mul_of_nonneg_left h1 (hP t ht)
      have e2 := mul_le_mul_of_nonneg_left h4 (hC t ht)
      unfold val3 at e ⊢; linarith
    · show bottom ≤ val3 t γ ω
      have e := hbot t ht
      have e1 := mul_le_mul_of_nonneg_left h2 (hP t ht)
      have e2 := mul_le_mul_of_nonneg_left h3 (hC t ht)
      unfold val3 at e ⊢; linarith

/-- coverage of the open window -/
theorem cover3D (hV : Vertices (hsArray3D L top bottom γ₀ γf ω₀ ωf) V J) {x₀ : Fin 3 → ℝ}
    (hx₀ : ∀ h ∈ hsArray3D L top bottom γ₀ γf ω₀ ωf, h.eval x₀ < 0) (hP : ∀ t ∈ L, 0 ≤ t.2.1)
    (hC : ∀ t ∈ L, 0 ≤ t.2.2)
    (htop : ∀ t ∈ L, val3 t γ₀ ωf ≤ top) (htop' : ∃ t ∈ L, val3 t γ₀ ωf = top)
    (hbot : ∀ t ∈ L, bottom ≤ val3 t γf ω₀) {γ ω : ℝ} (h1 : γ₀ < γ) (h2 : γ < γf) (h3 : ω₀ < ω) (h4 : ω < ωf) :
    ∃ j ∈ J, ∃ t, L[j]? = some t ∧ ∀ t' ∈ L, val3 t' γ ω ≤ val3 t γ ω := by
  obtain ⟨hi1, hi2, hi3, -⟩ := interior3D.mp hx₀
  have hne : L ≠ [] := by rintro rfl; obtain ⟨t, h, -⟩ := htop'; simp at h
  obtain ⟨m, hm, hmax⟩ := exists_max_list L (fun t => val3 t γ ω) hne
  have hxin : ![γ, ω, val3 m γ ω] ∈ poly (hsArray3D L top bottom γ₀ γf ω₀ ωf) :=
    (optimal_iff_poly3D hP hC htop hbot hm γ ω).mpr ⟨⟨⟨h1.le, h2.le⟩, h3.le, h4.le⟩, hmax⟩
  obtain ⟨i, hi⟩ := List.getElem?_of_mem hm
  obtain ⟨j, hj, h', hh', ht⟩ := hV.irredundant.boundary hsArray3D_normals hxin
    (List.mem_of_getElem? (hsArray3D_get hi))
    ((hsArray3D_tight (top := top) (bottom := bottom) (γ₀ := γ₀) (γf := γf) (ω₀ := ω₀) (ωf := ωf) hi
      (hsArray3D_get hi) _).mpr (by simp))
  refine ⟨j, hj, ?_⟩
  by_cases hlt : j < L.length
  · have hjL : L[j]? = some L[j] := List.getElem?_eq_getElem hlt
    have := (hsArray3D_tight hjL hh' _).mp ht
    simp only [Matrix.cons_val_zero, Matrix.cons_val_one, Matrix.cons_val] at this
    exact ⟨L[j], hjL, fun t' ht' => by rw [← this]; exact hmax t' ht'⟩
  · exfalso
    unfold hsArray3D at hh'
    rw [List.getElem?_map, List.getElem?_append_right (by simpa using hlt)] at hh'
    obtain ⟨h'', hh'', rfl⟩ := Option.map_eq_some_iff.mp hh'
    have hmemb : h'' ∈ boundaries3D top bottom γ₀ γf ω₀ ωf := List.mem_of_getElem? hh''
    rw [normalise_eq (boundaries3D_normal _ hmemb)] at ht
    simp only [boundaries3D, List.mem_cons, List.not_mem_nil, or_false] at hmemb
    have hP' := hP m hm
    have hC' := hC m hm
    rcases hmemb with rfl | rfl | rfl | rfl | rfl | rfl <;> simp [HS.eval, Fin.sum_univ_three] at ht
    · -- top
      have e1 := htop m hm
      have e2 := hi1 m hm
      unfold val3 at ht e1 e2
      have n1 := mul_nonneg hP' (sub_nonneg.mpr h1.le)
      have n2 := mul_nonneg hC' (sub_nonneg.mpr h4.le)
      have z1 : m.2.1 * (γ - γ₀) = 0 := by linarith
      have z2 : m.2.2 * (ωf - ω) = 0 := by linarith
      have z3 : m.2.1 = 0 := (mul_eq_zero.mp z1).resolve_right (by linarith)
      have z4 : m.2.2 = 0 := (mul_eq_zero.mp z2).resolve_right (by linarith)
      rw [z3, z4] at ht e2
      linarith
    · -- bottom
      have hall : ∀ t ∈ L, t.2.1 = 0 ∧ t.2.2 = 0 ∧ t.1 = bottom := by
        intro t ht'
        have e1 := hbot t ht'
        have e2 := hmax t ht'
        have n1 := mul_nonneg (hP t ht') (sub_nonneg.mpr h2.le)
        have n2 := mul_nonneg (hC t ht') (sub_nonneg.mpr h3.le)
        unfold val3 at ht e1 e2
        have z1 : t.2.1 * (γf - γ) = 0 := by linarith
        have z2 : t.2.2 * (ω - ω₀) = 0 := by linarith
        have z3 : t.2.1 = 0 := (mul_eq_zero.mp z1).resolve_right (by linarith)
        have z4 : t.2.2 = 0 := (mul_eq_zero.mp z2).resolve_right (by linarith)
        refine ⟨z3, z4, ?_⟩
        rw [z3, z4] at e1 e2
        linarith
      obtain ⟨t', ht', e⟩ := htop'
      obtain ⟨e1, e2, e3⟩ := hall t' ht'
      unfold val3 at e
      rw [e1, e2, e3] at e
      linarith
    · linarith
    · linarith
    · linarith
    · linarith

end
end Verif
