import Mathlib.Analysis.Convex.Combination
import Mathlib.Analysis.Convex.Extreme
import Mathlib.Analysis.SpecialFunctions.Complex.Arg
import Verif.Model.Champ
import Verif.Spec.Polygon
import Verif.Proofs.Partition

namespace Verif
open Real Spec
set_option linter.unusedSectionVars false

/-- planar cross product -/
def crossC (u v : ℂ) : ℝ := u.re * v.im - u.im * v.re

theorem crossC_sin (u v : ℂ) : crossC u v = ‖u‖ * ‖v‖ * sin (Complex.arg v - Complex.arg u) := by
  rw [sin_sub]
  have h1 := Complex.norm_mul_cos_arg u
  have h2 := Complex.norm_mul_sin_arg u
  have h3 := Complex.norm_mul_cos_arg v
  have h4 := Complex.norm_mul_sin_arg v
  unfold crossC
  rw [← h1, ← h2, ← h3, ← h4]
  ring

theorem sin_neg_of_mem {t : ℝ} (h1 : π < t) (h2 : t < 2 * π) : sin t < 0 := by
  have := sin_pos_of_pos_of_lt_pi (x := t - π) (by linarith) (by linarith)
  rw [sin_sub_pi] at this
  linarith

theorem sin_nonpos_of_mem {t : ℝ} (h1 : π ≤ t) (h2 : t ≤ 2 * π) : sin t ≤ 0 := by
  have := sin_nonneg_of_nonneg_of_le_pi (x := t - π) (by linarith) (by linarith)
  rw [sin_sub_pi] at this
  linarith

section
variable {u v w : ℂ}

theorem crossC_pos_iff (hu : u ≠ 0) (hv : v ≠ 0) : 0 < crossC u v ↔ 0 < sin (Complex.arg v - Complex.arg u) := by
  rw [crossC_sin]
  have : 0 < ‖u‖ * ‖v‖ := mul_pos (norm_pos_iff.mpr hu) (norm_pos_iff.mpr hv)
  exact mul_pos_iff_of_pos_left this

theorem crossC_nonneg_iff (hu : u ≠ 0) (hv : v ≠ 0) : 0 ≤ crossC u v ↔ 0 ≤ sin (Complex.arg v - Complex.arg u) := by
  rw [crossC_sin]
  have : 0 < ‖u‖ * ‖v‖ := mul_pos (norm_pos_iff.mpr hu) (norm_pos_iff.mpr hv)
  exact mul_nonneg_iff_of_pos_left this

theorem arg_bounds (u v : ℂ) : -(2 * π) < Complex.arg v - Complex.arg u ∧ Complex.arg v - Complex.arg u < 2 * π := by
  have h1 := Complex.neg_pi_lt_arg u
  have h2 := Complex.arg_le_pi u
  have h3 := Complex.neg_pi_lt_arg v
  have h4 := Complex.arg_le_pi v
  constructor <;> linarith

theorem crossC_smul_right (u v : ℂ) (t : ℝ) : crossC u ((t : ℂ) * v) = t * crossC u v := by
  unfold crossC; simp; ring

/-- adjacency in angular order: no third point strictly between in the closed cone -/
theorem not_in_cone (hu : u ≠ 0) (hv : v ≠ 0) (hw : w ≠ 0) (huv : 0 < crossC u v) (huw : 0 ≤ crossC u w)
    (hwv : 0 ≤ crossC w v) (h1 : Complex.arg w ≠ Complex.arg u) (h2 : Complex.arg w ≠ Complex.arg v)
    (hadj : (Complex.arg u < Complex.arg v ∧ (Complex.arg w ≤ Complex.arg u ∨ Complex.arg v ≤ Complex.arg w)) ∨
      (Complex.arg v ≤ Complex.arg w ∧ Complex.arg w ≤ Complex.arg u)) : False := by
  rw [crossC_pos_iff hu hv] at huv
  rw [crossC_nonneg_iff hu hw] at huw
  rw [crossC_nonneg_iff hw hv] at hwv
  obtain ⟨b1, b2⟩ := arg_bounds u v
  obtain ⟨b3, b4⟩ := arg_bounds u w
  obtain ⟨b5, b6⟩ := arg_bounds w v
  set a := Complex.arg u
  set b := Complex.arg v
  set c := Complex.arg w
  rcases hadj with ⟨hab, hc⟩ | ⟨hbc, hca⟩
  · have hδ : b - a < π := by
      by_contra h
      have := sin_nonpos_of_mem (not_lt.mp h) b2.le
      linarith
    rcases hc with hc | hc
    · have hc : c < a := lt_of_le_of_ne hc h1
      -- sin (c - a) ≥ 0, c - a ∈ (-2π, 0)
      have e1 : π ≤ a - c := by
        by_contra h
        have := sin_pos_of_pos_of_lt_pi (x := a - c) (by linarith) (not_le.mp h)
        rw [← neg_sub, sin_neg] at this
        linarith
      have := sin_neg_of_mem (t := b - c) (by linarith) b6
      linarith
    · have hc : b < c := lt_of_le_of_ne hc (Ne.symm h2)
      have e1 : π ≤ c - b := by
        by_contra h
        have := sin_pos_of_pos_of_lt_pi (x := c - b) (by linarith) (not_le.mp h)
        rw [← neg_sub, sin_neg] at this
        linarith
      have := sin_neg_of_mem (t := c - a) (by linarith) b4
      linarith
  · have hbc : b < c := lt_of_le_of_ne hbc (Ne.symm h2)
    have hca : c < a := lt_of_le_of_ne hca h1
    have e1 : π ≤ a - c := by
      by_contra h
      have := sin_pos_of_pos_of_lt_pi (x := a - c) (by linarith) (not_le.mp h)
      rw [← neg_sub, sin_neg] at this
      linarith
    have e2 : π ≤ c - b := by
      by_contra h
      have := sin_pos_of_pos_of_lt_pi (x := c - b) (by linarith) (not_le.mp h)
      rw [← neg_sub, sin_neg] at this
      linarith
    linarith

/-- if adjacent directions do not turn left, every direction is to the right -/
theorem all_right (hu : u ≠ 0) (hv : v ≠ 0) (hw : w ≠ 0) (huv : ¬ 0 < crossC u v)
    (hadj : (Complex.arg u < Complex.arg v ∧ (Complex.arg w ≤ Complex.arg u ∨ Complex.arg v ≤ Complex.arg w)) ∨
      (Complex.arg v < Complex.arg u ∧ Complex.arg v ≤ Complex.arg w ∧ Complex.arg w ≤ Complex.arg u)) :
    crossC u w ≤ 0 := by
  rw [crossC_pos_iff hu hv] at huv
  rw [crossC_sin]
  have hn : 0 ≤ ‖u‖ * ‖w‖ := by positivity
  refine mul_nonpos_of_nonneg_of_nonpos hn ?_
  obtain ⟨b1, b2⟩ := arg_bounds u v
  obtain ⟨b3, b4⟩ := arg_bounds u w
  have c1 := Complex.neg_pi_lt_arg w
  have c2 := Complex.arg_le_pi v
  set a := Complex.arg u
  set b := Complex.arg v
  set c := Complex.arg w
  rcases hadj with ⟨hab, hc⟩ | ⟨hba, hbc, hca⟩
  · have e1 : π ≤ b - a := by
      by_contra h
      exact huv (sin_pos_of_pos_of_lt_pi (by linarith) (not_le.mp h))
    rcases hc with hc | hc
    · have := sin_nonneg_of_nonneg_of_le_pi (x := a - c) (by linarith) (by linarith)
      rw [← neg_sub, sin_neg] at this
      linarith
    · exact sin_nonpos_of_mem (by linarith) b4.le
  · have e1 : a - b ≤ π := by
      by_contra h
      apply huv
      have := sin_neg_of_mem (t := a - b) (not_le.mp h) (by linarith)
      rw [← neg_sub, sin_neg] at this
      linarith
    have := sin_nonneg_of_nonneg_of_le_pi (x := a - c) (by linarith) (by linarith)
    rw [← neg_sub, sin_neg] at this
    linarith

end

/-! ## Polygons -/

/-- the complex number whose argument is the sort key -/
def rel (c x : ℝ × ℝ) : ℂ := ⟨x.2 - c.2, x.1 - c.1⟩

theorem rel_eq_zero {c x : ℝ × ℝ} : rel c x = 0 ↔ x = c := by
  constructor
  · intro h
    have h1 := congrArg Complex.re h
    have h2 := congrArg Complex.im h
    simp only [rel, Complex.zero_re, Complex.zero_im] at h1 h2
    ext <;> linarith
  · rintro rfl; apply Complex.ext <;> simp [rel]

theorem sum_map_sub_mean (l : List ℝ) (h : l ≠ []) : (l.map fun x => x - l.sum / l.length).sum = 0 := by
  have : ∀ (l : List ℝ) (m : ℝ), (l.map fun x => x - m).sum = l.sum - l.length * m := by
    intro l m
    induction l with
    | nil => simp
    | cons a l ih => simp [ih]; ring
  rw [this]
  have : (l.length : ℝ) ≠ 0 := by
    rw [Nat.cast_ne_zero]; exact fun h0 => h (List.length_eq_zero_iff.mp h0)
  field_simp; ring

theorem sum_nonpos_zero {β : Type} (l : List β) (f : β → ℝ) (hf : ∀ b ∈ l, f b ≤ 0) (hs : (l.map f).sum = 0) :
    ∀ b ∈ l, f b = 0 := by
  have hle : ∀ l : List β, (∀ b ∈ l, f b ≤ 0) → (l.map f).sum ≤ 0 := by
    intro l
    induction l with
    | nil => intro _; simp
    | cons a l ih =>
      intro h
      rw [List.map_cons, List.sum_cons]
      have := h a (by simp)
      have := ih fun b hb => h b (List.mem_cons_of_mem _ hb)
      linarith
  induction l with
  | nil => simp
  | cons a l ih =>
    rw [List.map_cons, List.sum_cons] at hs
    have h1 := hf a (by simp)
    have h2 := hle l fun b hb => hf b (List.mem_cons_of_mem _ hb)
    intro b hb
    rcases List.mem_cons.mp hb with rfl | hb
    · linarith
    · exact ih (fun b hb => hf b (List.mem_cons_of_mem _ hb)) (by linarith) b hb

section
variable {pts : List (ℝ × ℝ)}

theorem sum_rel_cross (hne : pts ≠ []) (u : ℂ) : (pts.map fun x => crossC u (rel (centroid pts) x)).sum = 0 := by
  have h1 := sum_map_sub_mean (pts.map Prod.fst) (by simpa using hne)
  have h2 := sum_map_sub_mean (pts.map Prod.snd) (by simpa using hne)
  rw [List.map_map, List.length_map] at h1 h2
  have gen : ∀ (l : List (ℝ × ℝ)) (c : ℝ × ℝ), (l.map fun x => crossC u (rel c x)).sum =
      u.re * (l.map fun x => x.1 - c.1).sum - u.im * (l.map fun x => x.2 - c.2).sum := by
    intro l c
    induction l with
    | nil => simp
    | cons a l ih => simp only [List.map_cons, List.sum_cons, ih]; simp only [crossC, rel]; ring
  rw [gen]
  have e1 : (pts.map fun x => x.1 - (centroid pts).1).sum = 0 := h1
  have e2 : (pts.map fun x => x.2 - (centroid pts).2).sum = 0 := h2
  rw [e1, e2]; ring

theorem centroid_mem (hne : pts ≠ []) : centroid pts ∈ convexHull ℝ {q | q ∈ pts} := by
  have hpos : (0 : ℝ) < pts.length := by
    rw [Nat.cast_pos]; exact List.length_pos_iff.mpr hne
  have key := Finset.centerMass_mem_convexHull (R := ℝ) (Finset.univ : Finset (Fin pts.length)) (w := fun _ => 1)
    (z := fun i => pts[i]) (s := {q | q ∈ pts}) (fun _ _ => zero_le_one) (by simpa using hpos)
    (fun i _ => List.getElem_mem _)
  have : (Finset.univ : Finset (Fin pts.length)).centerMass (fun _ => (1 : ℝ)) (fun i => pts[i]) = centroid pts := by
    unfold Finset.centerMass centroid
    simp only [Finset.sum_const, Finset.card_univ, Fintype.card_fin, nsmul_eq_mul, mul_one, one_smul]
    ext
    · rw [Prod.smul_fst, Prod.fst_sum, smul_eq_mul, ← List.sum_ofFn, inv_mul_eq_div]
      congr 1
      congr 1
      apply List.ext_getElem <;> simp
    · rw [Prod.smul_snd, Prod.snd_sum, smul_eq_mul, ← List.sum_ofFn, inv_mul_eq_div]
      congr 1
      congr 1
      apply List.ext_getElem <;> simp
  rw [this] at key
  exact key

variable (hext : ∀ q ∈ pts, q ∈ (convexHull ℝ {q | q ∈ pts}).extremePoints ℝ) (hnd : pts.Nodup)
  (hlen : 3 ≤ pts.length)
include hext hnd hlen

theorem pts_ne_nil : pts ≠ [] := by intro h; rw [h] at hlen; simp at hlen

/-- two distinct points different from a given one -/
theorem exists_other (p q : ℝ × ℝ) : ∃ r ∈ pts, r ≠ p ∧ r ≠ q := by
  by_contra hc
  push Not at hc
  have hsub : pts ⊆ [p, q] := by
    intro r hr
    by_cases h : r = p
    · simp [h]
    · simp [hc r hr h]
  have := (hnd.subperm hsub).length_le
  simp at this
  omega

theorem vertex_ne_centroid {x : ℝ × ℝ} (hx : x ∈ pts) : x ≠ centroid pts := by
  intro hxc
  have hK := convex_convexHull ℝ {q | q ∈ pts}
  have hx' := (hK.mem_extremePoints_iff_mem_diff_convexHull_diff).mp (hext x hx)
  apply hx'.2
  -- mean of the others
  set l := pts.erase x with hl
  have hperm : pts.Perm (x :: l) := List.perm_cons_erase hx
  have hlne : l ≠ [] := by
    intro h
    have := hperm.length_eq
    rw [h] at this
    simp at this
    omega
  have hlpos : (0 : ℝ) < l.length := by rw [Nat.cast_pos]; exact List.length_pos_iff.mpr hlne
  have hmem := centroid_mem hlne
  have hcl : centroid l = x := by
    have e1 : (pts.map Prod.fst).sum = x.1 + (l.map Prod.fst).sum := by rw [(hperm.map _).sum_eq]; simp
    have e2 : (pts.map Prod.snd).sum = x.2 + (l.map Prod.snd).sum := by rw [(hperm.map _).sum_eq]; simp
    have e3 : (pts.length : ℝ) = l.length + 1 := by rw [hperm.length_eq]; simp
    have f1 : x.1 = (pts.map Prod.fst).sum / pts.length := congrArg Prod.fst hxc
    have f2 : x.2 = (pts.map Prod.snd).sum / pts.length := congrArg Prod.snd hxc
    rw [e1, e3, eq_div_iff (by positivity)] at f1
    rw [e2, e3, eq_div_iff (by positivity)] at f2
    unfold centroid
    ext
    · show _ / _ = _
      rw [div_eq_iff hlpos.ne']; linarith
    · show _ / _ = _
      rw [div_eq_iff hlpos.ne']; linarith
  rw [hcl] at hmem
  refine convexHull_mono ?_ hmem
  intro r hr
  have hr : r ∈ l := hr
  rw [hl, hnd.mem_erase_iff] at hr
  exact ⟨subset_convexHull ℝ _ hr.2, hr.1⟩

theorem rel_ne_zero {x : ℝ × ℝ} (hx : x ∈ pts) : rel (centroid pts) x ≠ 0 := fun h =>
  vertex_ne_centroid hext hnd hlen hx (rel_eq_zero.mp h)

theorem no_scaled {x y : ℝ × ℝ} (hx : x ∈ pts) (hy : y ∈ pts) {t : ℝ} (h0 : 0 < t) (h1 : t ≤ 1)
    (h : rel (centroid pts) x = (t : ℂ) * rel (centroid pts) y) : x = y := by
  set c := centroid pts with hc
  have hre := congrArg Complex.re h
  have him := congrArg Complex.im h
  simp [rel] at hre him
  rcases eq_or_lt_of_le h1 with rfl | h1
  · ext <;> linarith
  · exfalso
    have hseg : x ∈ openSegment ℝ c y := by
      refine ⟨1 - t, t, by linarith, h0, by ring, ?_⟩
      ext
      · simp; linarith
      · simp; linarith
    have := (hext x hx).2 (centroid_mem (pts_ne_nil hext hnd hlen)) (subset_convexHull ℝ _ hy) hseg
    exact vertex_ne_centroid hext hnd hlen hx this.symm

theorem arg_injective {x y : ℝ × ℝ} (hx : x ∈ pts) (hy : y ∈ pts)
    (h : Complex.arg (rel (centroid pts) x) = Complex.arg (rel (centroid pts) y)) : x = y := by
  have hx0 := rel_ne_zero hext hnd hlen hx
  have hy0 := rel_ne_zero hext hnd hlen hy
  have nx := norm_pos_iff.mpr hx0
  have ny := norm_pos_iff.mpr hy0
  rcases le_total ‖rel (centroid pts) x‖ ‖rel (centroid pts) y‖ with hle | hle
  · have := (Complex.arg_eq_arg_iff hy0 hx0).mp h.symm
    refine no_scaled hext hnd hlen hx hy (t := ‖rel (centroid pts) x‖ / ‖rel (centroid pts) y‖) (div_pos nx ny)
      ((div_le_one ny).mpr hle) ?_
    push_cast; exact this.symm
  · have := (Complex.arg_eq_arg_iff hx0 hy0).mp h
    refine (no_scaled hext hnd hlen hy hx (t := ‖rel (centroid pts) y‖ / ‖rel (centroid pts) x‖) (div_pos ny nx)
      ((div_le_one nx).mpr hle) ?_).symm
    push_cast; exact this.symm

theorem adjacent_right {p q : ℝ × ℝ} (hp : p ∈ pts) (hq : q ∈ pts) (hpq : p ≠ q)
    (hadj : (Complex.arg (rel (centroid pts) p) < Complex.arg (rel (centroid pts) q) ∧ ∀ r ∈ pts,
        Complex.arg (rel (centroid pts) r) ≤ Complex.arg (rel (centroid pts) p) ∨
        Complex.arg (rel (centroid pts) q) ≤ Complex.arg (rel (centroid pts) r)) ∨
      (∀ r ∈ pts, Complex.arg (rel (centroid pts) q) ≤ Complex.arg (rel (centroid pts) r) ∧
        Complex.arg (rel (centroid pts) r) ≤ Complex.arg (rel (centroid pts) p)))
    {r : ℝ × ℝ} (hr : r ∈ pts) (hrp : r ≠ p) (hrq : r ≠ q) : orient p q r < 0 := by
  have hne := pts_ne_nil hext hnd hlen
  set c := centroid pts with hc
  have ainj : ∀ {x y}, x ∈ pts → y ∈ pts → x ≠ y → Complex.arg (rel c x) ≠ Complex.arg (rel c y) :=
    fun hx hy hxy h => hxy (arg_injective hext hnd hlen hx hy h)
  have rne : ∀ {x}, x ∈ pts → rel c x ≠ 0 := fun hx => rel_ne_zero hext hnd hlen hx
  set u := rel c p with hu
  set v := rel c q with hv
  have huv : 0 < crossC u v := by
    by_contra hneg
    have hall : ∀ x ∈ pts, crossC u (rel c x) ≤ 0 := by
      intro x hx
      refine all_right (rne hp) (rne hq) (rne hx) hneg ?_
      rcases hadj with ⟨h1, h2⟩ | h
      · exact Or.inl ⟨h1, h2 x hx⟩
      · refine Or.inr ⟨lt_of_le_of_ne (h p hp).1 (ainj hq hp (Ne.symm hpq)), h x hx⟩
    have hzero := sum_nonpos_zero pts _ hall (sum_rel_cross hne u)
    -- everything is on one line through the centroid
    have hline : ∀ x ∈ pts, ∃ s : ℝ, s ≠ 0 ∧ rel c x = (s : ℂ) * u := by
      intro x hx
      have hz := hzero x hx
      have hu0 : u ≠ 0 := rne hp
      have hn : 0 < u.re * u.re + u.im * u.im := by
        rcases eq_or_ne u.re 0 with h | h
        · have : u.im ≠ 0 := fun h' => hu0 (Complex.ext h h')
          have := mul_self_pos.mpr this
          rw [h]; linarith
        · have := mul_self_pos.mpr h
          have := mul_self_nonneg u.im
          linarith
      unfold crossC at hz
      set w := rel c x with hw
      have hw' : w = (((w.re * u.re + w.im * u.im) / (u.re * u.re + u.im * u.im) : ℝ) : ℂ) * u := by
        apply Complex.ext
        · simp only [Complex.mul_re, Complex.ofReal_re, Complex.ofReal_im]
          rw [zero_mul, sub_zero, div_mul_eq_mul_div, eq_div_iff hn.ne']
          linear_combination (-u.im) * hz
        · simp only [Complex.mul_im, Complex.ofReal_re, Complex.ofReal_im]
          rw [zero_mul, add_zero, div_mul_eq_mul_div, eq_div_iff hn.ne']
          linear_combination u.re * hz
      refine ⟨_, ?_, hw'⟩
      intro h0
      rw [h0] at hw'
      exact rne hx (by rw [← hw, hw']; simp)
    have hpos : ∀ x ∈ pts, x ≠ p → ∀ s : ℝ, rel c x = (s : ℂ) * u → ¬ 0 < s := by
      intro x hx hxp s hs hs0
      apply ainj hx hp hxp
      rw [hs, Complex.arg_real_mul _ hs0]
    obtain ⟨sq, hsq0, hsq⟩ := hline q hq
    obtain ⟨r', hr', hr'p, hr'q⟩ := exists_other hext hnd hlen p q
    obtain ⟨sr, hsr0, hsr⟩ := hline r' hr'
    have n1 : sq < 0 := lt_of_le_of_ne (not_lt.mp (hpos q hq (Ne.symm hpq) sq hsq)) hsq0
    have n2 : sr < 0 := lt_of_le_of_ne (not_lt.mp (hpos r' hr' hr'p sr hsr)) hsr0
    apply ainj hr' hq hr'q
    have : rel c r' = ((sr / sq : ℝ) : ℂ) * rel c q := by
      rw [hsr, hsq, ← mul_assoc, ← Complex.ofReal_mul, div_mul_cancel₀ _ n1.ne]
    rw [this, Complex.arg_real_mul _ (div_pos_of_neg_of_neg n2 n1)]
  -- coordinates of r
  set w := rel c r with hw
  set a := crossC w v / crossC u v with ha
  set b := crossC u w / crossC u v with hb
  have hco : w.re = a * u.re + b * v.re ∧ w.im = a * u.im + b * v.im := by
    have hne0 : u.re * v.im - u.im * v.re ≠ 0 := huv.ne'
    rw [ha, hb]
    unfold crossC
    constructor
    · rw [div_mul_eq_mul_div, div_mul_eq_mul_div, ← add_div, eq_div_iff hne0]; ring
    · rw [div_mul_eq_mul_div, div_mul_eq_mul_div, ← add_div, eq_div_iff hne0]; ring
  have hre : r.2 - c.2 = a * (p.2 - c.2) + b * (q.2 - c.2) := hco.1
  have him : r.1 - c.1 = a * (p.1 - c.1) + b * (q.1 - c.1) := hco.2
  have horient : orient p q r = -(crossC u v * (1 - a - b)) := by
    have e1 : r.2 = c.2 + (a * (p.2 - c.2) + b * (q.2 - c.2)) := by linarith
    have e2 : r.1 = c.1 + (a * (p.1 - c.1) + b * (q.1 - c.1)) := by linarith
    unfold orient
    rw [e1, e2]
    show _ = -(((p.2 - c.2) * (q.1 - c.1) - (p.1 - c.1) * (q.2 - c.2)) * _)
    ring
  rw [horient]
  have hcK := centroid_mem hne
  have hpK := subset_convexHull ℝ {q | q ∈ pts} hp
  have hqK := subset_convexHull ℝ {q | q ∈ pts} hq
  have hrK := subset_convexHull ℝ {q | q ∈ pts} hr
  have hconv := convex_convexHull ℝ {q | q ∈ pts}
  -- q (resp. p) in the triangle of the other two and c is impossible
  have tri : ∀ {x y : ℝ × ℝ} {s t : ℝ}, x ∈ pts → y ∈ pts → x ≠ r → s < 0 → 1 ≤ s + t →
      r.2 - c.2 = s * (y.2 - c.2) + t * (x.2 - c.2) → r.1 - c.1 = s * (y.1 - c.1) + t * (x.1 - c.1) → False := by
    intro x y s t hx hy hxr hs hst e2 e1
    have ht : 1 < t := by linarith
    have ht1 : 0 < t - 1 := by linarith
    have ht0 : 0 < t := by linarith
    let m : ℝ × ℝ := (-s / (t - 1)) • y + ((t - 1 + s) / (t - 1)) • c
    have hm : m ∈ convexHull ℝ {q | q ∈ pts} := by
      refine hconv (subset_convexHull ℝ {q | q ∈ pts} hy) hcK (div_nonneg (by linarith) ht1.le)
        (div_nonneg (by linarith) ht1.le) ?_
      rw [← add_div, div_eq_one_iff_eq ht1.ne']; ring
    have hseg : x ∈ openSegment ℝ r m := by
      refine ⟨1 / t, (t - 1) / t, by positivity, div_pos ht1 ht0, by field_simp; ring, ?_⟩
      have e1' : r.1 = c.1 + (s * (y.1 - c.1) + t * (x.1 - c.1)) := by linarith
      have e2' : r.2 = c.2 + (s * (y.2 - c.2) + t * (x.2 - c.2)) := by linarith
      ext
      · show 1 / t * r.1 + (t - 1) / t * ((-s / (t - 1)) * y.1 + ((t - 1 + s) / (t - 1)) * c.1) = x.1
        rw [e1']; field_simp; ring
      · show 1 / t * r.2 + (t - 1) / t * ((-s / (t - 1)) * y.2 + ((t - 1 + s) / (t - 1)) * c.2) = x.2
        rw [e2']; field_simp; ring
    exact hxr ((hext x hx).2 hrK hm hseg).symm
  have hab : a + b < 1 := by
    by_contra hge
    push Not at hge
    rcases lt_or_ge a 0 with ha0 | ha0
    · exact tri hq hp (Ne.symm hrq) ha0 hge hre him
    rcases lt_or_ge b 0 with hb0 | hb0
    · exact tri (s := b) (t := a) hp hq (Ne.symm hrp) hb0 (by linarith) (by linarith) (by linarith)
    have c1 : 0 ≤ crossC u w := by
      have : crossC u w = b * crossC u v := by rw [hb, div_mul_cancel₀ _ huv.ne']
      rw [this]; exact mul_nonneg hb0 huv.le
    have c2 : 0 ≤ crossC w v := by
      have : crossC w v = a * crossC u v := by rw [ha, div_mul_cancel₀ _ huv.ne']
      rw [this]; exact mul_nonneg ha0 huv.le
    refine not_in_cone (rne hp) (rne hq) (rne hr) huv c1 c2 (ainj hr hp hrp) (ainj hr hq hrq) ?_
    rcases hadj with ⟨h1, h2⟩ | h
    · exact Or.inl ⟨h1, h2 r hr⟩
    · exact Or.inr (h r hr)
  have := mul_pos huv (show 0 < 1 - a - b by linarith)
  linarith

/-- The angularly sorted polygon is in clockwise boundary order. -/
theorem sorted_clockwise (s : List (ℝ × ℝ))
    (hs : s = pySortedBy (fun x => arctan2 (x.1 - (centroid pts).1) (x.2 - (centroid pts).2)) pts) :
    ∀ i j (hi : i < s.length) (hj : j < s.length), j = (i + 1) % s.length → ∀ r ∈ s, r ≠ s[i] → r ≠ s[j] →
      orient s[i] s[j] r < 0 := by
  have hperm : s.Perm pts := by rw [hs]; exact pySortedBy_perm _ _
  have hsort : s.Pairwise fun a b => Complex.arg (rel (centroid pts) a) ≤ Complex.arg (rel (centroid pts) b) := by
    rw [hs]; exact pySortedBy_pairwise _ _
  have hsnd : s.Nodup := hperm.nodup_iff.mpr hnd
  have hslen : s.length = pts.length := hperm.length_eq
  have hmono : ∀ a b (ha : a < s.length) (hb : b < s.length), a ≤ b →
      Complex.arg (rel (centroid pts) s[a]) ≤ Complex.arg (rel (centroid pts) s[b]) := by
    intro a b ha hb hab
    rcases eq_or_lt_of_le hab with rfl | hab
    · exact le_refl _
    · exact List.pairwise_iff_getElem.mp hsort a b ha hb hab
  intro i j hi hj hij r hr hrp hrq
  have hmem : ∀ {x}, x ∈ s → x ∈ pts := fun h => hperm.mem_iff.mp h
  have hpi := hmem (List.getElem_mem hi)
  have hqi := hmem (List.getElem_mem hj)
  have hne : s[i] ≠ s[j] := by
    intro h
    have := (List.Nodup.getElem_inj_iff hsnd).mp h
    rw [this] at hij
    by_cases h1 : j + 1 < s.length
    · rw [Nat.mod_eq_of_lt h1] at hij; omega
    · have : j + 1 = s.length := by omega
      rw [this, Nat.mod_self] at hij; omega
  refine adjacent_right hext hnd hlen hpi hqi hne ?_ (hmem hr) hrp hrq
  by_cases h1 : i + 1 < s.length
  · left
    rw [Nat.mod_eq_of_lt h1] at hij
    subst hij
    refine ⟨lt_of_le_of_ne (hmono i (i + 1) hi hj (by omega)) fun h => hne (arg_injective hext hnd hlen hpi hqi h), ?_⟩
    intro x hx
    obtain ⟨k, hk, rfl⟩ := List.getElem_of_mem (hperm.mem_iff.mpr hx)
    by_cases hki : k ≤ i
    · exact Or.inl (hmono k i hk hi hki)
    · exact Or.inr (hmono (i + 1) k hj hk (by omega))
  · right
    have h2 : i + 1 = s.length := by omega
    rw [h2, Nat.mod_self] at hij
    subst hij
    intro x hx
    obtain ⟨k, hk, rfl⟩ := List.getElem_of_mem (hperm.mem_iff.mpr hx)
    exact ⟨hmono 0 k hj hk (by omega), hmono k i hk hi (by omega)⟩

end
end Verif
