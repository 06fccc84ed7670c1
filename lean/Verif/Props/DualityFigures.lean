import Verif.Model.DualityFigures
import Verif.Props.GammaScan

/-!
# Property C116: figures A.1 and A.2
-/

namespace Verif.Props
open Verif Verif.Spec Real

variable {lambertw : Int → ℝ → ℝ}

/-- the contour of `γ` separates the smaller from the larger estimates -/
theorem contour_separates (hW : SoundLambertW lambertw) {γ x y g : ℝ} (hγ : 0 ≤ γ) (hg : gammaFromParameters x y = some (.fin g)) :
    (parametricOmega lambertw γ x ≤ y ↔ γ ≤ g) ∧ (y ≤ parametricOmega lambertw γ x ↔ g ≤ γ) := by
  obtain ⟨hx, hy, hne, rfl⟩ := ((c27_degenerate_estimates x y).2.2.1 g).mp hg
  have hpos : 0 < logMean x y := by
    obtain ⟨g, hg, _, hmin, _⟩ := c26_logarithmic_mean hx hy hne
    have := ((c27_degenerate_estimates x y).2.2.1 g).mp hg
    rw [← this.2.2.2]
    exact (lt_min hx hy).trans hmin
  rcases hγ.eq_or_lt with rfl | hγ
  · have : parametricOmega lambertw 0 x = 0 := by unfold parametricOmega; exact if_pos rfl
    rw [this]
    exact ⟨⟨fun _ => hpos.le, fun _ => hy.le⟩, ⟨fun h => absurd h (not_le.mpr hy), fun h => absurd h (not_le.mpr hpos)⟩⟩
  obtain ⟨h1, h2⟩ := below_contour hW hx hy hne hγ
  rcases lt_trichotomy (logMean x y) γ with h | h | h
  · have := h1 h
    exact ⟨⟨fun h' => absurd h' (not_le.mpr this), fun h' => absurd h' (not_le.mpr h)⟩, ⟨fun _ => h.le, fun _ => this.le⟩⟩
  · have hxγ : x ≠ γ := by
      intro he
      obtain ⟨g, hg', _, hmin, hmax, _⟩ := c26_logarithmic_mean hx hy hne
      have := ((c27_degenerate_estimates x y).2.2.1 g).mp hg'
      rw [← this.2.2.2, ← he] at h
      subst h
      rcases lt_or_gt_of_ne hne with h' | h'
      · rw [min_eq_left h'.le] at hmin; exact lt_irrefl _ hmin
      · rw [max_eq_left h'.le] at hmax; exact lt_irrefl _ hmax
    have he : y = parametricOmega lambertw γ x := ((c70_duality hW hγ hx hxγ).2.2 y).mp (by rw [hg, h])
    rw [← he, h]
    simp
  · have := h2 h
    exact ⟨⟨fun _ => h.le, fun _ => this.le⟩, ⟨fun h' => absurd h' (not_le.mpr this), fun h' => absurd h' (not_le.mpr h)⟩⟩

/-- The ordinates of a band at abscissa number `j`. -/
def bandAt (b : FilledBand) (j : Nat) (lo hi : ℝ) : Prop := b.lower[j]? = some lo ∧ b.upper[j]? = some hi

theorem bandStarts_get {i : Nat} (h : i < 11) : bandStarts[i]? = some (3 * (i : ℝ) / 10) := by
  unfold bandStarts linspace
  rw [List.getElem?_map, List.getElem?_range h]
  simp only [Option.map_some, Option.some.injEq]
  push_cast
  ring

theorem bandStarts_length : bandStarts.length = 11 := linspace_length _ _ _

theorem bands_eq (lambertw : Int → ℝ → ℝ) : (dualityBands lambertw).2 = (List.range 10).map fun (i : Nat) =>
    (⟨3 * i / 10, contour lambertw (3 * i / 10), contour lambertw (3 * (i + 1) / 10)⟩ : FilledBand) := by
  unfold dualityBands
  simp only [bandStarts_length, List.length_map]
  refine (List.filterMap_congr (g := fun (i : Nat) => if i < 10 then
        some (⟨3 * i / 10, contour lambertw (3 * i / 10), contour lambertw (3 * (i + 1) / 10)⟩ : FilledBand) else none) ?_).trans ?_
  · intro i hi
    have hi := List.mem_range.mp hi
    by_cases h : i < 10
    · rw [if_pos (by omega), if_pos h, List.getElem?_map, List.getElem?_map, bandStarts_get (by omega), bandStarts_get (by omega)]
      simp
    · rw [if_neg (by omega), if_neg h]
  · simp [List.range_succ]

theorem contour_get {γ x : ℝ} {j : Nat} (hx : dualityAbscissa[j]? = some x) :
    (contour lambertw γ)[j]? = some (parametricOmega lambertw γ x) := by
  unfold contour
  rw [List.getElem?_map, hx]
  rfl

attribute [local irreducible] dualityAbscissa contour

/-- **C116 (what is drawn).** The curves are drawn over the thousand equidistant abscissas from 0 to 3, and the `i`-th coloured curve of
figure A.1 (left) passes through exactly the points with estimate `3i/10`. -/
theorem c116_drawn (hW : SoundLambertW lambertw) :
    dualityAbscissa.length = 1000 ∧ (∀ (j : Nat), j < 1000 → dualityAbscissa[j]? = some (3 * (j : ℝ) / 999)) ∧
    (dualityBands lambertw).1.length = 11 ∧
    ∀ (i : Nat) (v : ℝ) (c : List ℝ), (dualityBands lambertw).1[i]? = some (v, c) → v = 3 * (i : ℝ) / 10 ∧ c.length = 1000 ∧
      ∀ (j : Nat) x, dualityAbscissa[j]? = some x → ∃ w, c[j]? = some w ∧
        (0 < x → 0 < i → x ≠ v → ∀ y, gammaFromParameters x y = some (.fin v) ↔ y = w) ∧ (i = 0 → w = 0) := by
  have hlen : dualityAbscissa.length = 1000 := by unfold dualityAbscissa; exact linspace_length _ _ _
  refine ⟨hlen, fun j hj => ?_, ?_, ?_⟩
  · unfold dualityAbscissa linspace
    rw [List.getElem?_map, List.getElem?_range hj]
    simp only [Option.map_some, Option.some.injEq]
    push_cast
    ring
  · unfold dualityBands
    rw [List.length_zip, List.length_map, bandStarts_length, min_self]
  · intro i v c hc
    unfold dualityBands at hc
    rw [List.getElem?_zip_eq_some] at hc
    obtain ⟨hv, hc⟩ := hc
    have hi : i < 11 := by
      have := (List.getElem?_eq_some_iff.1 hv).1
      rwa [bandStarts_length] at this
    rw [List.getElem?_map, hv, Option.map_some, Option.some.injEq] at hc
    rw [bandStarts_get hi, Option.some.injEq] at hv
    simp only at hv hc
    subst hc
    refine ⟨hv.symm, by unfold contour; rw [List.length_map, hlen], fun j x hx => ⟨_, contour_get hx, ?_, ?_⟩⟩
    · intro h0 hi0 hne y
      have hvpos : 0 < v := by
        rw [← hv]
        have : (0 : ℝ) < i := by exact_mod_cast hi0
        positivity
      exact (c70_duality hW hvpos h0 hne).2.2 y
    · rintro rfl
      rw [← hv]
      simp [parametricOmega]

/-- **C116 (figure A.1, left: colours).** The figure has eleven curves, of the estimates `0, 0.3, …, 3`, and ten bands.  At
every drawn abscissa `x > 0` a point `(x, y)` whose gamma estimate is the number `g` lies in the band of colour `3i/10` exactly if
`3i/10 ≤ g ≤ 3(i+1)/10`. -/
theorem c116_colours (hW : SoundLambertW lambertw) :
    (dualityBands lambertw).1.map Prod.fst = bandStarts ∧ bandStarts.length = 11 ∧
    (∀ (i : Nat), i < 11 → bandStarts[i]? = some (3 * (i : ℝ) / 10)) ∧
    (dualityBands lambertw).2.length = 10 ∧
    ∀ (i : Nat) b, (dualityBands lambertw).2[i]? = some b → b.value = 3 * i / 10 ∧
      ∀ (j : Nat) x, dualityAbscissa[j]? = some x → ∃ lo hi, bandAt b j lo hi ∧
        ∀ y g, gammaFromParameters x y = some (.fin g) → (lo ≤ y ∧ y ≤ hi ↔ 3 * (i : ℝ) / 10 ≤ g ∧ g ≤ 3 * (i + 1) / 10) := by
  refine ⟨?_, bandStarts_length, fun i hi => bandStarts_get hi, by rw [bands_eq]; simp, ?_⟩
  · unfold dualityBands
    simp only
    rw [List.map_fst_zip (by rw [List.length_map])]
  · intro i b hb
    rw [bands_eq, List.getElem?_map] at hb
    obtain ⟨i', hi', rfl⟩ := Option.map_eq_some_iff.mp hb
    obtain rfl : i' = i := by
      obtain ⟨h, he⟩ := List.getElem?_eq_some_iff.mp hi'
      rw [List.getElem_range] at he
      exact he.symm
    refine ⟨rfl, fun j x hx => ⟨_, _, ⟨contour_get hx, contour_get hx⟩, fun y g hg => ?_⟩⟩
    rw [(contour_separates hW (by positivity) hg).1, (contour_separates hW (by positivity) hg).2]

/-- **C116 (figure A.1, left: no gap, no overlap).** At every drawn abscissa `0 < x < 3` the bands are non-empty intervals stacked on
each other, the first starts at the axis and the last ends above the plot: every point of the plot at that abscissa is coloured. -/
theorem c116_stacked (hW : SoundLambertW lambertw) {j : Nat} {x : ℝ} (hx : dualityAbscissa[j]? = some x) (h0 : 0 < x) (h3 : x < 3) :
    ∃ edges : List ℝ, edges.length = 11 ∧ edges.Pairwise (· < ·) ∧ edges[0]? = some 0 ∧ (∃ top, edges[10]? = some top ∧ 3 < top) ∧
      (∀ (i : Nat) b, (dualityBands lambertw).2[i]? = some b → ∃ lo hi, bandAt b j lo hi ∧ edges[i]? = some lo ∧
        edges[i + 1]? = some hi) ∧
      ∀ y, 0 ≤ y → y ≤ 3 → ∃ i : Nat, i < 10 ∧ ∃ lo hi, edges[i]? = some lo ∧ edges[i + 1]? = some hi ∧ lo ≤ y ∧ y < hi := by
  set edges := (List.range 11).map fun (i : Nat) => parametricOmega lambertw (3 * i / 10) x with hE
  have hget : ∀ (i : Nat), i < 11 → edges[i]? = some (parametricOmega lambertw (3 * (i : ℝ) / 10) x) := by
    intro i hi
    rw [hE, List.getElem?_map, List.getElem?_range hi]
    rfl
  have hzero : parametricOmega lambertw (3 * ((0 : Nat) : ℝ) / 10) x = 0 := by
    simp [parametricOmega]
  have htop : 3 < parametricOmega lambertw (3 * ((10 : Nat) : ℝ) / 10) x := by
    have h : (3 * ((10 : Nat) : ℝ) / 10) = 3 := by norm_num
    rw [h]
    exact (c70_duality hW (by norm_num) h0 h3.ne).2.1.mp h3
  refine ⟨edges, by simp [hE], ?_, ?_, ⟨_, hget 10 (by norm_num), htop⟩, ?_, ?_⟩
  · rw [List.pairwise_map]
    refine List.Pairwise.imp ?_ List.pairwise_lt_range
    intro a b hab
    have : (a : ℝ) < b := by exact_mod_cast hab
    exact (c70_bands hW (by positivity) (by linarith) h0).2
  · rw [hget 0 (by norm_num), hzero]
  · intro i b hb
    rw [bands_eq, List.getElem?_map] at hb
    obtain ⟨i', hi', rfl⟩ := Option.map_eq_some_iff.mp hb
    obtain ⟨h, he⟩ := List.getElem?_eq_some_iff.mp hi'
    rw [List.getElem_range] at he
    rw [List.length_range] at h
    subst he
    refine ⟨_, _, ⟨contour_get hx, contour_get hx⟩, hget _ (by omega), ?_⟩
    rw [hget _ (by omega)]
    push_cast
    rfl
  · intro y hy0 hy3
    -- the last edge not above `y`
    have hex : ∃ i : Nat, i ≤ 10 ∧ ¬ parametricOmega lambertw (3 * (i : ℝ) / 10) x ≤ y := ⟨10, le_rfl, not_le.mpr (by linarith)⟩
    classical
    obtain ⟨hk10, hky⟩ := Nat.find_spec hex
    set k := Nat.find hex with hk
    have hk0 : k ≠ 0 := by
      intro h
      rw [h] at hky
      exact hky (by rw [hzero]; exact hy0)
    obtain ⟨l, hl⟩ : ∃ l, k = l + 1 := ⟨k - 1, by omega⟩
    have hmin := Nat.find_min hex (m := l) (by omega)
    refine ⟨l, by omega, _, _, hget l (by omega), hget (l + 1) (by omega), ?_, ?_⟩
    · by_contra h
      exact hmin ⟨by omega, h⟩
    · rw [← hl]
      exact not_le.mp hky

/-- **C116 (figure A.1, right).** The four labelled curves: at every drawn abscissa `x > 0` other than the label `γ`, the curve passes
through the one point whose estimate is `γ`; it crosses the diagonal exactly at `(γ, γ)`; mirrored at the diagonal it is itself. -/
theorem c116_curves (hW : SoundLambertW lambertw) :
    (dualityCurves lambertw).map Prod.fst = [1 / 2, 1, 3 / 2, 2] ∧
    ∀ γ c, (γ, c) ∈ dualityCurves lambertw → ∀ (j : Nat) x, dualityAbscissa[j]? = some x → 0 < x → ∃ v, c[j]? = some v ∧
      (v = x ↔ x = γ) ∧ parametricOmega lambertw γ v = x ∧
      (x ≠ γ → ∀ y, gammaFromParameters x y = some (.fin γ) ↔ y = v) := by
  refine ⟨by simp [dualityCurves, gammaCenters], ?_⟩
  intro γ c hm j x hx h0
  obtain ⟨γ', hγ', he⟩ := List.mem_map.mp hm
  cases he
  have hγ : 0 < γ := by
    unfold gammaCenters at hγ'
    simp only [List.mem_cons, List.not_mem_nil, or_false] at hγ'
    rcases hγ' with rfl | rfl | rfl | rfl <;> norm_num
  refine ⟨_, contour_get hx, ?_⟩
  by_cases h : x = γ
  · subst h
    rw [(c70_diagonal hW h0).1]
    exact ⟨by simp, (c70_diagonal hW h0).1, fun h => absurd rfl h⟩
  · obtain ⟨h1, h2, h3⟩ := c70_duality hW hγ h0 h
    refine ⟨⟨fun he => ?_, fun he => absurd he h⟩, c70_involution hW hγ h0 h, fun _ => h3⟩
    rw [he] at h2
    rcases lt_or_gt_of_ne h with h' | h'
    · linarith [h2.mp h']
    · exact absurd (h2.mpr h') (by linarith)

/-- **C116 (figure A.2).** The band labelled `γ ± 0.1` contains, at every drawn abscissa `x > 0`, exactly those points whose
estimates differ from `γ` by at most 0.1 (among those with an estimate); the curve of `γ` runs strictly inside; the bands do not
overlap. -/
theorem c116_ranges (hW : SoundLambertW lambertw) :
    (dualityRanges lambertw).map (fun r => r.1.value) = [1 / 2, 1, 3 / 2, 2] ∧
    (∀ r ∈ dualityRanges lambertw, ∀ (j : Nat) x, dualityAbscissa[j]? = some x → 0 < x → ∃ lo hi v, bandAt r.1 j lo hi ∧
      r.2[j]? = some v ∧ lo < v ∧ v < hi ∧
      ∀ y g, gammaFromParameters x y = some (.fin g) → (lo ≤ y ∧ y ≤ hi ↔ |g - r.1.value| ≤ 1 / 10)) ∧
    (dualityRanges lambertw).Pairwise fun r s => ∀ (j : Nat) x, dualityAbscissa[j]? = some x → 0 < x →
      ∀ lo hi lo' hi', bandAt r.1 j lo hi → bandAt s.1 j lo' hi' → hi < lo' := by
  refine ⟨by simp [dualityRanges, gammaCenters], ?_, ?_⟩
  · intro r hr j x hx h0
    obtain ⟨γ, hγ', rfl⟩ := List.mem_map.mp hr
    have hγ : 1 / 2 ≤ γ := by
      unfold gammaCenters at hγ'
      simp only [List.mem_cons, List.not_mem_nil, or_false] at hγ'
      rcases hγ' with rfl | rfl | rfl | rfl <;> norm_num
    refine ⟨_, _, _, ⟨contour_get hx, contour_get hx⟩, contour_get hx, (c70_bands hW (by linarith) (by linarith) h0).2,
      (c70_bands hW (by linarith) (by linarith) h0).2, fun y g hg => ?_⟩
    rw [(contour_separates hW (by linarith) hg).1, (contour_separates hW (by linarith) hg).2, abs_le]
    constructor
    · rintro ⟨a, b⟩; constructor <;> linarith
    · rintro ⟨a, b⟩; constructor <;> linarith
  · have key : ∀ γ γ' : ℝ, 0 ≤ γ → γ + 1 / 10 < γ' - 1 / 10 → ∀ (j : Nat) x, dualityAbscissa[j]? = some x → 0 < x →
        ∀ lo hi lo' hi', bandAt ⟨γ, contour lambertw (γ - 1 / 10), contour lambertw (γ + 1 / 10)⟩ j lo hi →
          bandAt ⟨γ', contour lambertw (γ' - 1 / 10), contour lambertw (γ' + 1 / 10)⟩ j lo' hi' → hi < lo' := by
      intro γ γ' h0 hlt j x hx hx0 lo hi lo' hi' hb hb'
      have e1 := hb.2
      have e2 := hb'.1
      rw [contour_get hx] at e1 e2
      rw [← Option.some.inj e1, ← Option.some.inj e2]
      exact (c70_bands hW (by linarith) hlt hx0).2
    unfold dualityRanges
    rw [List.pairwise_map]
    unfold gammaCenters
    simp only [List.pairwise_cons, List.mem_cons, List.not_mem_nil, or_false, forall_eq_or_imp, forall_eq, IsEmpty.forall_iff,
      implies_true, List.Pairwise.nil, and_true]
    refine ⟨⟨?_, ?_, ?_⟩, ⟨?_, ?_⟩, ?_⟩ <;> exact key _ _ (by norm_num) (by norm_num)

/-- The abscissas: the hypotheses are met at 998 of them. -/
example : ∀ (j : Nat), 1 ≤ j → j < 999 → ∃ x, dualityAbscissa[j]? = some x ∧ 0 < x ∧ x < 3 := by
  intro j h1 h2
  have hj : (1 : ℝ) ≤ j := by exact_mod_cast h1
  have hj' : (j : ℝ) < 999 := by exact_mod_cast h2
  refine ⟨3 * j / 999, ?_, by positivity, by rw [div_lt_iff₀ (by norm_num)]; linarith⟩
  unfold dualityAbscissa linspace
  rw [List.getElem?_map, List.getElem?_range (by omega)]
  simp only [Option.map_some, Option.some.injEq]
  push_cast
  ring

end Verif.Props
