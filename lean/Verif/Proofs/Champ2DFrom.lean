import Verif.Model.Rounded
import Verif.Proofs.Champ2DMore

/-! # The part of `CHAMP_2D` after the coefficients, for any coefficients -/

namespace Verif
open Spec Props

variable {α : Type} [DecidableEq α]

/-- Everything a successful run says, in terms of positions `keys`. -/
theorem champ2DFrom_facts {env : ChampEnv} (hq : ExactQhull env.qhull) {parts : List (List α)} {A P : List ℝ}
    {L : List (ℝ × ℝ)} (hzip : A.zip P = L) (hlen : L.length = parts.length) (hPnn : ∀ ap ∈ L, 0 ≤ ap.2) {γ₀ γf : ℝ}
    {ranges : List (ℝ × ℝ × List α)} (h : champ2DFrom env parts A P γ₀ γf = (some (.ok ranges) : Option _)) :
    γ₀ < γf ∧ ∃ (keys : List Nat) (lo hi : Nat → ℝ) (part : Nat → List α) (coef : Nat → ℝ × ℝ),
      keys.Nodup ∧ ranges = pySortedBy (fun r => r.1) (keys.map fun j => (lo j, hi j, part j)) ∧
      (∀ j ∈ keys, parts[j]? = some (part j) ∧ L[j]? = some (coef j) ∧ lo j < hi j ∧
        ∀ γ, (lo j ≤ γ ∧ γ ≤ hi j) ↔
          (γ₀ ≤ γ ∧ γ ≤ γf) ∧ ∀ ap ∈ L, ap.1 - ap.2 * γ ≤ (coef j).1 - (coef j).2 * γ) ∧
      (∀ j ∈ keys, ∀ k ∈ keys, j ≠ k → coef j ≠ coef k) ∧
      ∀ γ, γ₀ < γ → γ < γf → ∃ j ∈ keys, ∀ ap ∈ L, ap.1 - ap.2 * γ ≤ (coef j).1 - (coef j).2 * γ := by
  unfold champ2DFrom at h
  rw [Run.bind_ok] at h
  obtain ⟨hs, hhs, h⟩ := h
  rw [Run.bind_ok] at h
  obtain ⟨x, hx, h⟩ := h
  rw [Run.bind_ok] at h
  obtain ⟨V', hV', h⟩ := h
  rw [Run.bind_ok] at h
  obtain ⟨rs, hrs, h⟩ := h
  have h : pySortedBy (fun r => r.1) rs = ranges := by
    injection Option.some.inj h
  rw [Run.ofPy_ok] at hhs hV' hrs
  unfold champ2DHalfspaces at hhs
  rw [hzip, Py.bind_ok] at hhs
  obtain ⟨top, htop, hhs⟩ := hhs
  rw [Py.bind_ok] at hhs
  obtain ⟨bottom, hbot, hhs⟩ := hhs
  have hhs : hsArray2D L top bottom γ₀ γf = hs := by injection hhs
  subst hhs
  rw [pyMax_ok] at htop
  rw [pyMin_ok] at hbot
  have htop1 : ∀ ap ∈ L, ap.1 - ap.2 * γ₀ ≤ top := fun ap hap => htop.2 _ (List.mem_map.mpr ⟨ap, hap, rfl⟩)
  have htop2 : ∃ ap ∈ L, ap.1 - ap.2 * γ₀ = top := by
    obtain ⟨ap, h1, h2⟩ := List.mem_map.mp htop.1; exact ⟨ap, h1, h2⟩
  have hbot1 : ∀ ap ∈ L, bottom ≤ ap.1 - ap.2 * γf := fun ap hap => hbot.2 _ (List.mem_map.mpr ⟨ap, hap, rfl⟩)
  have hint := c13_returned_point_is_interior _ _ _ _ _ _ hx
  have hint : ∀ h ∈ hsArray2D L top bottom γ₀ γf, h.eval x < 0 := hint
  obtain ⟨V, J, hVq, hV⟩ := hq 2 _ x hint hsArray2D_bounded
  rw [hVq, requireFinitePoints_some] at hV'
  have hV' : V = V' := by injection hV'
  subst hV'
  obtain ⟨keys, hknd, hkmem, hfac⟩ := facets_eq hV (vertsOf_ne_nil hV hsArray2D_bounded hint) parts.length
  -- per key data
  have hkey : ∀ j ∈ keys, ∃ (l u : ℝ) (c : List α) (ap : ℝ × ℝ), parts[j]? = some c ∧ L[j]? = some ap ∧ l < u ∧
      rangeOf parts (j, vertsOf V j) = .ok (l, u, c) ∧
      ∀ γ, (l ≤ γ ∧ γ ≤ u) ↔ (γ₀ ≤ γ ∧ γ ≤ γf) ∧ ∀ ap' ∈ L, ap'.1 - ap'.2 * γ ≤ ap.1 - ap.2 * γ := by
    intro j hj
    obtain ⟨hjJ, hjn⟩ := (hkmem j).mp hj
    have hc : parts[j]? = some parts[j] := List.getElem?_eq_getElem hjn
    have hap : L[j]? = some (L[j]'(hlen ▸ hjn)) := List.getElem?_eq_getElem _
    obtain ⟨v, w, hvw, hne0, hiff⟩ := facet2D hV hint hjJ hap
    refine ⟨min (v 0) (w 0), max (v 0) (w 0), parts[j], _, hc, hap, ?_, ?_, ?_⟩
    · rcases lt_or_gt_of_ne hne0 with h | h
      · rw [min_eq_left h.le, max_eq_right h.le]; exact h
      · rw [min_eq_right h.le, max_eq_left h.le]; exact h
    · unfold rangeOf
      simp only [hvw]
      have e1 : pyGet [v, w] 0 = .ok v := rfl
      have e2 : pyGet [v, w] 1 = .ok w := rfl
      have e3 : pyGet parts j = .ok parts[j] := by unfold pyGet; rw [hc]
      rw [e1, e2, e3]
      show Except.ok _ = _
      by_cases hgt : v 0 > w 0
      · rw [if_pos hgt, min_eq_right hgt.le, max_eq_left hgt.le]
      · rw [if_neg hgt]
        push Not at hgt
        rw [min_eq_left hgt, max_eq_right hgt]
    · intro γ
      rw [hiff γ, optimal_iff_poly hPnn htop1 hbot1 (List.mem_of_getElem? hap)]
  choose! lo hi part coef hkp hkc hlt hro hopt using hkey
  have hmapM : (keys.map fun j => (j, vertsOf V j)).mapM (rangeOf parts) =
      .ok (keys.map fun j => (lo j, hi j, part j)) := by
    have : ∀ ks : List Nat, (∀ j ∈ ks, j ∈ keys) → (ks.map fun j => (j, vertsOf V j)).mapM (rangeOf parts) =
      .ok (ks.map fun j => (lo j, hi j, part j)) := by
      intro ks
      induction ks with
      | nil => intro _; rfl
      | cons a ks ih =>
        intro hsub
        rw [List.map_cons, List.mapM_cons, hro a (hsub a (by simp)), ih fun j hj => hsub j (List.mem_cons_of_mem _ hj)]
        rfl
    exact this keys fun _ h => h
  rw [hfac, hmapM] at hrs
  cases hrs
  obtain ⟨hi1, hi2, hi3, hi4, hi5⟩ := interior2D.mp hint
  refine ⟨hi5.trans hi4, keys, lo, hi, part, coef, hknd, h.symm, fun j hj => ⟨hkp j hj, hkc j hj, hlt j hj, hopt j hj⟩, ?_, ?_⟩
  · intro j hj k hk hjk e
    refine coefs_distinct hV ((hkmem j).mp hj).1 ((hkmem k).mp hk).1 hjk (hkc j hj) ?_
    rw [hkc k hk, e]
  · intro γ hγ1 hγ2
    obtain ⟨j, hjJ, ap, hjL, hmax⟩ := cover2D hV hint hPnn htop1 htop2 hbot1 hγ1 hγ2
    have hjn : j < parts.length := by
      rw [← hlen]; exact (List.getElem?_eq_some_iff.mp hjL).1
    have hjk : j ∈ keys := (hkmem j).mpr ⟨hjJ, hjn⟩
    refine ⟨j, hjk, ?_⟩
    rw [hkc j hjk] at hjL
    cases hjL
    exact hmax

/-- The ranges tile the window. -/
theorem champ2DFrom_tiling {env : ChampEnv} (hq : ExactQhull env.qhull) {parts : List (List α)} {A P : List ℝ}
    {L : List (ℝ × ℝ)} (hzip : A.zip P = L) (hlen : L.length = parts.length) (hPnn : ∀ ap ∈ L, 0 ≤ ap.2) {γ₀ γf : ℝ}
    {ranges : List (ℝ × ℝ × List α)} (h : champ2DFrom env parts A P γ₀ γf = (some (.ok ranges) : Option _)) :
    (ranges.head?.map fun r => r.1) = some γ₀ ∧ (ranges.getLast?.map fun r => r.2.1) = some γf ∧
      ranges.IsChain (fun r s => r.2.1 = s.1) ∧ ranges.Pairwise fun r s => r.2.1 ≤ s.1 := by
  obtain ⟨hγ, keys, lo, hi, part, coef, hnd, hr, hk, hdist, hcov⟩ := champ2DFrom_facts hq hzip hlen hPnn h
  set l := keys.map fun j => (lo j, hi j, part j) with hl
  have hperm : ranges.Perm l := by rw [hr]; exact List.perm_insertionSort _ l
  have hsorted : ranges.Pairwise fun r s => r.1 ≤ s.1 := by
    rw [hr]
    exact pySortedBy_pairwise (fun r : ℝ × ℝ × List α => r.1) l
  have hlt : ∀ r ∈ ranges, r.1 < r.2.1 := by
    intro r hr'
    obtain ⟨j, hj, rfl⟩ := List.mem_map.mp (hperm.mem_iff.mp hr')
    exact (hk j hj).2.2.1
  have hin : ∀ r ∈ ranges, γ₀ ≤ r.1 ∧ r.2.1 ≤ γf := by
    intro r hr'
    obtain ⟨j, hj, rfl⟩ := List.mem_map.mp (hperm.mem_iff.mp hr')
    obtain ⟨-, -, h1, h2⟩ := hk j hj
    exact ⟨((h2 (lo j)).mp ⟨le_refl _, h1.le⟩).1.1, ((h2 (hi j)).mp ⟨h1.le, le_refl _⟩).1.2⟩
  have hdisj : l.Pairwise fun r s => r.2.1 ≤ s.1 ∨ s.2.1 ≤ r.1 := by
    rw [hl, List.pairwise_map]
    refine (List.Pairwise.imp_of_mem ?_ hnd)
    intro j k hj hk' hjk
    by_contra hc
    push Not at hc
    obtain ⟨c1, c2⟩ := hc
    simp only at c1 c2
    obtain ⟨-, p1, l1, o1⟩ := hk j hj
    obtain ⟨-, p2, l2, o2⟩ := hk k hk'
    have hmj : coef j ∈ L := List.mem_of_getElem? p1
    have hmk : coef k ∈ L := List.mem_of_getElem? p2
    -- overlap [x, y]
    set x := max (lo j) (lo k) with hx
    set y := min (hi j) (hi k) with hy
    have hxy : x < y := by
      rw [hx, hy, max_lt_iff, lt_min_iff, lt_min_iff]
      exact ⟨⟨l1, c2⟩, ⟨c1, l2⟩⟩
    have eq : ∀ γ, x ≤ γ → γ ≤ y → (coef j).1 - (coef j).2 * γ = (coef k).1 - (coef k).2 * γ := by
      intro γ g1 g2
      have i1 := (o1 γ).mp ⟨(le_max_left _ _).trans g1, g2.trans (min_le_left _ _)⟩
      have i2 := (o2 γ).mp ⟨(le_max_right _ _).trans g1, g2.trans (min_le_right _ _)⟩
      exact le_antisymm (i2.2 _ hmj) (i1.2 _ hmk)
    have e1 := eq x (le_refl _) hxy.le
    have e2 := eq y hxy.le (le_refl _)
    have e3 := eq ((x + y) / 2) (by linarith) (by linarith)
    obtain ⟨s1, s2⟩ := same_of_touch (a := (coef k).1) (p := (coef k).2)
      (a' := (coef j).1) (p' := (coef j).2) (l := x) (u := y) (γ := (x + y) / 2)
      (by linarith) (by linarith) (by linarith) (by linarith) (by linarith)
    exact hdist j hj k hk' hjk (Prod.ext s1 s2)
  have hdisj' : ranges.Pairwise fun r s => r.2.1 ≤ s.1 ∨ s.2.1 ≤ r.1 :=
    (hperm.pairwise_iff (fun {r s} h => Or.symm h)).mpr hdisj
  have hpw : ranges.Pairwise fun r s => r.2.1 ≤ s.1 := by
    have := List.pairwise_and_iff.mpr ⟨hsorted, hdisj'⟩
    refine List.Pairwise.imp_of_mem ?_ this
    rintro r s hr' hs' ⟨h1, h2 | h2⟩
    · exact h2
    · have := hlt s hs'; linarith
  obtain ⟨t1, t2, t3⟩ := tiling ranges hγ hlt hin hpw (by
    intro γ g1 g2
    obtain ⟨j, hj, hopt⟩ := hcov γ g1 g2
    have := ((hk j hj).2.2.2 γ).mpr ⟨⟨g1.le, g2.le⟩, hopt⟩
    exact ⟨_, hperm.mem_iff.mpr (List.mem_map.mpr ⟨j, hj, rfl⟩), this⟩)
  exact ⟨t1, t2, t3, hpw⟩

/-- It returns if and only if the polygon has an interior point. -/
theorem champ2DFrom_run {env : ChampEnv} (he : ExactEnv env) {parts : List (List α)} {A P : List ℝ}
    {L : List (ℝ × ℝ)} (hzip : A.zip P = L) (hlen : L.length = parts.length) {γ₀ γf : ℝ}
    {top bottom : ℝ} (htop : pyMax (L.map fun ap => ap.1 - ap.2 * γ₀) = .ok top)
    (hbot : pyMin (L.map fun ap => ap.1 - ap.2 * γf) = .ok bottom) :
    ((∃ x, ∀ h ∈ hsArray2D L top bottom γ₀ γf, h.eval x < 0) →
      ∃ ranges, champ2DFrom env parts A P γ₀ γf = (some (.ok ranges) : Option _)) ∧
    ((¬ ∃ x, ∀ h ∈ hsArray2D L top bottom γ₀ γf, h.eval x < 0) →
      ∃ msg, champ2DFrom env parts A P γ₀ γf = (some (.error (.valueError msg)) : Option _)) := by
  have hhs : champ2DHalfspaces A P γ₀ γf = .ok (hsArray2D L top bottom γ₀ γf) := by
    unfold champ2DHalfspaces
    rw [hzip, htop, hbot]
    rfl
  have key := c15_exact_solver (Or.inl rfl) (he.linprog 2) he.sample (hs := hsArray2D L top bottom γ₀ γf)
    hsArray2D_normals (box_row _ _ _ _ _) (initial := defaultInitial) (limit := defaultRetryLimit)
    (fuel := defaultFuel (hsArray2D L top bottom γ₀ γf).length) (by decide) (le_refl _)
  have hstep : champ2DFrom env parts A P γ₀ γf = (do
      let hs := hsArray2D L top bottom γ₀ γf
      let x ← getInteriorPoint env.sample (env.linprog 2) hs defaultInitial defaultRetryLimit (defaultFuel hs.length)
      let out ← Run.ofPy (requireFinitePoints (env.qhull 2 hs x))
      let ranges ← Run.ofPy ((facetsByHalfspace parts.length out).mapM (rangeOf parts))
      return pySortedBy (fun r => r.1) ranges : Run (List (ℝ × ℝ × List α))) := by
    unfold champ2DFrom
    rw [hhs]
    rfl
  constructor
  · intro hex
    obtain ⟨x, hx⟩ := key.1 hex
    have hint : ∀ h ∈ hsArray2D L top bottom γ₀ γf, h.eval x < 0 := c13_returned_point_is_interior _ _ _ _ _ _ hx
    obtain ⟨V, J, hVq, hV⟩ := he.qhull 2 _ x hint hsArray2D_bounded
    obtain ⟨keys, hknd, hkmem, hfac⟩ := facets_eq hV (vertsOf_ne_nil hV hsArray2D_bounded hint) parts.length
    have hmapM : ∃ rs, (keys.map fun j => (j, vertsOf V j)).mapM (rangeOf parts) = .ok rs := by
      have : ∀ ks : List Nat, (∀ j ∈ ks, j ∈ keys) → ∃ rs, (ks.map fun j => (j, vertsOf V j)).mapM (rangeOf parts) =
        .ok rs := by
        intro ks
        induction ks with
        | nil => intro _; exact ⟨[], rfl⟩
        | cons a ks ih =>
          intro hsub
          obtain ⟨rs, hrs⟩ := ih fun j hj => hsub j (List.mem_cons_of_mem _ hj)
          obtain ⟨hjJ, hjn⟩ := (hkmem a).mp (hsub a (by simp))
          have hc : parts[a]? = some parts[a] := List.getElem?_eq_getElem hjn
          obtain ⟨v, w, hvw, -, -⟩ := facet2D hV hint hjJ (List.getElem?_eq_getElem (l := L) (hlen ▸ hjn))
          have : ∃ r, rangeOf parts (a, vertsOf V a) = .ok r := by
            unfold rangeOf
            rw [hvw]
            have e1 : pyGet [v, w] 0 = .ok v := rfl
            have e2 : pyGet [v, w] 1 = .ok w := rfl
            have e3 : pyGet parts a = .ok parts[a] := by unfold pyGet; rw [hc]
            simp only [e1, e2, e3]
            exact ⟨_, rfl⟩
          obtain ⟨r, hr⟩ := this
          refine ⟨r :: rs, ?_⟩
          rw [List.map_cons, List.mapM_cons, hr, hrs]; rfl
      exact this keys fun _ h => h
    obtain ⟨rs, hrs⟩ := hmapM
    refine ⟨pySortedBy (fun r => r.1) rs, ?_⟩
    rw [hstep, Run.bind_ok]
    refine ⟨x, hx, ?_⟩
    rw [Run.bind_ok]
    refine ⟨V, by rw [Run.ofPy_ok, hVq, requireFinitePoints_some], ?_⟩
    rw [Run.bind_ok]
    exact ⟨rs, by rw [Run.ofPy_ok, hfac, hrs], rfl⟩
  · intro hno
    obtain ⟨msg, hmsg⟩ := key.2 hno
    refine ⟨msg, ?_⟩
    rw [hstep]
    show (getInteriorPoint _ _ _ _ _ _ >>= _) = _
    rw [hmsg]; rfl

end Verif
