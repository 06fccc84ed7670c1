import Mathlib.Data.List.Chain
import Verif.Spec.Env
import Verif.Proofs.Champ2DRun

namespace Verif
open Spec Props

/-- Sorted, non-overlapping intervals covering an open interval tile it. -/
theorem tiling {β : Type} (l : List (ℝ × ℝ × β)) {a b : ℝ} (hab : a < b) (hlt : ∀ r ∈ l, r.1 < r.2.1)
    (hin : ∀ r ∈ l, a ≤ r.1 ∧ r.2.1 ≤ b) (hpw : l.Pairwise fun r s => r.2.1 ≤ s.1)
    (hcov : ∀ γ, a < γ → γ < b → ∃ r ∈ l, r.1 ≤ γ ∧ γ ≤ r.2.1) :
    (l.head?.map fun r => r.1) = some a ∧ (l.getLast?.map fun r => r.2.1) = some b ∧
      l.IsChain fun r s => r.2.1 = s.1 := by
  induction l generalizing a with
  | nil =>
    obtain ⟨r, hr, -⟩ := hcov ((a + b) / 2) (by linarith) (by linarith)
    simp at hr
  | cons r rest ih =>
    have hr := hlt r (by simp)
    obtain ⟨hr1, hr2⟩ := hin r (by simp)
    rw [List.pairwise_cons] at hpw
    have hhead : r.1 = a := by
      by_contra hne
      have hgt : a < r.1 := lt_of_le_of_ne hr1 (Ne.symm hne)
      obtain ⟨s, hs, hs1, hs2⟩ := hcov ((a + r.1) / 2) (by linarith) (by linarith)
      rcases List.mem_cons.mp hs with rfl | hs
      · linarith
      · have := hpw.1 s hs; linarith
    refine ⟨by simp [hhead], ?_⟩
    cases rest with
    | nil =>
      refine ⟨?_, List.IsChain.singleton _⟩
      simp only [List.getLast?_singleton, Option.map_some, Option.some.injEq]
      by_contra hne
      have hgt : r.2.1 < b := lt_of_le_of_ne hr2 hne
      obtain ⟨s, hs, hs1, hs2⟩ := hcov ((r.2.1 + b) / 2) (by linarith) (by linarith)
      rw [List.mem_singleton] at hs
      subst hs
      linarith
    | cons s rest =>
      have hs := hpw.1 s (by simp)
      have hs' := hlt s (by simp)
      have hs'' := hin s (by simp)
      obtain ⟨h1, h2, h3⟩ := ih (a := r.2.1) (by linarith) (fun t ht => hlt t (List.mem_cons_of_mem _ ht))
        (fun t ht => ⟨hpw.1 t ht, (hin t (List.mem_cons_of_mem _ ht)).2⟩) hpw.2 (by
          intro γ hγ1 hγ2
          obtain ⟨t, ht, ht1, ht2⟩ := hcov γ (by linarith) hγ2
          rcases List.mem_cons.mp ht with rfl | ht
          · linarith
          · exact ⟨t, ht, ht1, ht2⟩)
      refine ⟨?_, ?_⟩
      · rw [List.getLast?_cons_cons]; exact h2
      · rw [List.isChain_cons_cons]
        simp only [List.head?_cons, Option.map_some, Option.some.injEq] at h1
        exact ⟨h1.symm, h3⟩

variable {α : Type} [DecidableEq α]

theorem modularity_affine (G : Graph ℝ) (c : List α) (γ : ℝ) :
    modularity G γ c = withinAdj G c - γ * withinNull G c := by rw [modularity_eq]

/-- optimal at both ends of an interval and not strictly better inside ⇒ same coefficients -/
theorem same_of_touch {a p a' p' l u γ : ℝ} (hl : a' - l * p' ≤ a - l * p) (hu : a' - u * p' ≤ a - u * p)
    (h1 : l < γ) (h2 : γ < u) (ht : a - γ * p ≤ a' - γ * p') : a' = a ∧ p' = p := by
  have hp : p' = p := by
    have e1 : (γ - l) * (p' - p) ≤ 0 := by linarith
    have e2 : 0 ≤ (u - γ) * (p' - p) := by linarith
    have e3 : p' - p ≤ 0 := nonpos_of_mul_nonpos_right e1 (by linarith)
    have e4 : 0 ≤ p' - p := nonneg_of_mul_nonneg_right e2 (by linarith)
    linarith
  refine ⟨?_, hp⟩
  subst hp
  linarith

/-- The tiling facts for a successful call. -/
theorem champ2D_tiling {env : ChampEnv} (he : SoundEnv env) {G : Graph ℝ} (hG : G.WF) {parts : List (List α)}
    (hp : ∀ c ∈ parts, c.length = G.vcount) (hne : parts ≠ []) {γ₀ γf : ℝ} {st : Bool}
    {ranges : List (ℝ × ℝ × List α)}
    (h : champ2D env G parts γ₀ γf st = (some (.ok ranges) : Option _)) :
    (ranges.head?.map fun r => r.1) = some γ₀ ∧ (ranges.getLast?.map fun r => r.2.1) = some γf ∧
      ranges.IsChain (fun r s => r.2.1 = s.1) ∧ ranges.Pairwise fun r s => r.2.1 ≤ s.1 := by
  obtain ⟨hγ, -, keys, lo, hi, part, hnd, hr, hk, hdist, hcov⟩ :=
    champ2D_facts he.qhull hG hp hne (Or.inr ⟨he.rounding, he.sched⟩) h
  set l := keys.map fun j => (lo j, hi j, part j) with hl
  have hperm : ranges.Perm l := by rw [hr]; exact List.perm_insertionSort _ l
  have hsorted : ranges.Pairwise fun r s => r.1 ≤ s.1 := by
    rw [hr]
    exact pySortedBy_pairwise (fun r : ℝ × ℝ × List α => r.1) l
  have hlt : ∀ r ∈ ranges, r.1 < r.2.1 := by
    intro r hr'
    obtain ⟨j, hj, rfl⟩ := List.mem_map.mp (hperm.mem_iff.mp hr')
    exact (hk j hj).2.1
  have hin : ∀ r ∈ ranges, γ₀ ≤ r.1 ∧ r.2.1 ≤ γf := by
    intro r hr'
    obtain ⟨j, hj, rfl⟩ := List.mem_map.mp (hperm.mem_iff.mp hr')
    obtain ⟨-, h1, h2⟩ := hk j hj
    exact ⟨((h2 (lo j)).mp ⟨le_refl _, h1.le⟩).1.1, ((h2 (hi j)).mp ⟨h1.le, le_refl _⟩).1.2⟩
  have hdisj : l.Pairwise fun r s => r.2.1 ≤ s.1 ∨ s.2.1 ≤ r.1 := by
    rw [hl, List.pairwise_map]
    refine (List.Pairwise.imp_of_mem ?_ hnd)
    intro j k hj hk' hjk
    by_contra hc
    push Not at hc
    obtain ⟨c1, c2⟩ := hc
    simp only at c1 c2
    obtain ⟨p1, l1, o1⟩ := hk j hj
    obtain ⟨p2, l2, o2⟩ := hk k hk'
    have hmj : part j ∈ parts := List.mem_of_getElem? p1
    have hmk : part k ∈ parts := List.mem_of_getElem? p2
    -- overlap [x, y]
    set x := max (lo j) (lo k) with hx
    set y := min (hi j) (hi k) with hy
    have hxy : x < y := by
      rw [hx, hy, max_lt_iff, lt_min_iff, lt_min_iff]
      exact ⟨⟨l1, c2⟩, ⟨c1, l2⟩⟩
    have eq : ∀ γ, x ≤ γ → γ ≤ y → modularity G γ (part j) = modularity G γ (part k) := by
      intro γ g1 g2
      have i1 := (o1 γ).mp ⟨(le_max_left _ _).trans g1, g2.trans (min_le_left _ _)⟩
      have i2 := (o2 γ).mp ⟨(le_max_right _ _).trans g1, g2.trans (min_le_right _ _)⟩
      exact le_antisymm (i2.2 _ hmj) (i1.2 _ hmk)
    have e1 := eq x (le_refl _) hxy.le
    have e2 := eq y hxy.le (le_refl _)
    have e3 := eq ((x + y) / 2) (by linarith) (by linarith)
    simp only [modularity_affine] at e1 e2 e3
    obtain ⟨s1, s2⟩ := same_of_touch (a := withinAdj G (part k)) (p := withinNull G (part k))
      (a' := withinAdj G (part j)) (p' := withinNull G (part j)) (l := x) (u := y) (γ := (x + y) / 2)
      e1.le e2.le (by linarith) (by linarith) e3.ge
    exact hdist j hj k hk' hjk ⟨s1, s2⟩
  have hdisj' : ranges.Pairwise fun r s => r.2.1 ≤ s.1 ∨ s.2.1 ≤ r.1 :=
    (hperm.pairwise_iff (fun {r s} h => Or.symm h)).mpr hdisj
  have hpw : ranges.Pairwise fun r s => r.2.1 ≤ s.1 := by
    have := List.pairwise_and_iff.mpr ⟨hsorted, hdisj'⟩
    refine List.Pairwise.imp_of_mem ?_ this
    rintro r s hr' hs' ⟨h1, h2 | h2⟩
    · exact h2
    · have := hlt s hs'; linarith
  obtain ⟨t1, t2, t3⟩ := tiling ranges hγ hlt hin hpw (by
    intro γ g1 g2
    obtain ⟨j, hj, hopt⟩ := hcov γ g1 g2
    have := ((hk j hj).2.2 γ).mpr ⟨⟨g1.le, g2.le⟩, hopt⟩
    exact ⟨_, hperm.mem_iff.mpr (List.mem_map.mpr ⟨j, hj, rfl⟩), this⟩)
  exact ⟨t1, t2, t3, hpw⟩

theorem lastRows_hsArray2D (L : List (ℝ × ℝ)) (top bottom γ₀ γf : ℝ) :
    lastRows (hsArray2D L top bottom γ₀ γf) = (boundaries2D top bottom γ₀ γf).map HS.normalise := by
  unfold lastRows hsArray2D
  rw [List.map_append, if_pos rfl]
  rw [List.drop_append_of_le_length (by simp [boundaries2D])]
  rw [List.drop_eq_nil_of_le (by simp [boundaries2D]), List.nil_append]

theorem serial_to_driver {env : ChampEnv} (he : SoundEnv env) {G : Graph ℝ} {parts : List (List α)} {st : Bool}
    {v : List ℝ × List (Fl ℝ)} (h : partitionCoefficients2DSerial G parts = .ok v) :
    partitionCoefficients2D env.rnd env.cpu env.sched G parts st = some (.ok v) := by
  obtain ⟨r, hr, hiff⟩ := c11_parallel_2D he.rounding he.sched G parts st
  rw [hr, (hiff v).mpr h]

theorem box_row (top bottom γ₀ γf : ℝ) (L : List (ℝ × ℝ)) :
    ∃ h ∈ lastRows (hsArray2D L top bottom γ₀ γf), ∃ h' ∈ lastRows (hsArray2D L top bottom γ₀ γf), ∃ c > 0,
      ∀ k, h'.normal k = -(c * h.normal k) := by
  rw [lastRows_hsArray2D]
  set h₁ : HS 2 := ⟨![0, 1], -top⟩ with hh₁
  set h₂ : HS 2 := ⟨![0, -1], bottom⟩ with hh₂
  have n₁ : h₁.normal ≠ 0 := by intro h; have := congrFun h 1; simp [hh₁] at this
  have n₂ : h₂.normal ≠ 0 := by intro h; have := congrFun h 1; simp [hh₂] at this
  have p₁ := rowNorm_pos n₁
  have p₂ := rowNorm_pos n₂
  refine ⟨h₁.normalise, List.mem_map.mpr ⟨h₁, by simp [boundaries2D, hh₁], rfl⟩, h₂.normalise,
    List.mem_map.mpr ⟨h₂, by simp [boundaries2D, hh₂], rfl⟩, h₁.rowNorm / h₂.rowNorm, div_pos p₁ p₂, ?_⟩
  intro k
  have : h₂.normal k = -h₁.normal k := by fin_cases k <;> simp [hh₁, hh₂]
  unfold HS.normalise
  simp only [this]
  field_simp

/-- what the call does after the coefficients are known -/
theorem champ2D_from_coefs {env : ChampEnv} (he : ExactEnv env) {G : Graph ℝ} (hG : G.WF) (hm : 0 < G.ecount)
    {parts : List (List α)} (hp : ∀ c ∈ parts, c.length = G.vcount) (hne : parts ≠ []) {γ₀ γf : ℝ} {st : Bool}
    {top bottom : ℝ} (htop : pyMax ((coefs2D G parts).map fun ap => ap.1 - ap.2 * γ₀) = .ok top)
    (hbot : pyMin ((coefs2D G parts).map fun ap => ap.1 - ap.2 * γf) = .ok bottom) :
    ((∃ x, ∀ h ∈ hsArray2D (coefs2D G parts) top bottom γ₀ γf, h.eval x < 0) →
      ∃ ranges, champ2D env G parts γ₀ γf st = (some (.ok ranges) : Option _)) ∧
    ((¬ ∃ x, ∀ h ∈ hsArray2D (coefs2D G parts) top bottom γ₀ γf, h.eval x < 0) →
      ∃ msg, champ2D env G parts γ₀ γf st = (some (.error (.valueError msg)) : Option _)) := by
  have hser := coefficients2D_ok hG hm hp
  have hdrv := serial_to_driver he.toSoundEnv (st := st) hser
  have hfin : requireFinite (parts.map fun c => Fl.fin (withinNull G c)) = .ok (parts.map (withinNull G)) := by
    rw [requireFinite_ok, List.map_map]; rfl
  have hlen : parts.length ≠ 0 := fun h0 => hne (List.length_eq_zero_iff.mp h0)
  set L := coefs2D G parts with hL
  have hhs : champ2DHalfspaces (parts.map (withinAdj G)) (parts.map (withinNull G)) γ₀ γf =
      .ok (hsArray2D L top bottom γ₀ γf) := by
    unfold champ2DHalfspaces
    have : (parts.map (withinAdj G)).zip (parts.map (withinNull G)) = L := by rw [List.zip_map']; rfl
    rw [this, htop, hbot]
    rfl
  have key := c15_exact_solver (Or.inl rfl) (he.linprog 2) he.sample (hs := hsArray2D L top bottom γ₀ γf)
    hsArray2D_normals (box_row _ _ _ _ _) (initial := defaultInitial) (limit := defaultRetryLimit)
    (fuel := defaultFuel (hsArray2D L top bottom γ₀ γf).length) (by decide) (le_refl _)
  have hstep : champ2D env G parts γ₀ γf st = (do
      let hs := hsArray2D L top bottom γ₀ γf
      let x ← getInteriorPoint env.sample (env.linprog 2) hs defaultInitial defaultRetryLimit (defaultFuel hs.length)
      let out ← Run.ofPy (requireFinitePoints (env.qhull 2 hs x))
      let ranges ← Run.ofPy ((facetsByHalfspace parts.length out).mapM (rangeOf parts))
      return pySortedBy (fun r => r.1) ranges : Run (List (ℝ × ℝ × List α))) := by
    unfold champ2D
    rw [if_neg hlen, hdrv]
    simp only
    show (Run.ofPy (requireFinite _) >>= _) = _
    have e1 : requireFinite (parts.map (fun c => Fl.fin (withinNull G c))) = .ok (parts.map (withinNull G)) := hfin
    rw [e1]
    show (Run.ofPy (champ2DHalfspaces _ _ _ _) >>= _) = _
    rw [hhs]
    rfl
  constructor
  · intro hex
    obtain ⟨x, hx⟩ := key.1 hex
    have hint : ∀ h ∈ hsArray2D L top bottom γ₀ γf, h.eval x < 0 := c13_returned_point_is_interior _ _ _ _ _ _ hx
    obtain ⟨V, J, hVq, hV⟩ := he.qhull 2 _ x hint hsArray2D_bounded
    obtain ⟨keys, hknd, hkmem, hfac⟩ := facets_eq hV (vertsOf_ne_nil hV hsArray2D_bounded hint) parts.length
    have hmapM : ∃ rs, (keys.map fun j => (j, vertsOf V j)).mapM (rangeOf parts) = .ok rs := by
      have : ∀ ks : List Nat, (∀ j ∈ ks, j ∈ keys) → ∃ rs, (ks.map fun j => (j, vertsOf V j)).mapM (rangeOf parts) =
        .ok rs := by
        intro ks
        induction ks with
        | nil => intro _; exact ⟨[], rfl⟩
        | cons a ks ih =>
          intro hsub
          obtain ⟨rs, hrs⟩ := ih fun j hj => hsub j (List.mem_cons_of_mem _ hj)
          obtain ⟨hjJ, hjn⟩ := (hkmem a).mp (hsub a (by simp))
          have hc : parts[a]? = some parts[a] := List.getElem?_eq_getElem hjn
          obtain ⟨v, w, hvw, -, -⟩ := facet2D hV hint hjJ (ap := (withinAdj G parts[a], withinNull G parts[a]))
            (by rw [hL, coefs2D, List.getElem?_map, hc]; rfl)
          have : ∃ r, rangeOf parts (a, vertsOf V a) = .ok r := by
            unfold rangeOf
            rw [hvw]
            have e1 : pyGet [v, w] 0 = .ok v := rfl
            have e2 : pyGet [v, w] 1 = .ok w := rfl
            have e3 : pyGet parts a = .ok parts[a] := by unfold pyGet; rw [hc]
            simp only [e1, e2, e3]
            exact ⟨_, rfl⟩
          obtain ⟨r, hr⟩ := this
          refine ⟨r :: rs, ?_⟩
          rw [List.map_cons, List.mapM_cons, hr, hrs]; rfl
      exact this keys fun _ h => h
    obtain ⟨rs, hrs⟩ := hmapM
    refine ⟨pySortedBy (fun r => r.1) rs, ?_⟩
    rw [hstep, Run.bind_ok]
    refine ⟨x, hx, ?_⟩
    rw [Run.bind_ok]
    refine ⟨V, by rw [Run.ofPy_ok, hVq, requireFinitePoints_some], ?_⟩
    rw [Run.bind_ok]
    exact ⟨rs, by rw [Run.ofPy_ok, hfac, hrs], rfl⟩
  · intro hno
    obtain ⟨msg, hmsg⟩ := key.2 hno
    refine ⟨msg, ?_⟩
    rw [hstep]
    show (getInteriorPoint _ _ _ _ _ _ >>= _) = _
    rw [hmsg]; rfl

end Verif
