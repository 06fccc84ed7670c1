import Mathlib.Topology.Order.DenselyOrdered
import Verif.Proofs.Champ2D
import Verif.Props.Coefficients
import Verif.Props.Interior

namespace Verif
open Spec Props

theorem Run.bind_ok {α β : Type} {x : Run α} {f : α → Run β} {b : β} :
    (x >>= f) = (some (.ok b) : Option (Except PyErr β)) ↔
      ∃ a, x = (some (.ok a) : Option (Except PyErr α)) ∧ f a = (some (.ok b) : Option (Except PyErr β)) := by
  constructor
  · intro h
    match x, h with
    | none, h => cases h
    | some (.error e), h => cases h
    | some (.ok a), h => exact ⟨a, rfl, h⟩
  · rintro ⟨a, rfl, h⟩; exact h

theorem Run.ofPy_ok {α : Type} {p : Py α} {a : α} :
    Run.ofPy p = (some (.ok a) : Option (Except PyErr α)) ↔ p = .ok a := by
  constructor
  · intro h; exact Option.some.inj h
  · rintro rfl; rfl

theorem Py.bind_ok {α β : Type} {x : Py α} {f : α → Py β} {b : β} :
    (x >>= f) = .ok b ↔ ∃ a, x = .ok a ∧ f a = .ok b := by
  constructor
  · intro h
    match x, h with
    | .error e, h => cases h
    | .ok a, h => exact ⟨a, rfl, h⟩
  · rintro ⟨a, rfl, h⟩; exact h

theorem requireFinite_ok {l : List (Fl ℝ)} {P : List ℝ} : requireFinite l = .ok P ↔ l = P.map Fl.fin := by
  unfold requireFinite
  induction l generalizing P with
  | nil =>
    constructor
    · intro h; cases h; rfl
    · intro h; rw [List.nil_eq, List.map_eq_nil_iff] at h; subst h; rfl
  | cons a l ih =>
    rw [List.mapM_cons, Py.bind_ok]
    constructor
    · rintro ⟨x, hx, h⟩
      rw [Py.bind_ok] at h
      obtain ⟨xs, hxs, h⟩ := h
      cases h
      rw [ih.mp hxs]
      cases a <;> cases hx
      rfl
    · intro h
      match P, h with
      | [], h => simp at h
      | p :: P, h =>
        simp only [List.map_cons, List.cons.injEq] at h
        refine ⟨p, by rw [h.1], ?_⟩
        rw [Py.bind_ok]
        exact ⟨P, ih.mpr h.2, rfl⟩

theorem pyMax_ok {l : List ℝ} {t : ℝ} : pyMax l = .ok t ↔ t ∈ l ∧ ∀ x ∈ l, x ≤ t := by
  unfold pyMax
  constructor
  · intro h
    split at h
    · rename_i x hx
      cases h
      exact List.max?_eq_some_iff.mp hx
    · cases h
  · intro h
    rw [List.max?_eq_some_iff.mpr h]

theorem pyMin_ok {l : List ℝ} {t : ℝ} : pyMin l = .ok t ↔ t ∈ l ∧ ∀ x ∈ l, t ≤ x := by
  unfold pyMin
  constructor
  · intro h
    split at h
    · rename_i x hx
      cases h
      exact List.min?_eq_some_iff.mp hx
    · cases h
  · intro h
    rw [List.min?_eq_some_iff.mpr h]

variable {α : Type} [DecidableEq α]

/-- the coefficient list the code works with -/
noncomputable def coefs2D (G : Graph ℝ) (parts : List (List α)) : List (ℝ × ℝ) :=
  parts.map fun c => (withinAdj G c, withinNull G c)

theorem champ2D_coefs {env : ChampEnv} {G : Graph ℝ} (hG : G.WF) {parts : List (List α)}
    (hp : ∀ c ∈ parts, c.length = G.vcount) (hne : parts ≠ []) {st : Bool}
    (hpool : st = true ∨ GoodRounding env.rnd env.cpu ∧ ∀ i < env.cpu, i ∈ env.sched)
    {AP : List ℝ × List (Fl ℝ)} {P : List ℝ}
    (h : partitionCoefficients2D env.rnd env.cpu env.sched G parts st = some (.ok AP))
    (hP : requireFinite AP.2 = .ok P) :
    0 < G.ecount ∧ AP.1 = parts.map (withinAdj G) ∧ P = parts.map (withinNull G) := by
  have hser : partitionCoefficients2DSerial G parts = .ok AP := by
    rcases hpool with rfl | ⟨h1, h2⟩
    · unfold partitionCoefficients2D at h
      simp only [if_true] at h
      have h := Option.some.inj h
      rw [Py.bind_ok] at h
      obtain ⟨a, ha, h'⟩ := h
      rw [ha]
      split at h'
      · cases h'; rfl
      · cases h'
    · obtain ⟨r, hr, hiff⟩ := c11_parallel_2D h1 h2 G parts st
      rw [hr] at h
      exact (hiff AP).mp (Option.some.inj h)
  have hgen := coefficients2D_general hG hp
  have he : 0 < G.ecount := by
    by_contra h0
    have h0 : G.ecount = 0 := by omega
    have := ((c12_failures_2D hG (parts := parts)).1 hp).2 h0
    rw [this] at hser
    cases hser
    rw [requireFinite_ok] at hP
    cases parts with
    | nil => exact hne rfl
    | cons a l => cases P <;> simp at hP
  refine ⟨he, ?_, ?_⟩
  · rw [hgen] at hser; cases hser; rfl
  · rw [coefficients2D_ok hG he hp] at hser
    cases hser
    rw [requireFinite_ok] at hP
    simp only at hP
    have hinj : Function.Injective (Fl.fin : ℝ → Fl ℝ) := fun a b h => by cases h; rfl
    apply List.map_injective_iff.mpr hinj
    rw [← hP, List.map_map]; rfl

theorem optimal_iff_poly {L : List (ℝ × ℝ)} {top bottom γ₀ γf : ℝ} (hP : ∀ ap ∈ L, 0 ≤ ap.2)
    (htop : ∀ ap ∈ L, ap.1 - ap.2 * γ₀ ≤ top) (hbot : ∀ ap ∈ L, bottom ≤ ap.1 - ap.2 * γf) {ap : ℝ × ℝ} (hap : ap ∈ L)
    (γ : ℝ) : ![γ, ap.1 - ap.2 * γ] ∈ poly (hsArray2D L top bottom γ₀ γf) ↔
      (γ₀ ≤ γ ∧ γ ≤ γf) ∧ ∀ ap' ∈ L, ap'.1 - ap'.2 * γ ≤ ap.1 - ap.2 * γ := by
  rw [mem_poly2D]
  simp only [Matrix.cons_val_zero, Matrix.cons_val_one]
  constructor
  · rintro ⟨h1, h2, h3, h4, h5⟩; exact ⟨⟨h5, h4⟩, h1⟩
  · rintro ⟨⟨h1, h2⟩, h3⟩
    refine ⟨h3, ?_, ?_, h2, h1⟩
    · have := htop ap hap; have := mul_le_mul_of_nonneg_left h1 (hP ap hap); linarith
    · have := hbot ap hap; have := mul_le_mul_of_nonneg_left h2 (hP ap hap); linarith

/-- Everything a successful `CHAMP_2D` call says, in terms of positions `keys`. -/
theorem champ2D_facts {env : ChampEnv} (hq : ExactQhull env.qhull) {G : Graph ℝ} (hG : G.WF) {parts : List (List α)}
    (hp : ∀ c ∈ parts, c.length = G.vcount) (hne : parts ≠ []) {γ₀ γf : ℝ} {st : Bool}
    (hpool : st = true ∨ GoodRounding env.rnd env.cpu ∧ ∀ i < env.cpu, i ∈ env.sched)
    {ranges : List (ℝ × ℝ × List α)}
    (h : champ2D env G parts γ₀ γf st = (some (.ok ranges) : Option _)) :
    γ₀ < γf ∧ 0 < G.ecount ∧ ∃ (keys : List Nat) (lo hi : Nat → ℝ) (part : Nat → List α),
      keys.Nodup ∧ ranges = pySortedBy (fun r => r.1) (keys.map fun j => (lo j, hi j, part j)) ∧
      (∀ j ∈ keys, parts[j]? = some (part j) ∧ lo j < hi j ∧
        ∀ γ, (lo j ≤ γ ∧ γ ≤ hi j) ↔
          (γ₀ ≤ γ ∧ γ ≤ γf) ∧ ∀ c ∈ parts, modularity G γ c ≤ modularity G γ (part j)) ∧
      (∀ j ∈ keys, ∀ k ∈ keys, j ≠ k →
        ¬ (withinAdj G (part j) = withinAdj G (part k) ∧ withinNull G (part j) = withinNull G (part k))) ∧
      ∀ γ, γ₀ < γ → γ < γf → ∃ j ∈ keys, ∀ c ∈ parts, modularity G γ c ≤ modularity G γ (part j) := by
  unfold champ2D at h
  have hlen : parts.length ≠ 0 := fun h0 => hne (List.length_eq_zero_iff.mp h0)
  rw [if_neg hlen] at h
  rw [Run.bind_ok] at h
  obtain ⟨AP, hAP, h⟩ := h
  rw [Run.bind_ok] at h
  obtain ⟨P, hP, h⟩ := h
  rw [Run.bind_ok] at h
  obtain ⟨hs, hhs, h⟩ := h
  rw [Run.bind_ok] at h
  obtain ⟨x, hx, h⟩ := h
  rw [Run.bind_ok] at h
  obtain ⟨V', hV', h⟩ := h
  rw [Run.bind_ok] at h
  obtain ⟨rs, hrs, h⟩ := h
  have h : pySortedBy (fun r => r.1) rs = ranges := by
    injection Option.some.inj h
  rw [Run.ofPy_ok] at hP hhs hV' hrs
  obtain ⟨he, hA, hPn⟩ := champ2D_coefs hG hp hne hpool hAP hP
  set L := coefs2D G parts with hL
  have hzip : AP.1.zip P = L := by rw [hA, hPn, List.zip_map']; rfl
  -- the halfspace array
  unfold champ2DHalfspaces at hhs
  rw [hzip, Py.bind_ok] at hhs
  obtain ⟨top, htop, hhs⟩ := hhs
  rw [Py.bind_ok] at hhs
  obtain ⟨bottom, hbot, hhs⟩ := hhs
  have hhs : hsArray2D L top bottom γ₀ γf = hs := by injection hhs
  subst hhs
  rw [pyMax_ok] at htop
  rw [pyMin_ok] at hbot
  have htop1 : ∀ ap ∈ L, ap.1 - ap.2 * γ₀ ≤ top := fun ap hap => htop.2 _ (List.mem_map.mpr ⟨ap, hap, rfl⟩)
  have htop2 : ∃ ap ∈ L, ap.1 - ap.2 * γ₀ = top := by
    obtain ⟨ap, h1, h2⟩ := List.mem_map.mp htop.1; exact ⟨ap, h1, h2⟩
  have hbot1 : ∀ ap ∈ L, bottom ≤ ap.1 - ap.2 * γf := fun ap hap => hbot.2 _ (List.mem_map.mpr ⟨ap, hap, rfl⟩)
  have hPnn : ∀ ap ∈ L, 0 ≤ ap.2 := by
    intro ap hap
    obtain ⟨c, -, rfl⟩ := List.mem_map.mp hap
    exact withinNull_nonneg G c
  have hint := c13_returned_point_is_interior _ _ _ _ _ _ hx
  have hint : ∀ h ∈ hsArray2D L top bottom γ₀ γf, h.eval x < 0 := hint
  obtain ⟨V, J, hVq, hV⟩ := hq 2 _ x hint hsArray2D_bounded
  rw [hVq, requireFinitePoints_some] at hV'
  have hV' : V = V' := by injection hV'
  subst hV'
  obtain ⟨keys, hknd, hkmem, hfac⟩ := facets_eq hV (vertsOf_ne_nil hV hsArray2D_bounded hint) parts.length
  have hLget : ∀ {j : Nat} {c : List α}, parts[j]? = some c → L[j]? = some (withinAdj G c, withinNull G c) := by
    intro j c hc
    rw [hL, coefs2D, List.getElem?_map, hc]; rfl
  have hmod : ∀ γ (c : List α), withinAdj G c - withinNull G c * γ = modularity G γ c := by
    intro γ c; rw [modularity_eq, mul_comm]
  have hLmem : ∀ {p : ℝ × ℝ → Prop}, (∀ ap ∈ L, p ap) ↔ ∀ c ∈ parts, p (withinAdj G c, withinNull G c) := by
    intro p
    rw [hL, coefs2D, List.forall_mem_map]
  -- per key data
  have hkey : ∀ j ∈ keys, ∃ (l u : ℝ) (c : List α), parts[j]? = some c ∧ l < u ∧
      rangeOf parts (j, vertsOf V j) = .ok (l, u, c) ∧
      ∀ γ, (l ≤ γ ∧ γ ≤ u) ↔ (γ₀ ≤ γ ∧ γ ≤ γf) ∧ ∀ c' ∈ parts, modularity G γ c' ≤ modularity G γ c := by
    intro j hj
    obtain ⟨hjJ, hjn⟩ := (hkmem j).mp hj
    have hc : parts[j]? = some parts[j] := List.getElem?_eq_getElem hjn
    obtain ⟨v, w, hvw, hne0, hiff⟩ := facet2D hV hint hjJ (hLget hc)
    refine ⟨min (v 0) (w 0), max (v 0) (w 0), parts[j], hc, ?_, ?_, ?_⟩
    · rcases lt_or_gt_of_ne hne0 with h | h
      · rw [min_eq_left h.le, max_eq_right h.le]; exact h
      · rw [min_eq_right h.le, max_eq_left h.le]; exact h
    · unfold rangeOf
      simp only [hvw]
      have e1 : pyGet [v, w] 0 = .ok v := rfl
      have e2 : pyGet [v, w] 1 = .ok w := rfl
      have e3 : pyGet parts j = .ok parts[j] := by unfold pyGet; rw [hc]
      rw [e1, e2, e3]
      show Except.ok _ = _
      by_cases hgt : v 0 > w 0
      · rw [if_pos hgt, min_eq_right hgt.le, max_eq_left hgt.le]
      · rw [if_neg hgt]
        push Not at hgt
        rw [min_eq_left hgt, max_eq_right hgt]
    · intro γ
      rw [hiff γ, optimal_iff_poly hPnn htop1 hbot1 (List.mem_of_getElem? (hLget hc)), hLmem]
      simp only [hmod]
  choose! lo hi part hkp hlt hro hopt using hkey
  have hmapM : (keys.map fun j => (j, vertsOf V j)).mapM (rangeOf parts) =
      .ok (keys.map fun j => (lo j, hi j, part j)) := by
    have : ∀ ks : List Nat, (∀ j ∈ ks, j ∈ keys) → (ks.map fun j => (j, vertsOf V j)).mapM (rangeOf parts) =
      .ok (ks.map fun j => (lo j, hi j, part j)) := by
      intro ks
      induction ks with
      | nil => intro _; rfl
      | cons a ks ih =>
        intro hsub
        rw [List.map_cons, List.mapM_cons, hro a (hsub a (by simp)), ih fun j hj => hsub j (List.mem_cons_of_mem _ hj)]
        rfl
    exact this keys fun _ h => h
  rw [hfac, hmapM] at hrs
  cases hrs
  obtain ⟨hi1, hi2, hi3, hi4, hi5⟩ := interior2D.mp hint
  refine ⟨hi5.trans hi4, he, keys, lo, hi, part, hknd, h.symm, fun j hj => ⟨hkp j hj, hlt j hj, hopt j hj⟩, ?_, ?_⟩
  · rintro j hj k hk hjk ⟨e1, e2⟩
    refine coefs_distinct hV ((hkmem j).mp hj).1 ((hkmem k).mp hk).1 hjk (hLget (hkp j hj)) ?_
    rw [hLget (hkp k hk), e1, e2]
  · intro γ hγ1 hγ2
    obtain ⟨j, hjJ, ap, hjL, hmax⟩ := cover2D hV hint hPnn htop1 htop2 hbot1 hγ1 hγ2
    have hjn : j < parts.length := by
      have := (List.getElem?_eq_some_iff.mp hjL).1
      rw [hL, coefs2D, List.length_map] at this
      exact this
    have hjk : j ∈ keys := (hkmem j).mpr ⟨hjJ, hjn⟩
    refine ⟨j, hjk, ?_⟩
    rw [hLget (hkp j hjk)] at hjL
    cases hjL
    intro c hc
    have := hLmem.mp hmax c hc
    simp only [hmod] at this
    exact this

end Verif
