import Verif.Model.Rounded
import Verif.Proofs.Champ3DRun

/-! # The part of `CHAMP_3D` after the coefficients, for any coefficients -/

namespace Verif
open Spec Props

variable {α : Type} [DecidableEq α]

/-- Everything a successful run says, in terms of positions `keys`. -/
theorem champ3DFrom_facts {env : ChampEnv} (hq : ExactQhull env.qhull) {parts : List (List α)} {A P C : List ℝ}
    {L : List (ℝ × ℝ × ℝ)} (hzip : A.zip (P.zip C) = L) (hlen : L.length = parts.length) (hPnn : ∀ t ∈ L, 0 ≤ t.2.1)
    (hCnn : ∀ t ∈ L, 0 ≤ t.2.2) {γ₀ γf ω₀ ωf : ℝ} {doms : List (List (ℝ × ℝ) × List α)}
    (h : champ3DFrom env parts A P C γ₀ γf ω₀ ωf = (some (.ok doms) : Option _)) :
    (γ₀ < γf ∧ ω₀ < ωf) ∧
    ∃ (keys : List Nat) (dom : Nat → List (ℝ × ℝ)) (part : Nat → List α) (coef : Nat → ℝ × ℝ × ℝ),
      keys.Nodup ∧ doms = keys.map (fun j => (dom j, part j)) ∧
      (∀ j ∈ keys, parts[j]? = some (part j) ∧ L[j]? = some (coef j) ∧
        (∀ q : ℝ × ℝ, q ∈ convexHull ℝ {q | q ∈ dom j} ↔
          ((γ₀ ≤ q.1 ∧ q.1 ≤ γf) ∧ ω₀ ≤ q.2 ∧ q.2 ≤ ωf) ∧ ∀ t ∈ L, val3 t q.1 q.2 ≤ val3 (coef j) q.1 q.2) ∧
        (∀ q ∈ dom j, q ∈ (convexHull ℝ {q | q ∈ dom j}).extremePoints ℝ) ∧ (dom j).Nodup ∧ 3 ≤ (dom j).length ∧
        (∃ z : ℝ × ℝ, ∃ ε : ℝ, 0 < ε ∧ z ∈ convexHull ℝ {q | q ∈ dom j} ∧
          (z.1 + ε, z.2) ∈ convexHull ℝ {q | q ∈ dom j} ∧ (z.1, z.2 + ε) ∈ convexHull ℝ {q | q ∈ dom j}) ∧
        Clockwise (dom j)) ∧
      (∀ j ∈ keys, ∀ k ∈ keys, j ≠ k → coef j ≠ coef k) ∧
      ∀ γ ω, γ₀ < γ → γ < γf → ω₀ < ω → ω < ωf → ∃ j ∈ keys, ∀ t ∈ L, val3 t γ ω ≤ val3 (coef j) γ ω := by
  unfold champ3DFrom at h
  rw [Run.bind_ok] at h
  obtain ⟨hs, hhs, h⟩ := h
  rw [Run.bind_ok] at h
  obtain ⟨x, hx, h⟩ := h
  rw [Run.bind_ok] at h
  obtain ⟨V', hV', h⟩ := h
  rw [Run.ofPy_ok] at hhs hV' h
  unfold champ3DHalfspaces at hhs
  rw [hzip, Py.bind_ok] at hhs
  obtain ⟨top, htop, hhs⟩ := hhs
  rw [Py.bind_ok] at hhs
  obtain ⟨bottom, hbot, hhs⟩ := hhs
  have hhs : hsArray3D L top bottom γ₀ γf ω₀ ωf = hs := by injection hhs
  subst hhs
  rw [pyMax_ok] at htop
  rw [pyMin_ok] at hbot
  have htop1 : ∀ t ∈ L, val3 t γ₀ ωf ≤ top := fun t ht => htop.2 _ (List.mem_map.mpr ⟨t, ht, rfl⟩)
  have htop2 : ∃ t ∈ L, val3 t γ₀ ωf = top := by
    obtain ⟨t, h1, h2⟩ := List.mem_map.mp htop.1; exact ⟨t, h1, h2⟩
  have hbot1 : ∀ t ∈ L, bottom ≤ val3 t γf ω₀ := fun t ht => hbot.2 _ (List.mem_map.mpr ⟨t, ht, rfl⟩)
  have hint : ∀ h ∈ hsArray3D L top bottom γ₀ γf ω₀ ωf, h.eval x < 0 :=
    c13_returned_point_is_interior _ _ _ _ _ _ hx
  obtain ⟨V, J, hVq, hV⟩ := hq 3 _ x hint hsArray3D_bounded
  rw [hVq, requireFinitePoints_some] at hV'
  have hV' : V = V' := by injection hV'
  subst hV'
  obtain ⟨keys, hknd, hkmem, hfac⟩ := facets_eq hV (vertsOf_ne_nil hV hsArray3D_bounded hint) parts.length
  rw [hfac] at h
  -- parts of the keys
  have hpart : ∀ j ∈ keys, ∃ c, parts[j]? = some c := fun j hj =>
    ⟨_, List.getElem?_eq_getElem ((hkmem j).mp hj).2⟩
  choose! part hpart using hpart
  have hcoef : ∀ j ∈ keys, ∃ t, L[j]? = some t := fun j hj =>
    ⟨_, List.getElem?_eq_getElem (hlen ▸ ((hkmem j).mp hj).2)⟩
  choose! coef hcoef using hcoef
  have hmapM : ∀ ks : List Nat, (∀ j ∈ ks, j ∈ keys) →
      (ks.map fun j => (j, vertsOf V j)).mapM (fun f => do
        let part ← pyGet parts f.1
        return (sortDomain f.2, part) : _ → Py (List (ℝ × ℝ) × List α)) =
      .ok (ks.map fun j => (sortDomain (vertsOf V j), part j)) := by
    intro ks
    induction ks with
    | nil => intro _; rfl
    | cons a ks ih =>
      intro hsub
      have e3 : pyGet parts a = .ok (part a) := by unfold pyGet; rw [hpart a (hsub a (by simp))]
      rw [List.map_cons, List.mapM_cons]
      simp only [e3]
      rw [ih fun j hj => hsub j (List.mem_cons_of_mem _ hj)]
      rfl
  rw [hmapM keys fun _ h => h] at h
  have h : keys.map (fun j => (sortDomain (vertsOf V j), part j)) = doms := by injection h
  obtain ⟨hi1, hi2, hi3, hi4, hi5, hi6, hi7⟩ := interior3D.mp hint
  refine ⟨⟨hi5.trans hi4, hi7.trans hi6⟩, keys, fun j => sortDomain (vertsOf V j), part, coef, hknd, h.symm,
    ?_, ?_, ?_⟩
  · intro j hj
    have hjL := hcoef j hj
    obtain ⟨f1, f2, f3, f4, f5⟩ := facet3D hV hint ((hkmem j).mp hj).1 hjL
    have hperm := sortDomain_perm (vertsOf V j)
    have hset : {q | q ∈ sortDomain (vertsOf V j)} = {q | q ∈ (vertsOf V j).map proj3} := by
      ext q; exact hperm.mem_iff
    have hlen3 : 3 ≤ ((vertsOf V j).map proj3).length := by rw [List.length_map]; exact f4
    refine ⟨hpart j hj, hjL, ?_, ?_, hperm.nodup_iff.mpr f3, ?_, ?_, ?_⟩
    · intro q
      show q ∈ convexHull ℝ {q | q ∈ sortDomain (vertsOf V j)} ↔ _
      rw [hset, f1 q, optimal_iff_poly3D hPnn hCnn htop1 hbot1 (List.mem_of_getElem? hjL)]
    · intro q hq
      show q ∈ (convexHull ℝ {q | q ∈ sortDomain (vertsOf V j)}).extremePoints ℝ
      rw [hset]
      exact f2 q (hperm.mem_iff.mp hq)
    · show 3 ≤ (sortDomain (vertsOf V j)).length
      rw [hperm.length_eq]; exact hlen3
    · show ∃ z : ℝ × ℝ, ∃ ε : ℝ, 0 < ε ∧ z ∈ convexHull ℝ {q | q ∈ sortDomain (vertsOf V j)} ∧ _
      rw [hset]; exact f5
    · exact sorted_clockwise f2 f3 hlen3 _ rfl
  · intro j hj k hk hjk e
    refine coefs_distinct3D hV ((hkmem j).mp hj).1 ((hkmem k).mp hk).1 hjk (hcoef j hj) ?_
    rw [hcoef k hk, e]
  · intro γ ω g1 g2 g3 g4
    obtain ⟨j, hjJ, t, hjL, hmax⟩ := cover3D hV hint hPnn hCnn htop1 htop2 hbot1 g1 g2 g3 g4
    have hjn : j < parts.length := by
      rw [← hlen]; exact (List.getElem?_eq_some_iff.mp hjL).1
    have hjk : j ∈ keys := (hkmem j).mpr ⟨hjJ, hjn⟩
    refine ⟨j, hjk, ?_⟩
    rw [hcoef j hjk] at hjL
    cases hjL
    exact hmax

/-- It returns if and only if the polyhedron has an interior point. -/
theorem champ3DFrom_run {env : ChampEnv} (he : ExactEnv env) {parts : List (List α)} {A P C : List ℝ}
    {L : List (ℝ × ℝ × ℝ)} (hzip : A.zip (P.zip C) = L) {γ₀ γf ω₀ ωf : ℝ}
    {top bottom : ℝ} (htop : pyMax (L.map fun t => val3 t γ₀ ωf) = .ok top)
    (hbot : pyMin (L.map fun t => val3 t γf ω₀) = .ok bottom) :
    ((∃ x, ∀ h ∈ hsArray3D L top bottom γ₀ γf ω₀ ωf, h.eval x < 0) →
      ∃ doms, champ3DFrom env parts A P C γ₀ γf ω₀ ωf = (some (.ok doms) : Option _)) ∧
    ((¬ ∃ x, ∀ h ∈ hsArray3D L top bottom γ₀ γf ω₀ ωf, h.eval x < 0) →
      ∃ msg, champ3DFrom env parts A P C γ₀ γf ω₀ ωf = (some (.error (.valueError msg)) : Option _)) := by
  have hhs : champ3DHalfspaces A P C γ₀ γf ω₀ ωf = .ok (hsArray3D L top bottom γ₀ γf ω₀ ωf) := by
    unfold champ3DHalfspaces
    rw [hzip]
    have e1 : pyMax (L.map fun apc => apc.1 - apc.2.1 * γ₀ + apc.2.2 * ωf) = .ok top := htop
    have e2 : pyMin (L.map fun apc => apc.1 - apc.2.1 * γf + apc.2.2 * ω₀) = .ok bottom := hbot
    rw [e1, e2]
    rfl
  have key := c15_exact_solver (Or.inr rfl) (he.linprog 3) he.sample (hs := hsArray3D L top bottom γ₀ γf ω₀ ωf)
    hsArray3D_normals (box_row3 _ _ _ _ _ _ _) (initial := defaultInitial) (limit := defaultRetryLimit)
    (fuel := defaultFuel (hsArray3D L top bottom γ₀ γf ω₀ ωf).length) (by decide) (le_refl _)
  have hstep : champ3DFrom env parts A P C γ₀ γf ω₀ ωf = (do
      let hs := hsArray3D L top bottom γ₀ γf ω₀ ωf
      let x ← getInteriorPoint env.sample (env.linprog 3) hs defaultInitial defaultRetryLimit (defaultFuel hs.length)
      let out ← Run.ofPy (requireFinitePoints (env.qhull 3 hs x))
      Run.ofPy ((facetsByHalfspace parts.length out).mapM fun f => do
        let part ← pyGet parts f.1
        return (sortDomain f.2, part)) : Run (List (List (ℝ × ℝ) × List α))) := by
    unfold champ3DFrom
    rw [hhs]
    rfl
  constructor
  · intro hex
    obtain ⟨x, hx⟩ := key.1 hex
    have hint : ∀ h ∈ hsArray3D L top bottom γ₀ γf ω₀ ωf, h.eval x < 0 :=
      c13_returned_point_is_interior _ _ _ _ _ _ hx
    obtain ⟨V, J, hVq, hV⟩ := he.qhull 3 _ x hint hsArray3D_bounded
    obtain ⟨keys, hknd, hkmem, hfac⟩ := facets_eq hV (vertsOf_ne_nil hV hsArray3D_bounded hint) parts.length
    have hmapM : ∀ ks : List Nat, (∀ j ∈ ks, j ∈ keys) → ∃ rs,
        (ks.map fun j => (j, vertsOf V j)).mapM (fun f => do
          let part ← pyGet parts f.1
          return (sortDomain f.2, part) : _ → Py (List (ℝ × ℝ) × List α)) = .ok rs := by
      intro ks
      induction ks with
      | nil => intro _; exact ⟨[], rfl⟩
      | cons a ks ih =>
        intro hsub
        obtain ⟨rs, hrs⟩ := ih fun j hj => hsub j (List.mem_cons_of_mem _ hj)
        have hlt : a < parts.length := ((hkmem a).mp (hsub a (by simp))).2
        have e3 : pyGet parts a = .ok parts[a] := by
          unfold pyGet; rw [List.getElem?_eq_getElem hlt]
        refine ⟨(sortDomain (vertsOf V a), parts[a]) :: rs, ?_⟩
        rw [List.map_cons, List.mapM_cons]
        simp only [e3]
        rw [hrs]; rfl
    obtain ⟨rs, hrs⟩ := hmapM keys fun _ h => h
    refine ⟨rs, ?_⟩
    rw [hstep, Run.bind_ok]
    refine ⟨x, hx, ?_⟩
    rw [Run.bind_ok]
    exact ⟨V, by rw [Run.ofPy_ok, hVq, requireFinitePoints_some], by rw [Run.ofPy_ok, hfac, hrs]⟩
  · intro hno
    obtain ⟨msg, hmsg⟩ := key.2 hno
    refine ⟨msg, ?_⟩
    rw [hstep]
    show (getInteriorPoint _ _ _ _ _ _ >>= _) = _
    rw [hmsg]; rfl

end Verif
