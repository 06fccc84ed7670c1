import Verif.Spec.Multilayer
import Verif.Proofs.Champ2DMore
import Verif.Proofs.Champ3D
import Verif.Proofs.Angular

namespace Verif
open Spec Props

variable {α : Type} [DecidableEq α]

/-- the coefficient list the code works with -/
noncomputable def coefs3D (Gi Gx : Graph ℝ) (layer : List Nat) (parts : List (List α)) : List (ℝ × ℝ × ℝ) :=
  parts.map fun c => (withinAdj Gi c, withinNullLayered Gi layer c, withinAdj Gx c)

theorem withinNullLayered_nonneg {F : Type} [Field F] [LinearOrder F] [IsStrictOrderedRing F] (G : Graph F)
    (layer : List Nat) (c : List α) : 0 ≤ withinNullLayered G layer c := by
  unfold withinNullLayered
  refine Finset.sum_nonneg fun i _ => Finset.sum_nonneg fun j _ => ?_
  split
  · positivity
  · exact le_refl _

theorem withinNullLayered_pos {F : Type} [Field F] [LinearOrder F] [IsStrictOrderedRing F] {G : Graph F} (hG : G.WF)
    (hd : G.directed = false) {layer : List Nat} (hl : layer.length = G.vcount) (he : G.edges ≠ []) (c : List α) :
    0 < withinNullLayered G layer c := by
  obtain ⟨e, he⟩ := List.exists_mem_of_ne_nil _ he
  obtain ⟨h1, h2⟩ := hG.1 e he
  have hadj : 0 < adj G e.1 e.2 := by
    have : 0 < G.edges.count (e.1, e.2) := List.count_pos_iff.mpr he
    unfold adj; split <;> omega
  have hadj' : 0 < adj G e.2 e.1 := by
    have : 0 < G.edges.count (e.1, e.2) := List.count_pos_iff.mpr he
    have h3 : adj G e.2 e.1 = G.edges.count (e.2, e.1) + G.edges.count (e.1, e.2) := by
      unfold adj; rw [hd]; rfl
    omega
  have hrow : 0 < rowSum G e.1 := lt_of_lt_of_le hadj
    (Finset.single_le_sum (f := fun j => adj G e.1 j) (fun _ _ => Nat.zero_le _) (Finset.mem_range.mpr h2))
  have hcol : 0 < colSum G e.1 := lt_of_lt_of_le hadj'
    (Finset.single_le_sum (f := fun j => adj G j e.1) (fun _ _ => Nat.zero_le _) (Finset.mem_range.mpr h2))
  have hle : layer[e.1]? = some layer[e.1] := List.getElem?_eq_getElem (by omega)
  have htot : 0 < layerTotal G layer (layer[e.1]?.getD 0) := by
    have : rowSum G e.1 ≤ layerTotal G layer (layer[e.1]?.getD 0) := by
      unfold layerTotal
      refine le_trans (le_of_eq ?_) (Finset.single_le_sum (f := fun i => ∑ j ∈ Finset.range G.vcount,
        if layer[i]? = some (layer[e.1]?.getD 0) then adj G i j else 0) (fun _ _ => Nat.zero_le _)
        (Finset.mem_range.mpr h1))
      unfold rowSum
      apply Finset.sum_congr rfl
      intro j _
      rw [if_pos (by rw [hle]; rfl)]
    omega
  unfold withinNullLayered
  refine lt_of_lt_of_le ?_ (Finset.single_le_sum (f := fun i => ∑ j ∈ Finset.range G.vcount,
    if c[i]? = c[j]? ∧ layer[i]? = layer[j]? then
      (colSum G i : F) * (rowSum G j : F) / (layerTotal G layer (layer[i]?.getD 0) : F) else 0)
    (fun i _ => Finset.sum_nonneg fun j _ => ?_) (Finset.mem_range.mpr h1))
  · refine lt_of_lt_of_le ?_ (Finset.single_le_sum (f := fun j =>
      if c[e.1]? = c[j]? ∧ layer[e.1]? = layer[j]? then
        (colSum G e.1 : F) * (rowSum G j : F) / (layerTotal G layer (layer[e.1]?.getD 0) : F) else 0)
      (fun j _ => ?_) (Finset.mem_range.mpr h1))
    · simp only [and_self, if_true]
      positivity
    · split
      · positivity
      · exact le_refl _
  · split
    · positivity
    · exact le_refl _

theorem mapM_ok_mem {β γ : Type} {f : β → Py γ} {l : List β} {r : List γ} (h : l.mapM f = .ok r) {x : β}
    (hx : x ∈ l) : ∃ y ∈ r, f x = .ok y := by
  induction l generalizing r with
  | nil => simp at hx
  | cons a l ih =>
    rw [List.mapM_cons, Py.bind_ok] at h
    obtain ⟨y, hy, h⟩ := h
    rw [Py.bind_ok] at h
    obtain ⟨ys, hys, h⟩ := h
    cases h
    rcases List.mem_cons.mp hx with rfl | hx
    · exact ⟨y, by simp, hy⟩
    · obtain ⟨z, hz, h⟩ := ih hys hx
      exact ⟨z, List.mem_cons_of_mem _ hz, h⟩

theorem champ3D_coefs {env : ChampEnv} (hc1 : 1 ≤ env.cpu) (hr : GoodRounding env.rnd env.cpu)
    (hs : ∀ i < env.cpu, i ∈ env.sched) {Gi Gx : Graph ℝ} {layer : List Nat} (hM : Multilayer Gi Gx layer)
    {parts : List (List α)} (hp : ∀ c ∈ parts, c.length = Gi.vcount) (hne : parts ≠ [])
    {APC : List ℝ × List (Fl ℝ) × List ℝ} {P : List ℝ}
    (h : partitionCoefficients3D env.rnd env.cpu env.sched Gi Gx layer parts = some (.ok APC))
    (hP : requireFinite APC.2.1 = .ok P) :
    (layer ≠ [] ∧ ∀ t ∈ layer, ∃ e ∈ Gi.edges, layer[e.1]? = some t) ∧ APC.1 = parts.map (withinAdj Gi) ∧
      P = parts.map (withinNullLayered Gi layer) ∧ APC.2.2 = parts.map (withinAdj Gx) := by
  obtain ⟨r, hr', hiff⟩ := c11_parallel_3D hc1 hr hs Gi Gx layer parts
  rw [hr'] at h
  have hser : partitionCoefficients3DSerial Gi Gx layer parts = .ok APC := (hiff APC).mp (Option.some.inj h)
  have hn : layer ≠ [] := by
    rintro rfl
    obtain ⟨c, hc⟩ := List.exists_mem_of_ne_nil _ hne
    unfold partitionCoefficients3DSerial at hser
    rw [Py.bind_ok] at hser
    obtain ⟨_, _, hser⟩ := hser
    rw [Py.bind_ok] at hser
    obtain ⟨_, h0, _⟩ := hser
    cases h0
  have hedge : ∀ t ∈ layer, ∃ e ∈ Gi.edges, layer[e.1]? = some t := by
    intro t ht
    by_contra hno
    push Not at hno
    obtain ⟨c, hc⟩ := List.exists_mem_of_ne_nil _ hne
    obtain ⟨A1, P1, C1, hser1, hP1, -⟩ := c12_failures_3D hM.intra hM.inter hM.vcount hM.layers ht hno (hp c hc)
    obtain ⟨ec, hec, -⟩ := ecountPerLayer_ok hM.intra hM.layers hn
    obtain ⟨a, p, c', e1, e2, e3, e4⟩ := (serial3D_ok_iff hec).mp hser
    obtain ⟨a', p', c'', f1, f2, f3, f4⟩ := (serial3D_ok_iff hec).mp hser1
    obtain ⟨y, hy, hfy⟩ := mapM_ok_mem e2 hc
    obtain ⟨z, hz, hfz⟩ := mapM_ok_mem f2 (List.mem_singleton.mpr rfl)
    rw [hfz] at hfy
    cases hfy
    have : p' = [P1] := (congrArg (fun v => v.2.1) f4).symm
    rw [this, List.mem_singleton] at hz
    subst hz
    rw [requireFinite_ok] at hP
    rw [e4] at hP
    simp only at hP
    rw [hP, List.mem_map] at hy
    obtain ⟨r, -, hr⟩ := hy
    exact hP1 r hr.symm
  refine ⟨⟨hn, hedge⟩, ?_⟩
  rw [coefficients3D_ok hM.intra hM.inter hM.vcount hM.layers hn hM.noCross hedge hp] at hser
  cases hser
  refine ⟨rfl, ?_, rfl⟩
  rw [requireFinite_ok] at hP
  simp only at hP
  have hinj : Function.Injective (Fl.fin : ℝ → Fl ℝ) := fun a b h => by cases h; rfl
  apply List.map_injective_iff.mpr hinj
  rw [← hP, List.map_map]; rfl

theorem sortDomain_perm (pts : List (Fin 3 → ℝ)) : (sortDomain pts).Perm (pts.map proj3) := pySortedBy_perm _ _

theorem val3_modularity (Gi Gx : Graph ℝ) (layer : List Nat) (γ ω : ℝ) (c : List α) :
    val3 (withinAdj Gi c, withinNullLayered Gi layer c, withinAdj Gx c) γ ω =
      multilayerModularity Gi Gx layer γ ω c := by
  unfold val3 multilayerModularity; ring

/-- Everything a successful `CHAMP_3D` call says, in terms of positions `keys`. -/
theorem champ3D_facts {env : ChampEnv} (he : SoundEnv env) {Gi Gx : Graph ℝ} {layer : List Nat}
    (hM : Multilayer Gi Gx layer) {parts : List (List α)}
    (hp : ∀ c ∈ parts, c.length = Gi.vcount) (hne : parts ≠ []) {γ₀ γf ω₀ ωf : ℝ}
    {doms : List (List (ℝ × ℝ) × List α)}
    (h : champ3D env Gi Gx layer parts γ₀ γf ω₀ ωf = (some (.ok doms) : Option _)) :
    (γ₀ < γf ∧ ω₀ < ωf) ∧ (∀ t ∈ layer, ∃ e ∈ Gi.edges, layer[e.1]? = some t) ∧
    ∃ (keys : List Nat) (dom : Nat → List (ℝ × ℝ)) (part : Nat → List α),
      keys.Nodup ∧ doms = keys.map (fun j => (dom j, part j)) ∧
      (∀ j ∈ keys, parts[j]? = some (part j) ∧
        (∀ q : ℝ × ℝ, q ∈ convexHull ℝ {q | q ∈ dom j} ↔
          ((γ₀ ≤ q.1 ∧ q.1 ≤ γf) ∧ ω₀ ≤ q.2 ∧ q.2 ≤ ωf) ∧
          ∀ c ∈ parts, multilayerModularity Gi Gx layer q.1 q.2 c ≤
            multilayerModularity Gi Gx layer q.1 q.2 (part j)) ∧
        (∀ q ∈ dom j, q ∈ (convexHull ℝ {q | q ∈ dom j}).extremePoints ℝ) ∧ (dom j).Nodup ∧ 3 ≤ (dom j).length ∧
        (∃ z : ℝ × ℝ, ∃ ε : ℝ, 0 < ε ∧ z ∈ convexHull ℝ {q | q ∈ dom j} ∧
          (z.1 + ε, z.2) ∈ convexHull ℝ {q | q ∈ dom j} ∧ (z.1, z.2 + ε) ∈ convexHull ℝ {q | q ∈ dom j}) ∧
        Clockwise (dom j)) ∧
      (∀ j ∈ keys, ∀ k ∈ keys, j ≠ k →
        ¬ (withinAdj Gi (part j) = withinAdj Gi (part k) ∧
          withinNullLayered Gi layer (part j) = withinNullLayered Gi layer (part k) ∧
          withinAdj Gx (part j) = withinAdj Gx (part k))) ∧
      ∀ γ ω, γ₀ < γ → γ < γf → ω₀ < ω → ω < ωf → ∃ j ∈ keys, ∀ c ∈ parts,
        multilayerModularity Gi Gx layer γ ω c ≤ multilayerModularity Gi Gx layer γ ω (part j) := by
  unfold champ3D at h
  have hlen : parts.length ≠ 0 := fun h0 => hne (List.length_eq_zero_iff.mp h0)
  rw [if_neg hlen, Run.bind_ok] at h
  obtain ⟨APC, hAPC, h⟩ := h
  rw [Run.bind_ok] at h
  obtain ⟨P, hP, h⟩ := h
  rw [Run.bind_ok] at h
  obtain ⟨hs, hhs, h⟩ := h
  rw [Run.bind_ok] at h
  obtain ⟨x, hx, h⟩ := h
  rw [Run.bind_ok] at h
  obtain ⟨V', hV', h⟩ := h
  rw [Run.ofPy_ok] at hP hhs hV' h
  obtain ⟨⟨hn, hedge⟩, hA, hPn, hC⟩ := champ3D_coefs he.workers he.rounding he.sched hM hp hne hAPC hP
  set L := coefs3D Gi Gx layer parts with hL
  have hzip : APC.1.zip (P.zip APC.2.2) = L := by rw [hA, hPn, hC, List.zip_map', List.zip_map']; rfl
  unfold champ3DHalfspaces at hhs
  rw [hzip, Py.bind_ok] at hhs
  obtain ⟨top, htop, hhs⟩ := hhs
  rw [Py.bind_ok] at hhs
  obtain ⟨bottom, hbot, hhs⟩ := hhs
  have hhs : hsArray3D L top bottom γ₀ γf ω₀ ωf = hs := by injection hhs
  subst hhs
  rw [pyMax_ok] at htop
  rw [pyMin_ok] at hbot
  have htop1 : ∀ t ∈ L, val3 t γ₀ ωf ≤ top := fun t ht => htop.2 _ (List.mem_map.mpr ⟨t, ht, rfl⟩)
  have htop2 : ∃ t ∈ L, val3 t γ₀ ωf = top := by
    obtain ⟨t, h1, h2⟩ := List.mem_map.mp htop.1; exact ⟨t, h1, h2⟩
  have hbot1 : ∀ t ∈ L, bottom ≤ val3 t γf ω₀ := fun t ht => hbot.2 _ (List.mem_map.mpr ⟨t, ht, rfl⟩)
  have hPnn : ∀ t ∈ L, 0 ≤ t.2.1 := by
    intro t ht
    obtain ⟨c, -, rfl⟩ := List.mem_map.mp ht
    exact withinNullLayered_nonneg Gi layer c
  have hCnn : ∀ t ∈ L, 0 ≤ t.2.2 := by
    intro t ht
    obtain ⟨c, -, rfl⟩ := List.mem_map.mp ht
    exact withinAdj_nonneg Gx c
  have hint : ∀ h ∈ hsArray3D L top bottom γ₀ γf ω₀ ωf, h.eval x < 0 :=
    c13_returned_point_is_interior _ _ _ _ _ _ hx
  obtain ⟨V, J, hVq, hV⟩ := he.qhull 3 _ x hint hsArray3D_bounded
  rw [hVq, requireFinitePoints_some] at hV'
  have hV' : V = V' := by injection hV'
  subst hV'
  obtain ⟨keys, hknd, hkmem, hfac⟩ := facets_eq hV (vertsOf_ne_nil hV hsArray3D_bounded hint) parts.length
  have hLget : ∀ {j : Nat} {c : List α}, parts[j]? = some c →
      L[j]? = some (withinAdj Gi c, withinNullLayered Gi layer c, withinAdj Gx c) := by
    intro j c hc
    rw [hL, coefs3D, List.getElem?_map, hc]; rfl
  have hLmem : ∀ {p : ℝ × ℝ × ℝ → Prop}, (∀ t ∈ L, p t) ↔
      ∀ c ∈ parts, p (withinAdj Gi c, withinNullLayered Gi layer c, withinAdj Gx c) := by
    intro p
    rw [hL, coefs3D, List.forall_mem_map]
  rw [hfac] at h
  -- parts of the keys
  have hpart : ∀ j ∈ keys, ∃ c, parts[j]? = some c := fun j hj =>
    ⟨_, List.getElem?_eq_getElem ((hkmem j).mp hj).2⟩
  choose! part hpart using hpart
  have hmapM : ∀ ks : List Nat, (∀ j ∈ ks, j ∈ keys) →
      (ks.map fun j => (j, vertsOf V j)).mapM (fun f => do
        let part ← pyGet parts f.1
        return (sortDomain f.2, part) : _ → Py (List (ℝ × ℝ) × List α)) =
      .ok (ks.map fun j => (sortDomain (vertsOf V j), part j)) := by
    intro ks
    induction ks with
    | nil => intro _; rfl
    | cons a ks ih =>
      intro hsub
      have e3 : pyGet parts a = .ok (part a) := by unfold pyGet; rw [hpart a (hsub a (by simp))]
      rw [List.map_cons, List.mapM_cons]
      simp only [e3]
      rw [ih fun j hj => hsub j (List.mem_cons_of_mem _ hj)]
      rfl
  rw [hmapM keys fun _ h => h] at h
  have h : keys.map (fun j => (sortDomain (vertsOf V j), part j)) = doms := by injection h
  obtain ⟨hi1, hi2, hi3, hi4, hi5, hi6, hi7⟩ := interior3D.mp hint
  refine ⟨⟨hi5.trans hi4, hi7.trans hi6⟩, hedge, keys, fun j => sortDomain (vertsOf V j), part, hknd, h.symm,
    ?_, ?_, ?_⟩
  · intro j hj
    have hjL := hLget (hpart j hj)
    obtain ⟨f1, f2, f3, f4, f5⟩ := facet3D hV hint ((hkmem j).mp hj).1 hjL
    have hperm := sortDomain_perm (vertsOf V j)
    have hset : {q | q ∈ sortDomain (vertsOf V j)} = {q | q ∈ (vertsOf V j).map proj3} := by
      ext q; exact hperm.mem_iff
    have hlen3 : 3 ≤ ((vertsOf V j).map proj3).length := by rw [List.length_map]; exact f4
    refine ⟨hpart j hj, ?_, ?_, hperm.nodup_iff.mpr f3, ?_, ?_, ?_⟩
    · intro q
      show q ∈ convexHull ℝ {q | q ∈ sortDomain (vertsOf V j)} ↔ _
      rw [hset, f1 q, optimal_iff_poly3D hPnn hCnn htop1 hbot1 (List.mem_of_getElem? hjL), hLmem]
      simp only [val3_modularity]
    · intro q hq
      show q ∈ (convexHull ℝ {q | q ∈ sortDomain (vertsOf V j)}).extremePoints ℝ
      rw [hset]
      exact f2 q (hperm.mem_iff.mp hq)
    · show 3 ≤ (sortDomain (vertsOf V j)).length
      rw [hperm.length_eq]; exact hlen3
    · show ∃ z : ℝ × ℝ, ∃ ε : ℝ, 0 < ε ∧ z ∈ convexHull ℝ {q | q ∈ sortDomain (vertsOf V j)} ∧ _
      rw [hset]; exact f5
    · exact sorted_clockwise f2 f3 hlen3 _ rfl
  · rintro j hj k hk hjk ⟨e1, e2, e3⟩
    refine coefs_distinct3D hV ((hkmem j).mp hj).1 ((hkmem k).mp hk).1 hjk (hLget (hpart j hj)) ?_
    rw [hLget (hpart k hk), e1, e2, e3]
  · intro γ ω g1 g2 g3 g4
    obtain ⟨j, hjJ, t, hjL, hmax⟩ := cover3D hV hint hPnn hCnn htop1 htop2 hbot1 g1 g2 g3 g4
    have hjn : j < parts.length := by
      have := (List.getElem?_eq_some_iff.mp hjL).1
      rw [hL, coefs3D, List.length_map] at this
      exact this
    have hjk : j ∈ keys := (hkmem j).mpr ⟨hjJ, hjn⟩
    refine ⟨j, hjk, ?_⟩
    rw [hLget (hpart j hjk)] at hjL
    cases hjL
    intro c hc
    have := hLmem.mp hmax c hc
    simp only [val3_modularity] at this
    exact this

theorem lastRows_hsArray3D (L : List (ℝ × ℝ × ℝ)) (top bottom γ₀ γf ω₀ ωf : ℝ) :
    lastRows (hsArray3D L top bottom γ₀ γf ω₀ ωf) = (boundaries3D top bottom γ₀ γf ω₀ ωf).map HS.normalise := by
  unfold lastRows hsArray3D
  rw [List.map_append, if_neg (by decide)]
  rw [List.drop_append_of_le_length (by simp [boundaries3D])]
  rw [List.drop_eq_nil_of_le (by simp [boundaries3D]), List.nil_append]

theorem box_row3 (top bottom γ₀ γf ω₀ ωf : ℝ) (L : List (ℝ × ℝ × ℝ)) :
    ∃ h ∈ lastRows (hsArray3D L top bottom γ₀ γf ω₀ ωf), ∃ h' ∈ lastRows (hsArray3D L top bottom γ₀ γf ω₀ ωf), ∃ c > 0,
      ∀ k, h'.normal k = -(c * h.normal k) := by
  rw [lastRows_hsArray3D]
  set h₁ : HS 3 := ⟨![0, 0, 1], -top⟩ with hh₁
  set h₂ : HS 3 := ⟨![0, 0, -1], bottom⟩ with hh₂
  have n₁ : h₁.normal ≠ 0 := by intro h; have := congrFun h 2; simp [hh₁] at this
  have n₂ : h₂.normal ≠ 0 := by intro h; have := congrFun h 2; simp [hh₂] at this
  have p₁ := rowNorm_pos n₁
  have p₂ := rowNorm_pos n₂
  refine ⟨h₁.normalise, List.mem_map.mpr ⟨h₁, by simp [boundaries3D, hh₁], rfl⟩, h₂.normalise,
    List.mem_map.mpr ⟨h₂, by simp [boundaries3D, hh₂], rfl⟩, h₁.rowNorm / h₂.rowNorm, div_pos p₁ p₂, ?_⟩
  intro k
  have : h₂.normal k = -h₁.normal k := by fin_cases k <;> simp [hh₁, hh₂]
  unfold HS.normalise
  simp only [this]
  field_simp

/-- what the call does after the coefficients are known -/
theorem champ3D_from_coefs {env : ChampEnv} (he : ExactEnv env) {Gi Gx : Graph ℝ} {layer : List Nat}
    (hM : Multilayer Gi Gx layer) (hn : layer ≠ []) (hedge : ∀ t ∈ layer, ∃ e ∈ Gi.edges, layer[e.1]? = some t)
    {parts : List (List α)} (hp : ∀ c ∈ parts, c.length = Gi.vcount) (hne : parts ≠ []) {γ₀ γf ω₀ ωf : ℝ}
    {top bottom : ℝ} (htop : pyMax ((coefs3D Gi Gx layer parts).map fun t => val3 t γ₀ ωf) = .ok top)
    (hbot : pyMin ((coefs3D Gi Gx layer parts).map fun t => val3 t γf ω₀) = .ok bottom) :
    ((∃ x, ∀ h ∈ hsArray3D (coefs3D Gi Gx layer parts) top bottom γ₀ γf ω₀ ωf, h.eval x < 0) →
      ∃ doms, champ3D env Gi Gx layer parts γ₀ γf ω₀ ωf = (some (.ok doms) : Option _)) ∧
    ((¬ ∃ x, ∀ h ∈ hsArray3D (coefs3D Gi Gx layer parts) top bottom γ₀ γf ω₀ ωf, h.eval x < 0) →
      ∃ msg, champ3D env Gi Gx layer parts γ₀ γf ω₀ ωf = (some (.error (.valueError msg)) : Option _)) := by
  have hser := coefficients3D_ok hM.intra hM.inter hM.vcount hM.layers hn hM.noCross hedge hp
  obtain ⟨r, hr, hiff⟩ := c11_parallel_3D he.workers he.rounding he.sched Gi Gx layer parts
  rw [(hiff _).mpr hser] at hr
  have hfin : requireFinite (parts.map fun c => Fl.fin (withinNullLayered Gi layer c)) =
      .ok (parts.map (withinNullLayered Gi layer)) := by
    rw [requireFinite_ok, List.map_map]; rfl
  have hlen : parts.length ≠ 0 := fun h0 => hne (List.length_eq_zero_iff.mp h0)
  set L := coefs3D Gi Gx layer parts with hL
  have hhs : champ3DHalfspaces (parts.map (withinAdj Gi)) (parts.map (withinNullLayered Gi layer))
      (parts.map (withinAdj Gx)) γ₀ γf ω₀ ωf = .ok (hsArray3D L top bottom γ₀ γf ω₀ ωf) := by
    unfold champ3DHalfspaces
    have : (parts.map (withinAdj Gi)).zip ((parts.map (withinNullLayered Gi layer)).zip (parts.map (withinAdj Gx))) =
      L := by rw [List.zip_map', List.zip_map']; rfl
    rw [this]
    have e1 : pyMax (L.map fun apc => apc.1 - apc.2.1 * γ₀ + apc.2.2 * ωf) = .ok top := htop
    have e2 : pyMin (L.map fun apc => apc.1 - apc.2.1 * γf + apc.2.2 * ω₀) = .ok bottom := hbot
    rw [e1, e2]
    rfl
  have key := c15_exact_solver (Or.inr rfl) (he.linprog 3) he.sample (hs := hsArray3D L top bottom γ₀ γf ω₀ ωf)
    hsArray3D_normals (box_row3 _ _ _ _ _ _ _) (initial := defaultInitial) (limit := defaultRetryLimit)
    (fuel := defaultFuel (hsArray3D L top bottom γ₀ γf ω₀ ωf).length) (by decide) (le_refl _)
  have hstep : champ3D env Gi Gx layer parts γ₀ γf ω₀ ωf = (do
      let hs := hsArray3D L top bottom γ₀ γf ω₀ ωf
      let x ← getInteriorPoint env.sample (env.linprog 3) hs defaultInitial defaultRetryLimit (defaultFuel hs.length)
      let out ← Run.ofPy (requireFinitePoints (env.qhull 3 hs x))
      Run.ofPy ((facetsByHalfspace parts.length out).mapM fun f => do
        let part ← pyGet parts f.1
        return (sortDomain f.2, part)) : Run (List (List (ℝ × ℝ) × List α))) := by
    unfold champ3D
    rw [if_neg hlen, hr]
    simp only
    show (Run.ofPy (requireFinite _) >>= _) = _
    have e1 : requireFinite (parts.map (fun c => Fl.fin (withinNullLayered Gi layer c))) =
      .ok (parts.map (withinNullLayered Gi layer)) := hfin
    rw [e1]
    show (Run.ofPy (champ3DHalfspaces _ _ _ _ _ _ _) >>= _) = _
    rw [hhs]
    rfl
  constructor
  · intro hex
    obtain ⟨x, hx⟩ := key.1 hex
    have hint : ∀ h ∈ hsArray3D L top bottom γ₀ γf ω₀ ωf, h.eval x < 0 :=
      c13_returned_point_is_interior _ _ _ _ _ _ hx
    obtain ⟨V, J, hVq, hV⟩ := he.qhull 3 _ x hint hsArray3D_bounded
    obtain ⟨keys, hknd, hkmem, hfac⟩ := facets_eq hV (vertsOf_ne_nil hV hsArray3D_bounded hint) parts.length
    have hmapM : ∀ ks : List Nat, (∀ j ∈ ks, j ∈ keys) → ∃ rs,
        (ks.map fun j => (j, vertsOf V j)).mapM (fun f => do
          let part ← pyGet parts f.1
          return (sortDomain f.2, part) : _ → Py (List (ℝ × ℝ) × List α)) = .ok rs := by
      intro ks
      induction ks with
      | nil => intro _; exact ⟨[], rfl⟩
      | cons a ks ih =>
        intro hsub
        obtain ⟨rs, hrs⟩ := ih fun j hj => hsub j (List.mem_cons_of_mem _ hj)
        have hlt : a < parts.length := ((hkmem a).mp (hsub a (by simp))).2
        have e3 : pyGet parts a = .ok parts[a] := by
          unfold pyGet; rw [List.getElem?_eq_getElem hlt]
        refine ⟨(sortDomain (vertsOf V a), parts[a]) :: rs, ?_⟩
        rw [List.map_cons, List.mapM_cons]
        simp only [e3]
        rw [hrs]; rfl
    obtain ⟨rs, hrs⟩ := hmapM keys fun _ h => h
    refine ⟨rs, ?_⟩
    rw [hstep, Run.bind_ok]
    refine ⟨x, hx, ?_⟩
    rw [Run.bind_ok]
    exact ⟨V, by rw [Run.ofPy_ok, hVq, requireFinitePoints_some], by rw [Run.ofPy_ok, hfac, hrs]⟩
  · intro hno
    obtain ⟨msg, hmsg⟩ := key.2 hno
    refine ⟨msg, ?_⟩
    rw [hstep]
    show (getInteriorPoint _ _ _ _ _ _ >>= _) = _
    rw [hmsg]; rfl

end Verif
