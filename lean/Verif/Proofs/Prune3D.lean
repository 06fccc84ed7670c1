import Verif.Props.Champ3D
import Verif.Proofs.Prune
import Verif.Props.Estimation

/-!
# Proofs about `prune_to_multilayer_stable_partitions`
-/

namespace Verif
open Verif.Spec Verif.Props

variable {α β : Type} [LinearOrder α] [LinearOrder β]

theorem multilayer_same {Gi Gx : Graph ℝ} {layer : List Nat} (hM : Multilayer Gi Gx layer) {p : List α} {q : List β}
    (h : SamePartition p q) (hp : p.length = Gi.vcount) (γ ω : ℝ) :
    multilayerModularity Gi Gx layer γ ω p = multilayerModularity Gi Gx layer γ ω q := by
  unfold multilayerModularity
  rw [withinAdj_same h hp, withinNullLayered_same h hp, withinAdj_same h (G := Gx) (by rw [hp, hM.vcount])]

theorem multilayer_canon {Gi Gx : Graph ℝ} {layer : List Nat} (hM : Multilayer Gi Gx layer) {p : List α}
    (hp : p.length = Gi.vcount) (γ ω : ℝ) :
    multilayerModularity Gi Gx layer γ ω (canon p) = multilayerModularity Gi Gx layer γ ω p :=
  multilayer_same hM (canon_same p) (by rw [canon_length, hp]) γ ω

/-- The interior of a domain: the points strictly inside the window at which its partition is strictly best. -/
theorem domain_interior {env : ChampEnv} (he : SoundEnv env) {Gi Gx : Graph ℝ} {layer : List Nat}
    (hM : Multilayer Gi Gx layer) {ps : List (List α)} (hp : ∀ c ∈ ps, c.length = Gi.vcount) {γ₀ γf ω₀ ωf : ℝ}
    {doms : List (List (ℝ × ℝ) × List α)}
    (h : champ3D env Gi Gx layer ps γ₀ γf ω₀ ωf = (some (.ok doms) : Option _)) {d : List (ℝ × ℝ) × List α}
    (hd : d ∈ doms) (γ ω : ℝ) :
    (γ, ω) ∈ interior (convexHull ℝ {q | q ∈ d.1}) ↔
      ((γ₀ < γ ∧ γ < γf) ∧ ω₀ < ω ∧ ω < ωf) ∧ ∀ c ∈ ps, ¬ SameMultilayer Gi Gx layer c d.2 →
        multilayerModularity Gi Gx layer γ ω c < multilayerModularity Gi Gx layer γ ω d.2 := by
  obtain ⟨hmem, -, hiff⟩ := c21_domains_correct he hM hp h d hd
  constructor
  · intro hq
    obtain ⟨ε, hε, hball⟩ := Metric.mem_nhds_iff.mp (mem_interior_iff_mem_nhds.mp hq)
    have hpt : ∀ a b : ℝ, |a| < ε → |b| < ε → ((γ + a, ω + b) : ℝ × ℝ) ∈ convexHull ℝ {q | q ∈ d.1} := by
      intro a b ha hb
      apply hball
      rw [Metric.mem_ball, Prod.dist_eq, max_lt_iff]
      constructor
      · simpa [Real.dist_eq] using ha
      · simpa [Real.dist_eq] using hb
    have e1 : |ε / 2| < ε := by rw [abs_of_pos (by linarith)]; linarith
    have e2 : |-(ε / 2)| < ε := by rw [abs_neg]; exact e1
    have e0 : |(0 : ℝ)| < ε := by simpa using hε
    have p0 := (hiff _).mp (hpt 0 0 e0 e0)
    have p1 := (hiff _).mp (hpt (ε / 2) 0 e1 e0)
    have p2 := (hiff _).mp (hpt (-(ε / 2)) 0 e2 e0)
    have p3 := (hiff _).mp (hpt 0 (ε / 2) e0 e1)
    have p4 := (hiff _).mp (hpt 0 (-(ε / 2)) e0 e2)
    have w1 := p1.1.1.2
    have w2 := p2.1.1.1
    have w3 := p3.1.2.2
    have w4 := p4.1.2.1
    simp only at w1 w2 w3 w4
    refine ⟨⟨⟨by linarith, by linarith⟩, by linarith, by linarith⟩, ?_⟩
    intro c hc hn
    have f0 := p0.2 c hc
    have f1 := p1.2 c hc
    have f2 := p2.2 c hc
    have f3 := p3.2 c hc
    have f4 := p4.2 c hc
    by_contra hle
    push Not at hle
    apply hn
    unfold multilayerModularity at f0 f1 f2 f3 f4 hle
    simp only [add_zero] at f0 f1 f2 f3 f4
    have hP : withinNullLayered Gi layer c = withinNullLayered Gi layer d.2 := by
      have g1 : 0 ≤ ε / 2 * (withinNullLayered Gi layer c - withinNullLayered Gi layer d.2) := by linarith
      have g2 : 0 ≤ ε / 2 * (withinNullLayered Gi layer d.2 - withinNullLayered Gi layer c) := by linarith
      have hε' : 0 < ε / 2 := by linarith
      have g1' := (mul_nonneg_iff_of_pos_left hε').mp g1
      have g2' := (mul_nonneg_iff_of_pos_left hε').mp g2
      linarith
    have hC : withinAdj Gx c = withinAdj Gx d.2 := by
      have g1 : 0 ≤ ε / 2 * (withinAdj Gx c - withinAdj Gx d.2) := by linarith
      have g2 : 0 ≤ ε / 2 * (withinAdj Gx d.2 - withinAdj Gx c) := by linarith
      have hε' : 0 < ε / 2 := by linarith
      have g1' := (mul_nonneg_iff_of_pos_left hε').mp g1
      have g2' := (mul_nonneg_iff_of_pos_left hε').mp g2
      linarith
    intro γ' ω'
    unfold multilayerModularity
    rw [hP, hC] at f0 hle ⊢
    linarith
  · rintro ⟨⟨⟨w1, w2⟩, w3, w4⟩, hbest⟩
    set S : Set (ℝ × ℝ) := Set.Ioo γ₀ γf ×ˢ Set.Ioo ω₀ ωf ∩
      ⋂ c ∈ {c | c ∈ ps ∧ ¬ SameMultilayer Gi Gx layer c d.2},
        {q | multilayerModularity Gi Gx layer q.1 q.2 c < multilayerModularity Gi Gx layer q.1 q.2 d.2} with hS
    have hopen : IsOpen S := by
      refine (isOpen_Ioo.prod isOpen_Ioo).inter ?_
      refine Set.Finite.isOpen_biInter ((List.finite_toSet ps).subset fun c hc => hc.1) fun c _ => ?_
      refine isOpen_lt ?_ ?_
      · unfold multilayerModularity; fun_prop
      · unfold multilayerModularity; fun_prop
    have hsub : S ⊆ convexHull ℝ {q | q ∈ d.1} := by
      rintro ⟨a, b⟩ ⟨⟨ha, hb⟩, hq⟩
      refine (hiff (a, b)).mpr ⟨⟨⟨ha.1.le, ha.2.le⟩, hb.1.le, hb.2.le⟩, fun c hc => ?_⟩
      by_cases hs : SameMultilayer Gi Gx layer c d.2
      · exact (hs a b).le
      · exact le_of_lt (Set.mem_iInter₂.mp hq c ⟨hc, hs⟩)
    refine interior_maximal hsub hopen ⟨⟨⟨w1, w2⟩, w3, w4⟩, ?_⟩
    rw [Set.mem_iInter₂]
    exact fun c hc => hbest c hc.1 hc.2

/-! ### Estimates along the threaded graph -/

theorem gammaOmegaEstimate_graph {test : Graph ℝ → Bool} {fsolve : (ℝ → ℝ) → ℝ → ℝ} {Gi Gx Gi' : Graph ℝ}
    {layer c : List Nat} {ωmax : ℝ} {model : String} {e : Option (Fl ℝ) × ℝ}
    (h : gammaOmegaEstimate test fsolve Gi Gx layer c ωmax model = .ok (e, Gi')) :
    ensureWeight test Gi.ecount Gi = .ok Gi' := by
  simp only [gammaOmegaEstimate_def] at h
  obtain ⟨T, h1, h⟩ := Py.bind_ok' h
  obtain ⟨m, h2, h⟩ := Py.bind_ok' h
  obtain ⟨G₁, h3, h⟩ := Py.bind_ok' h
  obtain ⟨⟨a, b, p, K⟩, h4, h⟩ := Py.bind_ok' h
  obtain ⟨u, h5, h⟩ := Py.bind_ok' h
  obtain ⟨w, h6, h⟩ := Py.bind_ok' h
  obtain ⟨-, rfl⟩ := Prod.mk.inj (Except.ok.inj h)
  exact h3

theorem gammaOmegaEstimate_thread {test : Graph ℝ → Bool} {fsolve : (ℝ → ℝ) → ℝ → ℝ} {Gi Gx Gi' : Graph ℝ}
    {layer : List Nat} {ωmax : ℝ} {model : String} (h : ensureWeight test Gi.ecount Gi = .ok Gi') (c : List Nat) :
    gammaOmegaEstimate test fsolve Gi' Gx layer c ωmax model = gammaOmegaEstimate test fsolve Gi Gx layer c ωmax model := by
  obtain ⟨v1, v2, -⟩ := ensureWeight_vcount h
  have he : Gi'.ecount = Gi.ecount := by unfold Graph.ecount; rw [v2]
  simp only [gammaOmegaEstimate_def]
  unfold leidenPartWithMembership
  rw [he, v1, ensureWeight_idem h, h]

/-- The estimates, if there are any. -/
noncomputable def estOf3 (test : Graph ℝ → Bool) (fsolve : (ℝ → ℝ) → ℝ → ℝ) (Gx : Graph ℝ) (layer : List Nat)
    (model : String) (Gi : Graph ℝ) (c : List Nat) : Option (Fl ℝ) × ℝ :=
  match gammaOmegaEstimate test fsolve Gi Gx layer c defaultOmegaMax model with | .ok eG => eG.1 | .error _ => (none, 0)

theorem domainsToEstimates_ok {test : Graph ℝ → Bool} {fsolve : (ℝ → ℝ) → ℝ → ℝ} {Gx : Graph ℝ} {layer : List Nat}
    {model : String} {Gi : Graph ℝ} {doms : List (List (ℝ × ℝ) × List Nat)}
    {ests : List (List (ℝ × ℝ) × List Nat × Option (Fl ℝ) × ℝ)} {G' : Graph ℝ}
    (h : domainsToEstimates test fsolve Gx layer model Gi doms = .ok (ests, G')) :
    ∃ est : List Nat → Option (Fl ℝ) × ℝ,
      (∀ d ∈ doms, gammaOmegaEstimate test fsolve Gi Gx layer d.2 defaultOmegaMax model = .ok (est d.2, G')) ∧
      ests = doms.map fun d => (d.1, d.2, (est d.2).1, (est d.2).2) := by
  have key : (doms ≠ [] → ensureWeight test Gi.ecount Gi = .ok G') ∧
      ∀ est : List Nat → Option (Fl ℝ) × ℝ,
        (∀ c e G'', gammaOmegaEstimate test fsolve Gi Gx layer c defaultOmegaMax model = .ok (e, G'') → est c = e) →
        (∀ d ∈ doms, gammaOmegaEstimate test fsolve Gi Gx layer d.2 defaultOmegaMax model = .ok (est d.2, G')) ∧
        ests = doms.map fun d => (d.1, d.2, (est d.2).1, (est d.2).2) := by
    induction doms generalizing Gi ests with
    | nil =>
      obtain ⟨rfl, rfl⟩ := Prod.mk.inj (Except.ok.inj h)
      simp
    | cons r rest ih =>
      unfold domainsToEstimates at h
      obtain ⟨⟨e, G₁⟩, h1, h⟩ := Py.bind_ok' h
      obtain ⟨⟨es, G₂⟩, h2, h⟩ := Py.bind_ok' h
      obtain ⟨rfl, rfl⟩ := Prod.mk.inj (Except.ok.inj h)
      have hg := gammaOmegaEstimate_graph h1
      have hth := gammaOmegaEstimate_thread (fsolve := fsolve) (Gx := Gx) (layer := layer) (ωmax := defaultOmegaMax)
        (model := model) hg
      have hec : G₁.ecount = Gi.ecount := by unfold Graph.ecount; rw [(ensureWeight_vcount hg).2.1]
      obtain ⟨i1, i2⟩ := ih h2
      have hG : G₁ = G₂ := by
        by_cases hr : rest = []
        · subst hr
          exact (Prod.mk.inj (Except.ok.inj h2)).2
        · have := i1 hr
          rw [hec, ensureWeight_idem hg] at this
          exact Except.ok.inj this
      subst hG
      refine ⟨fun _ => hg, fun est hest => ?_⟩
      obtain ⟨j1, j2⟩ := i2 est fun c e G'' hc => hest c e G'' (by rw [← hth]; exact hc)
      have he : est r.2 = e := hest _ _ _ h1
      constructor
      · intro r' hr'
        rcases List.mem_cons.mp hr' with rfl | hr'
        · rw [he]; exact h1
        · rw [← hth]; exact j1 r' hr'
      · simp only [List.map_cons, he, ← j2]
  obtain ⟨k1, k2⟩ := key
  obtain ⟨k3, k4⟩ := k2 (estOf3 test fsolve Gx layer model Gi) (fun c e G'' hc => by unfold estOf3; rw [hc])
  exact ⟨_, k3, k4⟩

theorem gammaOmegaEstimate_kind {test : Graph ℝ → Bool} {fsolve : (ℝ → ℝ) → ℝ → ℝ} {Gi Gx Gi' : Graph ℝ}
    {layer c : List Nat} {ωmax : ℝ} {model : String} {g : Fl ℝ} {ω : ℝ}
    (h : gammaOmegaEstimate test fsolve Gi Gx layer c ωmax model = .ok ((some g, ω), Gi')) :
    g = .nan ∨ ∃ γ, g = .fin γ := by
  simp only [gammaOmegaEstimate_def] at h
  obtain ⟨T, h1, h⟩ := Py.bind_ok' h
  obtain ⟨m, h2, h⟩ := Py.bind_ok' h
  obtain ⟨G₁, h3, h⟩ := Py.bind_ok' h
  obtain ⟨⟨a, b, p, K⟩, h4, h⟩ := Py.bind_ok' h
  obtain ⟨u, h5, h⟩ := Py.bind_ok' h
  obtain ⟨w, h6, h⟩ := Py.bind_ok' h
  obtain ⟨h7, -⟩ := Prod.mk.inj (Except.ok.inj h)
  obtain ⟨h8, -⟩ := Prod.mk.inj h7
  obtain ⟨-, -, -, n1, n2⟩ := c27_degenerate_estimates a b
  cases g with
  | fin x => exact Or.inr ⟨x, rfl⟩
  | nan => exact Or.inl rfl
  | pinf => exact absurd h8 n1
  | ninf => exact absurd h8 n2

/-- Everything the multilayer pipeline did, if it returned. -/
theorem pruneToMultilayerStable_facts {env : PruneEnv} (he : SoundPruneEnv env) {Gi Gx : Graph ℝ} {layer : List Nat}
    (hM : Multilayer Gi Gx layer) {model : String} {parts : List (List α)} (hp : ∀ p ∈ parts, p.length = Gi.vcount)
    {γ₀ γf ω₀ ωf : ℝ} {restrict : Option Nat} {st : Bool} {out : List (List Nat)} {G' : Graph ℝ}
    (h : pruneToMultilayerStable env Gi Gx layer model (.memberships parts) γ₀ γf ω₀ ωf restrict st =
      (some (.ok (out, G')) : Option _)) :
    ∃ ps : List (List Nat), (ps.Nodup ∧ ∀ c, c ∈ ps ↔ ∃ p, Candidate parts restrict p ∧ canon p = c) ∧
      ∃ doms, champ3D env.toChampEnv Gi Gx layer ps γ₀ γf ω₀ ωf = (some (.ok doms) : Option _) ∧
        (∀ d ∈ doms, ∃ e, gammaOmegaEstimate env.test env.fsolve Gi Gx layer d.2 defaultOmegaMax model = .ok (e, G')) ∧
        out.Sublist (doms.map fun d => d.2) ∧
        ∀ c, c ∈ out ↔ ∃ d ∈ doms, d.2 = c ∧ ∃ g ω,
          gammaOmegaEstimate env.test env.fsolve Gi Gx layer c defaultOmegaMax model = .ok ((some g, ω), G') ∧
          (g = .nan ∨ ∃ γ, g = .fin γ ∧ (γ, min ω (ωf - 1 / 1000)) ∈ interior (convexHull ℝ {q | q ∈ d.1})) := by
  unfold pruneToMultilayerStable at h
  cases st with
  | true => cases h
  | false =>
  simp only [Bool.false_eq_true, if_false] at h
  rw [Run.bind_ok] at h
  obtain ⟨ps₁, h1, h⟩ := h
  rw [Run.bind_ok] at h
  obtain ⟨ps, h2, h⟩ := h
  rw [Run.ofPy_ok] at h1 h2
  have hcand := candidates_ok he h1 h2
  refine ⟨ps, hcand, ?_⟩
  have hlen : ∀ c ∈ ps, c.length = Gi.vcount := by
    intro c hc
    obtain ⟨p, hpc, rfl⟩ := (hcand.2 c).mp hc
    rw [canon_length]; exact hp p hpc.1
  by_cases hps : ps.length = 0
  · rw [if_pos hps] at h
    obtain rfl := List.length_eq_zero_iff.mp hps
    obtain ⟨rfl, rfl⟩ := Prod.mk.inj (Except.ok.inj (Option.some.inj h))
    exact ⟨[], rfl, by simp, by simp, by simp⟩
  · rw [if_neg hps] at h
    rw [Run.bind_ok] at h
    obtain ⟨doms, h3, h⟩ := h
    rw [Run.bind_ok] at h
    obtain ⟨⟨ests, G₁⟩, h4, h⟩ := h
    rw [Run.ofPy_ok] at h4
    obtain ⟨rfl, rfl⟩ := Prod.mk.inj (Except.ok.inj (Option.some.inj h))
    obtain ⟨est, e1, e2⟩ := domainsToEstimates_ok h4
    have htest : ∀ d ∈ doms, ∀ g o, (sameSideOfAllEdges d.1 g (.fin o) = true ∨ False) →
        (g = .nan ∨ ∃ γ, g = .fin γ) → (g = .nan ∨ ∃ γ, g = .fin γ ∧ (γ, o) ∈ interior (convexHull ℝ {q | q ∈ d.1})) := by
      intro d hd g o hs hk
      rcases hk with rfl | ⟨γ, rfl⟩
      · exact Or.inl rfl
      · refine Or.inr ⟨γ, rfl, ?_⟩
        obtain ⟨l3, lnd, lcw, -⟩ := c23_boundary_order he.toSoundEnv hM hlen h3 d hd
        by_contra hn
        have := (c36_point_in_polygon (⟨l3, lnd, Or.inl lcw⟩ : ConvexPolygon d.1) d.2 γ o).2 hn
        unfold stablePartitions3D stableDomains at this
        rcases hs with hs | hs
        · simp [hs] at this
        · exact hs
    have htest' : ∀ d ∈ doms, ∀ g o, (g = .nan ∨ ∃ γ, g = .fin γ ∧ (γ, o) ∈ interior (convexHull ℝ {q | q ∈ d.1})) →
        sameSideOfAllEdges d.1 g (.fin o) = true := by
      intro d hd g o hk
      by_contra hs
      have hst : stablePartitions3D [(d.1, d.2, some g, some (.fin o))] = [d.2] := by
        rcases hk with rfl | ⟨γ, rfl, hin⟩
        · exact c37_nan_is_stable d.1 d.2 _ _ (Or.inl rfl)
        · obtain ⟨l3, lnd, lcw, -⟩ := c23_boundary_order he.toSoundEnv hM hlen h3 d hd
          exact (c36_point_in_polygon (⟨l3, lnd, Or.inl lcw⟩ : ConvexPolygon d.1) d.2 γ o).1 hin
      unfold stablePartitions3D stableDomains at hst
      simp [hs] at hst
    refine ⟨doms, h3, fun d hd => ⟨_, e1 d hd⟩, ?_, ?_⟩
    · have hs1 : (stablePartitions3D (truncateOmegas ωf ests)).Sublist ((truncateOmegas ωf ests).map fun d => d.2.1) := by
        unfold stablePartitions3D stableDomains
        exact List.filter_sublist.map _
      refine hs1.trans ?_
      rw [e2]
      clear h3 e1 e2 htest htest' hs1 h4
      unfold truncateOmegas
      induction doms with
      | nil => simp
      | cons d ds ih =>
        simp only [List.map_cons, List.filterMap_cons]
        split
        · rename_i hnone
          exact (ih).cons _
        · rename_i x hx
          have : x.2.1 = d.2 := by
            revert hx
            cases (est d.2).1 with
            | none => intro hx; cases hx
            | some g => intro hx; rw [← Option.some.inj hx]
          rw [List.map_cons, this]
          exact ih.cons_cons _
    · intro c
      unfold stablePartitions3D stableDomains truncateOmegas
      rw [List.mem_map]
      constructor
      · rintro ⟨x, hx, rfl⟩
        obtain ⟨hx, hside⟩ := List.mem_filter.mp hx
        obtain ⟨y, hy, hyx⟩ := List.mem_filterMap.mp hx
        rw [e2] at hy
        obtain ⟨d, hd, rfl⟩ := List.mem_map.mp hy
        cases hg : (est d.2).1 with
        | none => simp only [hg] at hyx; cases hyx
        | some g =>
          simp only [hg] at hyx
          obtain rfl := Option.some.inj hyx
          simp only at hside ⊢
          have hE := e1 d hd
          have hE' : est d.2 = (some g, (est d.2).2) := by rw [← hg]
          rw [hE'] at hE
          exact ⟨d, hd, rfl, g, (est d.2).2, hE, htest d hd g _ (Or.inl hside) (gammaOmegaEstimate_kind hE)⟩
      · rintro ⟨d, hd, rfl, g, ω, hE, hk⟩
        have hE' : est d.2 = (some g, ω) := by
          have := e1 d hd
          rw [hE] at this
          exact (Prod.mk.inj (Except.ok.inj this)).1.symm
        refine ⟨(d.1, d.2, some g, some (.fin (min ω (ωf - 1 / 1000)))), List.mem_filter.mpr ⟨List.mem_filterMap.mpr
          ⟨(d.1, d.2, some g, ω), ?_, rfl⟩, ?_⟩, rfl⟩
        · rw [e2]
          exact List.mem_map.mpr ⟨d, hd, by rw [hE']⟩
        · exact htest' d hd g _ hk

end Verif
