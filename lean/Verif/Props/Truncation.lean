import Verif.Props.Warnings
import Verif.Props.Explicit3D

/-!
# Property C68: the truncation warning of the multilayer pruning pipeline
-/

namespace Verif
open Verif.Spec Verif.Props

variable {α : Type} [LinearOrder α]

/-- The dominant partitions, their estimates and the truncation warning of a run that returned. -/
theorem truncation_facts {env : PruneEnv} (he : SoundPruneEnv env) {Gi Gx : Graph ℝ} {layer : List Nat}
    (hM : Multilayer Gi Gx layer) {model : String} {parts : List (List α)} (hp : ∀ p ∈ parts, p.length = Gi.vcount)
    {W : Window} {restrict : Option Nat} {out : List (List Nat)} {G' : Graph ℝ}
    (h : pruneToMultilayerStable env Gi Gx layer model (.memberships parts) W.γ₀ W.γf W.ω₀ W.ωf restrict false =
      (some (.ok (out, G')) : Option _)) :
    ∃ (doms : List (List (ℝ × ℝ) × List Nat)) (est : List Nat → Option (Fl ℝ) × ℝ),
      (∀ d ∈ doms, ∃ p, Candidate parts restrict p ∧ canon p = d.2 ∧
        ∃ γ ω, BestInside Gi Gx layer (Candidate parts restrict) W p γ ω) ∧
      (∀ p γ ω, Candidate parts restrict p → BestInside Gi Gx layer (Candidate parts restrict) W p γ ω →
        ∃ d ∈ doms, ∃ q, Candidate parts restrict q ∧ canon q = d.2 ∧ SameMultilayer Gi Gx layer q p) ∧
      (∀ d ∈ doms, gammaOmegaEstimate env.test env.fsolve Gi Gx layer d.2 defaultOmegaMax model = .ok (est d.2, G')) ∧
      (∀ c ∈ out, ∃ d ∈ doms, d.2 = c ∧ (est c).1 ≠ none) ∧
      (Warning.truncating ∈ truncationWarning W.ωf
          (domainEstimates env Gi Gx layer model (.memberships parts) W.γ₀ W.γf W.ω₀ W.ωf restrict) ↔
        ∃ d ∈ doms, (est d.2).1 ≠ none ∧ W.ωf ≤ (est d.2).2) := by
  have hfacts := pruneToMultilayerStable_facts he hM hp h
  unfold pruneToMultilayerStable at h
  simp only [Bool.false_eq_true, if_false] at h
  rw [Run.bind_ok] at h
  obtain ⟨ps₁, h1, h⟩ := h
  rw [Run.bind_ok] at h
  obtain ⟨ps, h2, h⟩ := h
  rw [Run.ofPy_ok] at h1 h2
  obtain ⟨-, hcand⟩ := candidates_ok he h1 h2
  have hlen : ∀ c ∈ ps, c.length = Gi.vcount := by
    intro c hc
    obtain ⟨p, hpc, rfl⟩ := (hcand c).mp hc
    rw [canon_length]; exact hp p hpc.1
  have hde : domainEstimates env Gi Gx layer model (.memberships parts) W.γ₀ W.γf W.ω₀ W.ωf restrict =
      (if ps.length = 0 then (pure none : Run _) else do
        let domains ← champ3D env.toChampEnv Gi Gx layer ps W.γ₀ W.γf W.ω₀ W.ωf
        let estG ← Run.ofPy (domainsToEstimates env.test env.fsolve Gx layer model Gi domains)
        return some estG.1) := by
    unfold domainEstimates
    rw [h1, run_ofPy_bind, h2, run_ofPy_bind]
  by_cases hz : ps.length = 0
  · rw [if_pos hz] at h
    rw [hde, if_pos hz]
    obtain ⟨rfl, rfl⟩ := Prod.mk.inj (Except.ok.inj (Option.some.inj h))
    refine ⟨[], fun _ => (none, 0), by simp, fun p γ ω hpc _ => ?_, by simp, by simp, ?_⟩
    · have := (hcand _).mpr ⟨p, hpc, rfl⟩
      rw [List.length_eq_zero_iff.mp hz] at this
      cases this
    · constructor
      · intro h; cases h
      · rintro ⟨d, hd, -⟩; cases hd
  · rw [if_neg hz] at h
    rw [hde, if_neg hz]
    rw [Run.bind_ok] at h
    obtain ⟨doms, hch, h⟩ := h
    rw [Run.bind_ok] at h
    obtain ⟨⟨ests, G₁⟩, h4, h⟩ := h
    rw [Run.ofPy_ok] at h4
    obtain ⟨rfl, rfl⟩ := Prod.mk.inj (Except.ok.inj (Option.some.inj h))
    obtain ⟨est, e1, e2⟩ := domainsToEstimates_ok h4
    have hmc : ∀ q, Candidate parts restrict q → ∀ γ ω, multilayerModularity Gi Gx layer γ ω (canon q) =
        multilayerModularity Gi Gx layer γ ω q := fun q hq γ ω => multilayer_canon hM (hp q hq.1) γ ω
    have hval : (do
        let domains ← champ3D env.toChampEnv Gi Gx layer ps W.γ₀ W.γf W.ω₀ W.ωf
        let estG ← Run.ofPy (domainsToEstimates env.test env.fsolve Gx layer model Gi domains)
        return some estG.1 : Run _) = (some (.ok (some ests)) : Option _) :=
      Run.bind_ok.mpr ⟨doms, hch, Run.bind_ok.mpr ⟨(ests, G₁), Run.ofPy_ok.mpr h4, rfl⟩⟩
    refine ⟨doms, est, fun d hdm => ?_, fun p γ ω hpc hb => ?_, e1, fun c hc => ?_, ?_⟩
    · obtain ⟨hmem, -, -⟩ := c21_domains_correct he.toSoundEnv hM hlen hch d hdm
      obtain ⟨p, hpc, hpd⟩ := (hcand _).mp hmem
      refine ⟨p, hpc, hpd, ?_⟩
      obtain ⟨⟨a, b⟩, hab⟩ := (c22_domains_disjoint he.toSoundEnv hM hlen hch).2.2.2 d hdm
      obtain ⟨hw, hb⟩ := (domain_interior he.toSoundEnv hM hlen hch hdm a b).mp hab
      refine ⟨a, b, hw, fun q hq hnq => ?_⟩
      rw [← hmc q hq, ← hmc p hpc, hpd]
      refine hb _ ((hcand _).mpr ⟨q, hq, rfl⟩) fun hs => hnq fun γ' ω' => ?_
      rw [← hmc q hq, hs, ← hpd, hmc p hpc]
    · obtain ⟨⟨⟨w1, w2⟩, w3, w4⟩, hb⟩ := hb
      obtain ⟨d, hdm, -, hs⟩ := c22_strictly_optimal_returned he.toSoundEnv hM hlen hch ((hcand _).mpr ⟨p, hpc, rfl⟩)
        (γ := γ) (ω := ω) ⟨w1.le, w2.le⟩ ⟨w3.le, w4.le⟩ (by
          rintro c' hc' ⟨γ', ω', hne⟩
          obtain ⟨q, hq, rfl⟩ := (hcand c').mp hc'
          rw [hmc q hq, hmc p hpc] at hne ⊢
          exact hb q hq fun hs => hne (hs γ' ω'))
      obtain ⟨hmem, -, -⟩ := c21_domains_correct he.toSoundEnv hM hlen hch d hdm
      obtain ⟨q, hq, hqd⟩ := (hcand _).mp hmem
      exact ⟨d, hdm, q, hq, hqd, fun γ' ω' => by rw [← hmc q hq, hqd, hs, hmc p hpc]⟩
    · obtain ⟨-, -, doms', -, -, -, hout⟩ := hfacts
      obtain ⟨-, -, -, g, ω, hE, -⟩ := (hout c).mp hc
      have hsub : c ∈ doms.map fun d => d.2 := by
        unfold stablePartitions3D stableDomains truncateOmegas at hc
        obtain ⟨x, hx, rfl⟩ := List.mem_map.mp hc
        obtain ⟨y, hy, hyx⟩ := List.mem_filterMap.mp (List.mem_filter.mp hx).1
        rw [e2] at hy
        obtain ⟨d, hd, rfl⟩ := List.mem_map.mp hy
        refine List.mem_map.mpr ⟨d, hd, ?_⟩
        cases hg : (est d.2).1 with
        | none => simp only [hg] at hyx; cases hyx
        | some g => simp only [hg] at hyx; rw [← Option.some.inj hyx]
      obtain ⟨d, hd, rfl⟩ := List.mem_map.mp hsub
      refine ⟨d, hd, rfl, ?_⟩
      have := e1 d hd
      rw [hE] at this
      rw [← (Prod.mk.inj (Except.ok.inj this)).1]
      simp
    · rw [hval]
      show Warning.truncating ∈ (if needsTruncation W.ωf ests = true then [Warning.truncating] else []) ↔ _
      rw [mem_warnIf, e2]
      unfold needsTruncation
      simp only [List.any_map, List.any_eq_true, Function.comp_apply, Bool.and_eq_true, decide_eq_true_eq, and_true,
        Option.isSome_iff_ne_none]

end Verif

namespace Verif.Props
open Verif Verif.Spec

variable {α : Type} [LinearOrder α] {env : PruneEnv} {Gi Gx : Graph ℝ} {layer : List Nat} {parts : List (List α)} {W : Window}
  {model : String} {restrict : Option Nat} {out : List (List Nat)} {G' : Graph ℝ}

theorem truncating_mem :
    Warning.truncating ∈ (pruneMultilayerWarned env Gi Gx layer model (.memberships parts) W.γ₀ W.γf W.ω₀ W.ωf restrict
        false).1 ↔
      Warning.truncating ∈ truncationWarning W.ωf
        (domainEstimates env Gi Gx layer model (.memberships parts) W.γ₀ W.γf W.ω₀ W.ωf restrict) := by
  unfold pruneMultilayerWarned
  simp only [Bool.false_eq_true, if_false, List.mem_append, mem_warnIf]
  simp

/-- **C68 (only if).** The truncation warning is emitted only if some candidate that is strictly best somewhere inside the
window has a gamma estimate and an omega estimate at or above `omega_end`. -/
theorem c68_warned (he : SoundPruneEnv env) (hM : Multilayer Gi Gx layer) (hp : ∀ p ∈ parts, p.length = Gi.vcount)
    (h : (pruneMultilayerWarned env Gi Gx layer model (.memberships parts) W.γ₀ W.γf W.ω₀ W.ωf restrict false).2 =
      (some (.ok (out, G')) : Option _))
    (hwarn : .truncating ∈ (pruneMultilayerWarned env Gi Gx layer model (.memberships parts) W.γ₀ W.γf W.ω₀ W.ωf restrict
      false).1) :
    ∃ p γ ω c g o, Candidate parts restrict p ∧ BestInside Gi Gx layer (Candidate parts restrict) W p γ ω ∧
      sortedTuple p = .ok c ∧
      gammaOmegaEstimate env.test env.fsolve Gi Gx layer c defaultOmegaMax model = .ok ((some g, o), G') ∧ W.ωf ≤ o := by
  obtain ⟨doms, est, h1, -, h3, -, h5⟩ := truncation_facts he hM hp h
  obtain ⟨d, hd, hne, hle⟩ := h5.mp (truncating_mem.mp hwarn)
  obtain ⟨p, hpc, hpd, γ, ω, hb⟩ := h1 d hd
  obtain ⟨g, hg⟩ := Option.ne_none_iff_exists'.mp hne
  refine ⟨p, γ, ω, d.2, g, (est d.2).2, hpc, hb, by rw [sortedTuple_eq, hpd], ?_, hle⟩
  rw [h3 d hd, ← hg]

/-- **C68 (if).** The warning is emitted if some candidate with coefficients of its own that is strictly best somewhere
inside the window has a gamma estimate and an omega estimate at or above `omega_end`. -/
theorem c68_warns (he : SoundPruneEnv env) (hM : Multilayer Gi Gx layer) (hp : ∀ p ∈ parts, p.length = Gi.vcount)
    (h : (pruneMultilayerWarned env Gi Gx layer model (.memberships parts) W.γ₀ W.γf W.ω₀ W.ωf restrict false).2 =
      (some (.ok (out, G')) : Option _)) {p : List α} (hpc : Candidate parts restrict p)
    (hdist : ∀ q, Candidate parts restrict q → SameMultilayer Gi Gx layer q p → SamePartition q p) {γ ω : ℝ}
    (hb : BestInside Gi Gx layer (Candidate parts restrict) W p γ ω) {c : List Nat} (hc : sortedTuple p = .ok c)
    {g : Fl ℝ} {o : ℝ} {G₁ : Graph ℝ}
    (hE : gammaOmegaEstimate env.test env.fsolve Gi Gx layer c defaultOmegaMax model = .ok ((some g, o), G₁))
    (ho : W.ωf ≤ o) :
    .truncating ∈ (pruneMultilayerWarned env Gi Gx layer model (.memberships parts) W.γ₀ W.γf W.ω₀ W.ωf restrict
      false).1 := by
  obtain ⟨doms, est, -, h2, h3, -, h5⟩ := truncation_facts he hM hp h
  refine truncating_mem.mpr (h5.mpr ?_)
  obtain ⟨d, hd, q, hq, hqd, hs⟩ := h2 p γ ω hpc hb
  refine ⟨d, hd, ?_⟩
  rw [sortedTuple_eq] at hc
  obtain rfl := Except.ok.inj hc
  have hdp : d.2 = canon p := by rw [← hqd, (canon_eq_iff q p).mpr (hdist q hq hs)]
  have := h3 d hd
  rw [hdp, hE] at this
  rw [hdp, ← (Prod.mk.inj (Except.ok.inj this)).1]
  exact ⟨by simp, ho⟩

/-- **C68 (no silent overshoot).** Without the truncation warning, every returned partition has an omega estimate below
`omega_end`. -/
theorem c68_unwarned (he : SoundPruneEnv env) (hM : Multilayer Gi Gx layer) (hp : ∀ p ∈ parts, p.length = Gi.vcount)
    (h : (pruneMultilayerWarned env Gi Gx layer model (.memberships parts) W.γ₀ W.γf W.ω₀ W.ωf restrict false).2 =
      (some (.ok (out, G')) : Option _))
    (hwarn : .truncating ∉ (pruneMultilayerWarned env Gi Gx layer model (.memberships parts) W.γ₀ W.γf W.ω₀ W.ωf restrict
      false).1) :
    ∀ c ∈ out, ∃ g o, gammaOmegaEstimate env.test env.fsolve Gi Gx layer c defaultOmegaMax model =
      .ok ((some g, o), G') ∧ o < W.ωf := by
  obtain ⟨doms, est, -, -, h3, h4, h5⟩ := truncation_facts he hM hp h
  intro c hc
  obtain ⟨d, hd, rfl, hne⟩ := h4 c hc
  obtain ⟨g, hg⟩ := Option.ne_none_iff_exists'.mp hne
  refine ⟨g, (est d.2).2, by rw [h3 d hd, ← hg], ?_⟩
  by_contra hle
  exact hwarn (truncating_mem.mpr (h5.mpr ⟨d, hd, hne, not_lt.mp hle⟩))

/-- **C68 (silent truncation).** An omega estimate in the last thousandth below `omega_end` is moved to
`omega_end - 0.001` without a warning: if every dominant candidate's omega estimate is below `omega_end` there is no
warning, yet a partition with its own coefficients and such an estimate is judged at the moved point. -/
theorem c68_silent_truncation (he : SoundPruneEnv env) (hM : Multilayer Gi Gx layer)
    (hp : ∀ p ∈ parts, p.length = Gi.vcount)
    (h : (pruneMultilayerWarned env Gi Gx layer model (.memberships parts) W.γ₀ W.γf W.ω₀ W.ωf restrict false).2 =
      (some (.ok (out, G')) : Option _))
    (hbelow : ∀ q c g o G₁, Candidate parts restrict q → sortedTuple q = .ok c →
      gammaOmegaEstimate env.test env.fsolve Gi Gx layer c defaultOmegaMax model = .ok ((some g, o), G₁) → o < W.ωf)
    {p : List α} (hpc : Candidate parts restrict p)
    (hdist : ∀ q, Candidate parts restrict q → SameMultilayer Gi Gx layer q p → SamePartition q p) {γ ω : ℝ}
    (hE : HasEstimates env.test env.fsolve Gi Gx layer model p γ ω) (hω : W.ωf - 1 / 1000 < ω) {c : List Nat}
    (hc : sortedTuple p = .ok c) :
    .truncating ∉ (pruneMultilayerWarned env Gi Gx layer model (.memberships parts) W.γ₀ W.γf W.ω₀ W.ωf restrict false).1 ∧
    (c ∈ out ↔ BestInside Gi Gx layer (Candidate parts restrict) W p γ (W.ωf - 1 / 1000)) := by
  constructor
  · intro hwarn
    obtain ⟨q, γ', ω', c', g, o, hq, -, hc', hE', hle⟩ := c68_warned he hM hp h hwarn
    exact absurd (hbelow q c' g o G' hq hc' hE') (not_lt.mpr hle)
  · have h' : pruneToMultilayerStable env Gi Gx layer model (.memberships parts) W.γ₀ W.γf W.ω₀ W.ωf restrict false =
        (some (.ok (out, G')) : Option _) := h
    rw [c44_unique_coefficients he hM hp h' hpc hc hdist]
    obtain ⟨c₁, G₁, hc₁, hE₁⟩ := hE
    constructor
    · rintro (⟨γ', ω', ⟨c₂, G₂, hc₂, hE₂⟩, hb⟩ | ⟨⟨c₂, ω', G₂, hc₂, hE₂⟩, -⟩)
      · rw [hc₁] at hc₂
        obtain rfl := Except.ok.inj hc₂
        rw [hE₁] at hE₂
        simp only [Except.ok.injEq, Prod.mk.injEq, Option.some.injEq, Fl.fin.injEq] at hE₂
        obtain ⟨⟨rfl, rfl⟩, -⟩ := hE₂
        rwa [min_eq_right hω.le] at hb
      · rw [hc₁] at hc₂
        obtain rfl := Except.ok.inj hc₂
        rw [hE₁] at hE₂
        simp at hE₂
    · intro hb
      exact Or.inl ⟨γ, ω, ⟨c₁, G₁, hc₁, hE₁⟩, by rw [min_eq_right hω.le]; exact hb⟩

/-- The partition `{0,1},{2}` copied to both layers persists fully: its omega estimate is 1000, and with `omega_end = 2`
pruning it alone warns. -/
example : ∃ out G', (pruneMultilayerWarned pruneEnv gIntraR gInterR [0, 0, 0, 1, 1, 1] "temporal"
      (.memberships [[0, 0, 1, 0, 0, 1]]) 0 2 0 2 none false).2 = (some (.ok (out, G')) : Option _) ∧
    .truncating ∈ (pruneMultilayerWarned pruneEnv gIntraR gInterR [0, 0, 0, 1, 1, 1] "temporal"
      (.memberships [[0, 0, 1, 0, 0, 1]]) 0 2 0 2 none false).1 := by
  have hA : withinAdj gIntraR [0, 0, 1, 0, 0, 1] = 4 := by
    simp [withinAdj, gIntraR, adj, Finset.sum_range_succ]; norm_num
  have hX : withinAdj gInterR [0, 0, 1, 0, 0, 1] = 3 := by
    simp [withinAdj, gInterR, adj, Finset.sum_range_succ]; norm_num
  have hP : withinNullLayered gIntraR [0, 0, 0, 1, 1, 1] [0, 0, 1, 0, 0, 1] = 5 := by
    simp [withinNullLayered, gIntraR, adj, rowSum, colSum, layerTotal, Finset.sum_range_succ]; norm_num
  have hec : 2 * (gIntraR.ecount : ℝ) = 8 := by norm_num [gIntraR, Graph.ecount]
  have hd : ([0, 0, 1, 0, 0, 1] : List Nat).dedup.length = 2 := by decide
  have hE : HasEstimates pruneEnv.test pruneEnv.fsolve gIntraR gInterR [0, 0, 0, 1, 1, 1] "temporal" [0, 0, 1, 0, 0, 1]
      (logMean (4 / 5) ((8 - 4) / (8 - 5))) 1000 := by
    rw [c69_has_estimates gIntraR_temporal (fun h => by cases h) rfl, hA, hP, hX, hec, hd]
    refine ⟨by norm_num, by norm_num, by norm_num, by norm_num, rfl, ?_⟩
    unfold temporalCoupling copying
    norm_num
  have hp : ∀ p ∈ ([[0, 0, 1, 0, 0, 1]] : List (List Nat)), p.length = gIntraR.vcount := by decide
  obtain ⟨out, G', h⟩ := c69_returns (W := ⟨0, 2, 0, 2⟩) (restrict := none) pruneEnv_sound exactEnv_exact gIntraR_temporal
    (fun h => by cases h) hp (by norm_num) (by norm_num) (by
      rintro q ⟨hq, -⟩ ⟨-, hf, -⟩
      obtain rfl := List.mem_singleton.mp hq
      rw [hd, hX] at hf
      unfold copying at hf
      norm_num at hf)
  obtain ⟨c, G₁, hc, hE'⟩ := hE
  refine ⟨out, G', h, ?_⟩
  exact c68_warns (W := ⟨0, 2, 0, 2⟩) (γ := 1) (ω := 1) pruneEnv_sound gIntraR_multilayer hp h ⟨by simp, by simp⟩
    (fun q hq _ => by obtain rfl := List.mem_singleton.mp hq.1; exact ⟨rfl, fun _ _ _ _ => Iff.rfl⟩)
    (best_alone (by norm_num) (by norm_num) (by norm_num) (by norm_num)) hc hE' (by norm_num)

end Verif.Props
