import Verif.Proofs.Prune3D
import Verif.Props.Prune

/-!
# Properties C43–C45 (and C40–C42 for multilayer networks): `prune_to_multilayer_stable_partitions`
-/

namespace Verif.Props
open Verif Verif.Spec

variable {α β : Type} [LinearOrder α] [LinearOrder β] {env env' : PruneEnv} {Gi Gx : Graph ℝ} {layer : List Nat}
  {model : String} {parts : List (List α)} {parts' : List (List β)} {W : Window}
  {restrict restrict' : Option Nat} {st st' : Bool} {out out' : List (List Nat)} {G' G'' : Graph ℝ}

/-- **C43.** Whatever the LP solver, sampler, scheduler, root finder and set order do: every returned partition is the
canonical form of an input (with the requested number of communities); its gamma estimate is not `None`; it is NaN, or a
real number `γ` such that `(γ, min(ω, omega_end - 0.001))` lies strictly inside the window, where no candidate is better
and every candidate of different modularity is strictly worse. -/
theorem c43_sound (he : SoundPruneEnv env) (hM : Multilayer Gi Gx layer) (hp : ∀ p ∈ parts, p.length = Gi.vcount)
    (h : pruneToMultilayerStable env Gi Gx layer model (.memberships parts) W.γ₀ W.γf W.ω₀ W.ωf restrict st =
      (some (.ok (out, G')) : Option _)) :
    ∀ c ∈ out, (∃ p, Candidate parts restrict p ∧ sortedTuple p = .ok c) ∧
      ∃ g ω, gammaOmegaEstimate env.test env.fsolve Gi Gx layer c defaultOmegaMax model = .ok ((some g, ω), G') ∧
        (g = .nan ∨ ∃ γ, g = .fin γ ∧
          BestInside Gi Gx layer (Candidate parts restrict) W c γ (min ω (W.ωf - 1 / 1000)) ∧
          ∀ q, Candidate parts restrict q →
            multilayerModularity Gi Gx layer γ (min ω (W.ωf - 1 / 1000)) q ≤
              multilayerModularity Gi Gx layer γ (min ω (W.ωf - 1 / 1000)) c) := by
  obtain ⟨ps, ⟨hnd, hps⟩, doms, hch, hest, hsub, hout⟩ := pruneToMultilayerStable_facts he hM hp h
  have hlen : ∀ c ∈ ps, c.length = Gi.vcount := by
    intro c hc
    obtain ⟨p, hpc, rfl⟩ := (hps c).mp hc
    rw [canon_length]; exact hp p hpc.1
  intro c hc
  obtain ⟨d, hd, rfl, g, ω, hE, hk⟩ := (hout c).mp hc
  obtain ⟨hmem, -, -⟩ := c21_domains_correct he.toSoundEnv hM hlen hch d hd
  obtain ⟨p, hpc, hpr⟩ := (hps _).mp hmem
  refine ⟨⟨p, hpc, by rw [sortedTuple_eq, hpr]⟩, g, ω, hE, ?_⟩
  rcases hk with rfl | ⟨γ, rfl, hin⟩
  · exact Or.inl rfl
  · obtain ⟨hw, hb⟩ := (domain_interior he.toSoundEnv hM hlen hch hd γ _).mp hin
    have hb' : ∀ q, Candidate parts restrict q → ¬ SameMultilayer Gi Gx layer q d.2 →
        multilayerModularity Gi Gx layer γ (min ω (W.ωf - 1 / 1000)) q <
          multilayerModularity Gi Gx layer γ (min ω (W.ωf - 1 / 1000)) d.2 := by
      intro q hq hn
      rw [← multilayer_canon hM (hp q hq.1)]
      refine hb _ ((hps _).mpr ⟨q, hq, rfl⟩) fun hs => hn fun γ' ω' => ?_
      rw [← multilayer_canon hM (hp q hq.1), hs]
    refine Or.inr ⟨γ, rfl, ⟨hw, hb'⟩, fun q hq => ?_⟩
    by_cases hs : SameMultilayer Gi Gx layer q d.2
    · exact (hs _ _).le
    · exact (hb' q hq hs).le

/-- **C43.** No partition is returned twice; two returned partitions never have the same modularity everywhere. -/
theorem c43_no_duplicates (he : SoundPruneEnv env) (hM : Multilayer Gi Gx layer)
    (hp : ∀ p ∈ parts, p.length = Gi.vcount)
    (h : pruneToMultilayerStable env Gi Gx layer model (.memberships parts) W.γ₀ W.γf W.ω₀ W.ωf restrict st =
      (some (.ok (out, G')) : Option _)) :
    out.Nodup ∧ out.Pairwise fun c d => ¬ SameMultilayer Gi Gx layer c d := by
  obtain ⟨ps, ⟨hnd, hps⟩, doms, hch, hest, hsub, hout⟩ := pruneToMultilayerStable_facts he hM hp h
  have hlen : ∀ c ∈ ps, c.length = Gi.vcount := by
    intro c hc
    obtain ⟨p, hpc, rfl⟩ := (hps c).mp hc
    rw [canon_length]; exact hp p hpc.1
  have hpw : (doms.map fun d => d.2).Pairwise fun c d => ¬ SameMultilayer Gi Gx layer c d := by
    rw [List.pairwise_map]
    refine (c22_domains_disjoint he.toSoundEnv hM hlen hch).2.1.imp ?_
    rintro r s ⟨γ, ω, hne⟩ hs
    exact hne (hs γ ω)
  have := hpw.sublist hsub
  exact ⟨this.imp fun hn => by rintro rfl; exact hn fun _ _ => rfl, this⟩

/-- **C44.** Exact characterisation of the result for an input with coefficients of its own: its canonical form is returned
iff it is strictly best, inside the window, at its own (truncated) estimate – or its gamma estimate is NaN and it is best
anywhere inside the window. -/
theorem c44_unique_coefficients (he : SoundPruneEnv env) (hM : Multilayer Gi Gx layer)
    (hp : ∀ p ∈ parts, p.length = Gi.vcount)
    (h : pruneToMultilayerStable env Gi Gx layer model (.memberships parts) W.γ₀ W.γf W.ω₀ W.ωf restrict st =
      (some (.ok (out, G')) : Option _))
    {p : List α} (hpc : Candidate parts restrict p) {c : List Nat} (hpr : sortedTuple p = .ok c)
    (hdist : ∀ q, Candidate parts restrict q → SameMultilayer Gi Gx layer q p → SamePartition q p) :
    c ∈ out ↔ StableMultilayer env.test env.fsolve Gi Gx layer model (Candidate parts restrict) W p ∨
      NanMultilayer env.test env.fsolve Gi Gx layer model (Candidate parts restrict) W p := by
  obtain ⟨ps, ⟨hnd, hps⟩, doms, hch, hest, hsub, hout⟩ := pruneToMultilayerStable_facts he hM hp h
  have hlen : ∀ c ∈ ps, c.length = Gi.vcount := by
    intro c hc
    obtain ⟨p, hpc, rfl⟩ := (hps c).mp hc
    rw [canon_length]; exact hp p hpc.1
  have hcan : ∀ q, Candidate parts restrict q → canon q ∈ ps := fun q hq => (hps _).mpr ⟨q, hq, rfl⟩
  have hmc : ∀ q, Candidate parts restrict q → ∀ γ ω, multilayerModularity Gi Gx layer γ ω (canon q) =
      multilayerModularity Gi Gx layer γ ω q := fun q hq γ ω => multilayer_canon hM (hp q hq.1) γ ω
  rw [sortedTuple_eq] at hpr
  obtain rfl := Except.ok.inj hpr
  have hiff : ∀ d ∈ doms, d.2 = canon p → ∀ γ ω, (γ, ω) ∈ interior (convexHull ℝ {q | q ∈ d.1}) ↔
      BestInside Gi Gx layer (Candidate parts restrict) W p γ ω := by
    intro d hd hdp γ ω
    rw [domain_interior he.toSoundEnv hM hlen hch hd γ ω, hdp]
    unfold BestInside
    refine and_congr_right fun _ => ⟨fun hb q hq hn => ?_, fun hb c hc hn => ?_⟩
    · rw [← hmc q hq, ← hmc p hpc]
      refine hb _ (hcan q hq) fun hs => hn fun γ' ω' => ?_
      rw [← hmc q hq, hs, hmc p hpc]
    · obtain ⟨q, hq, rfl⟩ := (hps c).mp hc
      rw [hmc q hq, hmc p hpc]
      refine hb q hq fun hs => hn fun γ' ω' => ?_
      rw [hmc q hq, hs, hmc p hpc]
  have hex : ∀ γ ω, BestInside Gi Gx layer (Candidate parts restrict) W p γ ω → ∃ d ∈ doms, d.2 = canon p := by
    rintro γ ω ⟨⟨⟨w1, w2⟩, w3, w4⟩, hb⟩
    obtain ⟨d, hd, -, hs⟩ := c22_strictly_optimal_returned he.toSoundEnv hM hlen hch (hcan p hpc) (γ := γ) (ω := ω)
      ⟨w1.le, w2.le⟩ ⟨w3.le, w4.le⟩ (by
        rintro c' hc' ⟨γ', ω', hne⟩
        obtain ⟨q, hq, rfl⟩ := (hps c').mp hc'
        rw [hmc q hq, hmc p hpc] at hne ⊢
        exact hb q hq fun hs => hne (hs γ' ω'))
    obtain ⟨hmem, -, -⟩ := c21_domains_correct he.toSoundEnv hM hlen hch d hd
    obtain ⟨q, hq, hqd⟩ := (hps _).mp hmem
    refine ⟨d, hd, ?_⟩
    rw [← hqd]
    exact (canon_eq_iff q p).mpr (hdist q hq fun γ' ω' => by rw [← hmc q hq, hqd, hs, hmc p hpc])
  have hG : ∀ d ∈ doms, ∀ e G₁, gammaOmegaEstimate env.test env.fsolve Gi Gx layer d.2 defaultOmegaMax model =
      .ok (e, G₁) → G₁ = G' := by
    intro d hd e G₁ hE
    obtain ⟨e', hE'⟩ := hest d hd
    rw [hE] at hE'
    exact (Prod.mk.inj (Except.ok.inj hE')).2
  rw [hout]
  constructor
  · rintro ⟨d, hd, hdp, g, ω, hE, rfl | ⟨γ, rfl, hin⟩⟩
    · refine Or.inr ⟨⟨canon p, ω, G', sortedTuple_eq p, hE⟩, ?_⟩
      obtain ⟨⟨a, b⟩, hab⟩ := (c22_domains_disjoint he.toSoundEnv hM hlen hch).2.2.2 d hd
      exact ⟨a, b, (hiff d hd hdp a b).mp hab⟩
    · exact Or.inl ⟨γ, ω, ⟨canon p, G', sortedTuple_eq p, hE⟩, (hiff d hd hdp _ _).mp hin⟩
  · rintro (⟨γ, ω, ⟨c, G₁, hc, hE⟩, hb⟩ | ⟨⟨c, ω, G₁, hc, hE⟩, a, b, hb⟩)
    · rw [sortedTuple_eq] at hc
      obtain rfl := Except.ok.inj hc
      obtain ⟨d, hd, hdp⟩ := hex _ _ hb
      obtain rfl := hG d hd _ _ (by rw [hdp]; exact hE)
      exact ⟨d, hd, hdp, _, ω, hE, Or.inr ⟨γ, rfl, (hiff d hd hdp _ _).mpr hb⟩⟩
    · rw [sortedTuple_eq] at hc
      obtain rfl := Except.ok.inj hc
      obtain ⟨d, hd, hdp⟩ := hex _ _ hb
      obtain rfl := hG d hd _ _ (by rw [hdp]; exact hE)
      exact ⟨d, hd, hdp, _, ω, hE, Or.inl rfl⟩

/-- **C44.** If different candidates have different coefficients, the result is exactly the set of canonical forms of the
candidates that are stable or have a NaN estimate and are best somewhere inside the window. -/
theorem c44_characterisation (he : SoundPruneEnv env) (hM : Multilayer Gi Gx layer)
    (hp : ∀ p ∈ parts, p.length = Gi.vcount)
    (hdist : ∀ p q, Candidate parts restrict p → Candidate parts restrict q → SameMultilayer Gi Gx layer p q →
      SamePartition p q)
    (h : pruneToMultilayerStable env Gi Gx layer model (.memberships parts) W.γ₀ W.γf W.ω₀ W.ωf restrict st =
      (some (.ok (out, G')) : Option _)) (c : List Nat) :
    c ∈ out ↔ ∃ p, Candidate parts restrict p ∧ sortedTuple p = .ok c ∧
      (StableMultilayer env.test env.fsolve Gi Gx layer model (Candidate parts restrict) W p ∨
        NanMultilayer env.test env.fsolve Gi Gx layer model (Candidate parts restrict) W p) := by
  constructor
  · intro hc
    obtain ⟨⟨p, hpc, hpr⟩, -⟩ := c43_sound he hM hp h c hc
    exact ⟨p, hpc, hpr, (c44_unique_coefficients he hM hp h hpc hpr fun q hq => hdist q p hq hpc).mp hc⟩
  · rintro ⟨p, hpc, hpr, hst⟩
    exact (c44_unique_coefficients he hM hp h hpc hpr fun q hq => hdist q p hq hpc).mpr hst

/-- **C45.** `single_threaded=True` raises `NotImplementedError` for all other arguments, before anything else happens. -/
theorem c45_single_threaded (env : PruneEnv) (Gi Gx : Graph ℝ) (layer : List Nat) (model : String) (parts : PartsArg α)
    (γ₀ γf ω₀ ωf : ℝ) (restrict : Option Nat) :
    pruneToMultilayerStable env Gi Gx layer model parts γ₀ γf ω₀ ωf restrict true =
      (some (.error .notImplementedError) : Option _) := rfl

/-! ### C40–C42 for multilayer networks -/

theorem multilayer_transfer {δ ε : Type} [LinearOrder δ] [LinearOrder ε] {test : Graph ℝ → Bool}
    {fsolve : (ℝ → ℝ) → ℝ → ℝ} (hM : Multilayer Gi Gx layer) {cand : List α → Prop} {cand' : List β → Prop} {p : List δ}
    {p' : List ε} (hs : SamePartition p p') (hlen : p.length = Gi.vcount)
    (hc : ∀ q', cand' q' → ∃ q, cand q ∧ SameMultilayer Gi Gx layer q q')
    (h : StableMultilayer test fsolve Gi Gx layer model cand W p ∨ NanMultilayer test fsolve Gi Gx layer model cand W p) :
    StableMultilayer test fsolve Gi Gx layer model cand' W p' ∨ NanMultilayer test fsolve Gi Gx layer model cand' W p' := by
  have hm := multilayer_same hM hs hlen
  have hcn : sortedTuple p = sortedTuple p' := by
    rw [sortedTuple_eq, sortedTuple_eq, (canon_eq_iff p p').mpr hs]
  have hB : ∀ γ ω, BestInside Gi Gx layer cand W p γ ω → BestInside Gi Gx layer cand' W p' γ ω := by
    rintro γ ω ⟨hw, hb⟩
    refine ⟨hw, fun q' hq' hn => ?_⟩
    obtain ⟨q, hq, hqq⟩ := hc q' hq'
    rw [← hqq, ← hm]
    exact hb q hq fun hs' => hn fun γ' ω' => by rw [← hqq, hs', hm]
  rcases h with ⟨γ, ω, ⟨c, G₁, hcp, hE⟩, hb⟩ | ⟨⟨c, ω, G₁, hcp, hE⟩, a, b, hb⟩
  · exact Or.inl ⟨γ, ω, ⟨c, G₁, hcn ▸ hcp, hE⟩, hB _ _ hb⟩
  · exact Or.inr ⟨⟨c, ω, G₁, hcn ▸ hcp, hE⟩, a, b, hB _ _ hb⟩

/-- **C40 (multilayer).** Two runs on collections containing the same partitions – whatever the labels, repetitions,
order, set iteration order, solver and schedule – return the same set, provided different candidates have different
coefficients. -/
theorem c40_multilayer (he : SoundPruneEnv env) (he' : SoundPruneEnv env') (htest : env.test = env'.test)
    (hfs : env.fsolve = env'.fsolve) (hM : Multilayer Gi Gx layer) (hp : ∀ p ∈ parts, p.length = Gi.vcount)
    (hp' : ∀ p ∈ parts', p.length = Gi.vcount)
    (h12 : ∀ p ∈ parts, ∃ q ∈ parts', SamePartition p q) (h21 : ∀ q ∈ parts', ∃ p ∈ parts, SamePartition p q)
    (hdist : ∀ p q, Candidate parts restrict p → Candidate parts restrict q → SameMultilayer Gi Gx layer p q →
      SamePartition p q)
    (h : pruneToMultilayerStable env Gi Gx layer model (.memberships parts) W.γ₀ W.γf W.ω₀ W.ωf restrict st =
      (some (.ok (out, G')) : Option _))
    (h' : pruneToMultilayerStable env' Gi Gx layer model (.memberships parts') W.γ₀ W.γf W.ω₀ W.ωf restrict st' =
      (some (.ok (out', G'')) : Option _)) :
    ∀ c, c ∈ out ↔ c ∈ out' := by
  have hdist' : ∀ p q, Candidate parts' restrict p → Candidate parts' restrict q → SameMultilayer Gi Gx layer p q →
      SamePartition p q := by
    intro p q hpc hqc hs
    obtain ⟨a, ha, hap⟩ := h21 p hpc.1
    obtain ⟨b, hb, hbq⟩ := h21 q hqc.1
    have := hdist a b (candidate_same hpc ha hap.symm) (candidate_same hqc hb hbq.symm) fun γ ω => by
      rw [multilayer_same hM hap (hp a ha), multilayer_same hM hbq (hp b hb), hs γ ω]
    exact (hap.symm.trans this).trans hbq
  intro c
  rw [c44_characterisation he hM hp hdist h c, c44_characterisation he' hM hp' hdist' h' c, htest, hfs]
  constructor
  · rintro ⟨p, hpc, hc, hst⟩
    obtain ⟨q, hq, hs⟩ := h12 p hpc.1
    refine ⟨q, candidate_same hpc hq hs, ?_, multilayer_transfer hM hs (hp p hpc.1) ?_ hst⟩
    · rw [← hc, sortedTuple_eq, sortedTuple_eq, (canon_eq_iff p q).mpr hs]
    · intro q' hq'
      obtain ⟨p', hp'', hs'⟩ := h21 q' hq'.1
      exact ⟨p', candidate_same hq' hp'' hs'.symm, multilayer_same hM hs' (hp p' hp'')⟩
  · rintro ⟨q, hqc, hc, hst⟩
    obtain ⟨p, hpp, hs⟩ := h21 q hqc.1
    refine ⟨p, candidate_same hqc hpp hs.symm, ?_, multilayer_transfer hM hs.symm (hp' q hqc.1) ?_ hst⟩
    · rw [← hc, sortedTuple_eq, sortedTuple_eq, (canon_eq_iff p q).mpr hs]
    · intro q' hq'
      obtain ⟨p', hp'', hs'⟩ := h12 q' hq'.1
      exact ⟨p', candidate_same hq' hp'' hs', multilayer_same hM hs'.symm (hp' p' hp'')⟩

/-- **C41 (multilayer).** A returned partition survives the removal of competitors, if different candidates have different
coefficients. -/
theorem c41_multilayer_fewer_competitors (he : SoundPruneEnv env) (he' : SoundPruneEnv env')
    (htest : env.test = env'.test) (hfs : env.fsolve = env'.fsolve) (hM : Multilayer Gi Gx layer)
    (hp : ∀ p ∈ parts, p.length = Gi.vcount) {sub : List (List α)} (hsub : ∀ p ∈ sub, p ∈ parts)
    (hdist : ∀ p q, Candidate parts restrict p → Candidate parts restrict q → SameMultilayer Gi Gx layer p q →
      SamePartition p q)
    (h : pruneToMultilayerStable env Gi Gx layer model (.memberships parts) W.γ₀ W.γf W.ω₀ W.ωf restrict st =
      (some (.ok (out, G')) : Option _))
    (h' : pruneToMultilayerStable env' Gi Gx layer model (.memberships sub) W.γ₀ W.γf W.ω₀ W.ωf restrict st' =
      (some (.ok (out', G'')) : Option _))
    {p : List α} (hps : p ∈ sub) {c : List Nat} (hc : c ∈ out) (hpc : sortedTuple p = .ok c) : c ∈ out' := by
  obtain ⟨p₁, hc₁, hr₁, hst⟩ := (c44_characterisation he hM hp hdist h c).mp hc
  have hsame : SamePartition p₁ p := by
    rw [← hpc, sortedTuple_eq, sortedTuple_eq] at hr₁
    exact (canon_eq_iff p₁ p).mp (Except.ok.inj hr₁)
  refine (c44_characterisation he' hM (fun q hq => hp q (hsub q hq))
    (fun p q hp' hq' => hdist p q ⟨hsub p hp'.1, hp'.2⟩ ⟨hsub q hq'.1, hq'.2⟩) h' c).mpr
    ⟨p, candidate_same hc₁ hps hsame, hpc, ?_⟩
  rw [← htest, ← hfs]
  exact multilayer_transfer hM hsame (hp p₁ hc₁.1) (fun q' hq' => ⟨q', ⟨hsub q' hq'.1, hq'.2⟩, fun _ _ => rfl⟩) hst

/-- **C41 (multilayer).** Pruning is idempotent, with no assumption on the coefficients. -/
theorem c41_multilayer_idempotent (he : SoundPruneEnv env) (he' : SoundPruneEnv env') (htest : env.test = env'.test)
    (hfs : env.fsolve = env'.fsolve) (hM : Multilayer Gi Gx layer) (hp : ∀ p ∈ parts, p.length = Gi.vcount)
    (hr : restrict' = restrict ∨ restrict' = none)
    (h : pruneToMultilayerStable env Gi Gx layer model (.memberships parts) W.γ₀ W.γf W.ω₀ W.ωf restrict st =
      (some (.ok (out, G')) : Option _))
    (h' : pruneToMultilayerStable env' Gi Gx layer model (.memberships out) W.γ₀ W.γf W.ω₀ W.ωf restrict' st' =
      (some (.ok (out', G'')) : Option _)) :
    ∀ c, c ∈ out ↔ c ∈ out' := by
  have hsound := c43_sound he hM hp h
  have hcan : ∀ c ∈ out, canon c = c ∧ c.length = Gi.vcount ∧ Candidate out restrict' c := by
    intro c hc
    obtain ⟨⟨p, hpc, hpr⟩, -⟩ := hsound c hc
    rw [sortedTuple_eq] at hpr
    obtain rfl := Except.ok.inj hpr
    refine ⟨canon_idem p, by rw [canon_length]; exact hp p hpc.1, hc, ?_⟩
    rintro K hK
    rcases hr with rfl | rfl
    · rw [dedup_length_canon]; exact hpc.2 K hK
    · cases hK
  have hpw := (c43_no_duplicates he hM hp h).2
  have huniq : ∀ c ∈ out, ∀ d ∈ out, SameMultilayer Gi Gx layer c d → c = d := by
    intro c hc d hd hs
    have hsymm : Std.Symm fun c d : List Nat => c = d ∨ ¬ SameMultilayer Gi Gx layer c d :=
      ⟨fun a b hab => hab.imp Eq.symm fun hn hs => hn fun γ ω => (hs γ ω).symm⟩
    have hpw' : out.Pairwise fun c d => c = d ∨ ¬ SameMultilayer Gi Gx layer c d := hpw.imp Or.inr
    exact (List.Pairwise.forall_of_forall (R := fun c d : List Nat => c = d ∨ ¬ SameMultilayer Gi Gx layer c d)
      (fun _ _ => Or.inl rfl) hpw' hc hd).elim id fun hn => absurd hs hn
  have hdist' : ∀ p q, Candidate out restrict' p → Candidate out restrict' q → SameMultilayer Gi Gx layer p q →
      SamePartition p q := by
    intro p q hpc hqc hs
    rw [huniq p hpc.1 q hqc.1 hs]
    exact SamePartition.refl q
  intro c
  rw [c44_characterisation he' hM (fun c hc => (hcan c hc).2.1) hdist' h' c]
  constructor
  · intro hc
    refine ⟨c, (hcan c hc).2.2, by rw [sortedTuple_eq, (hcan c hc).1], ?_⟩
    obtain ⟨ps, ⟨hnd, hps⟩, doms, hch, hest, hsub, hout⟩ := pruneToMultilayerStable_facts he hM hp h
    have hlen : ∀ c ∈ ps, c.length = Gi.vcount := by
      intro c hc
      obtain ⟨p, hpc, rfl⟩ := (hps c).mp hc
      rw [canon_length]; exact hp p hpc.1
    have hps' : ∀ q ∈ out, q ∈ ps := by
      intro q hq
      obtain ⟨d, hd, rfl, -⟩ := (hout q).mp hq
      exact (c21_domains_correct he.toSoundEnv hM hlen hch d hd).1
    obtain ⟨d, hd, rfl, g, ω, hE, hk⟩ := (hout c).mp hc
    have hB : ∀ γ ω, (γ, ω) ∈ interior (convexHull ℝ {q | q ∈ d.1}) →
        BestInside Gi Gx layer (Candidate out restrict') W d.2 γ ω := by
      intro γ ω hin
      obtain ⟨hw, hb⟩ := (domain_interior he.toSoundEnv hM hlen hch hd γ ω).mp hin
      exact ⟨hw, fun q hq hn => hb q (hps' q hq.1) hn⟩
    rw [← htest, ← hfs]
    rcases hk with rfl | ⟨γ, rfl, hin⟩
    · obtain ⟨⟨a, b⟩, hab⟩ := (c22_domains_disjoint he.toSoundEnv hM hlen hch).2.2.2 d hd
      exact Or.inr ⟨⟨d.2, ω, G', by rw [sortedTuple_eq, (hcan _ hc).1], hE⟩, a, b, hB a b hab⟩
    · exact Or.inl ⟨γ, ω, ⟨d.2, G', by rw [sortedTuple_eq, (hcan _ hc).1], hE⟩, hB _ _ hin⟩
  · rintro ⟨p, hpc, hpr, -⟩
    rw [sortedTuple_eq, (hcan p hpc.1).1] at hpr
    obtain rfl := Except.ok.inj hpr
    exact hpc.1

/-- **C42 (multilayer).** With `restrict_num_communities = K`, every returned partition has exactly `K` communities, and
the result is that of pruning only the `K`-community inputs. -/
theorem c42_multilayer (he : SoundPruneEnv env) (he' : SoundPruneEnv env') (htest : env.test = env'.test)
    (hfs : env.fsolve = env'.fsolve) (hM : Multilayer Gi Gx layer) (hp : ∀ p ∈ parts, p.length = Gi.vcount) {K : Nat}
    (h : pruneToMultilayerStable env Gi Gx layer model (.memberships parts) W.γ₀ W.γf W.ω₀ W.ωf (some K) st =
      (some (.ok (out, G')) : Option _))
    (h' : pruneToMultilayerStable env' Gi Gx layer model
      (.memberships (parts.filter fun p => decide (p.dedup.length = K))) W.γ₀ W.γf W.ω₀ W.ωf none st' =
      (some (.ok (out', G'')) : Option _)) :
    (∀ c ∈ out, c.dedup.length = K) ∧
    ((∀ p q, Candidate parts (some K) p → Candidate parts (some K) q → SameMultilayer Gi Gx layer p q →
      SamePartition p q) → ∀ c, c ∈ out ↔ c ∈ out') := by
  constructor
  · intro c hc
    obtain ⟨⟨p, hpc, hpr⟩, -⟩ := c43_sound he hM hp h c hc
    rw [sortedTuple_eq] at hpr
    obtain rfl := Except.ok.inj hpr
    rw [dedup_length_canon]
    exact hpc.2 K rfl
  · intro hdist
    have hc : Candidate (parts.filter fun p => decide (p.dedup.length = K)) none = Candidate parts (some K) := by
      funext p
      apply propext
      simp [Candidate]
    intro c
    rw [c44_characterisation he hM hp hdist h c,
      c44_characterisation he' hM (fun p hpp => hp p (List.mem_of_mem_filter hpp)) (by rw [hc]; exact hdist) h' c, hc,
      htest, hfs]

/-- **C42 (multilayer).** If no input takes part, the result is empty (and the graph untouched). -/
theorem c42_multilayer_empty (he : SoundPruneEnv env) (hne : restrict ≠ none → ∀ p ∈ parts, p ≠ [])
    (hnone : ∀ p, ¬ Candidate parts restrict p) (γ₀ γf ω₀ ωf : ℝ) :
    pruneToMultilayerStable env Gi Gx layer model (.memberships parts) γ₀ γf ω₀ ωf restrict false =
      (some (.ok ([], Gi)) : Option _) := by
  have hcan : ∀ c ∈ env.setOrder (parts.map canon), ∃ p ∈ parts, canon p = c := by
    intro c hc
    rw [he.setMem] at hc
    exact List.mem_map.mp hc
  obtain ⟨ps, hps⟩ : ∃ ps, restrictParts env.setOrder restrict (env.setOrder (parts.map canon)) = .ok ps := by
    cases hr : restrict with
    | none => exact ⟨_, rfl⟩
    | some K =>
      refine ⟨_, restrictParts_ok (fun c hc => ?_) (fun c hc hn => ?_)⟩
      · obtain ⟨p, -, rfl⟩ := hcan c hc; exact canon_idem p
      · obtain ⟨p, hpp, rfl⟩ := hcan c hc
        have := congrArg List.length hn
        rw [canon_length] at this
        exact hne (by rw [hr]; simp) p hpp (List.length_eq_zero_iff.mp this)
  have hnil : ps = [] := by
    rw [List.eq_nil_iff_forall_not_mem]
    intro c hc
    obtain ⟨p, hpc, -⟩ := ((candidates_ok he (canonicalParts_ok _ parts) hps).2 c).mp hc
    exact hnone p hpc
  subst hnil
  unfold pruneToMultilayerStable
  simp only [Bool.false_eq_true, if_false]
  rw [Run.bind_ok]
  refine ⟨_, Run.ofPy_ok.mpr (canonicalParts_ok _ parts), ?_⟩
  rw [Run.bind_ok]
  exact ⟨[], Run.ofPy_ok.mpr hps, rfl⟩

/-- **C65.** A leidenalg partition object passed as `parts` (the documented special case in the code) is not converted but
makes both pipelines raise `AttributeError`, unless it has no community at all. -/
theorem c65_partition_object_raises (env : PruneEnv) (G Gx : Graph ℝ) (layer : List Nat) (model : String) {n : Nat}
    (hn : 0 < n) (γ₀ γf ω₀ ωf : ℝ) (restrict : Option Nat) (st : Bool) :
    pruneToStable (α := α) env G (.clustering n) γ₀ γf restrict st = (some (.error .attributeError) : Option _) ∧
    pruneToMultilayerStable (α := α) env G Gx layer model (.clustering n) γ₀ γf ω₀ ωf restrict false =
      (some (.error .attributeError) : Option _) := by
  have h : canonicalParts (α := α) env.setOrder (.clustering n) = .error .attributeError := by
    simp [canonicalParts, Nat.ne_of_gt hn]
  constructor
  · unfold pruneToStable; rw [h]; rfl
  · unfold pruneToMultilayerStable; simp only [Bool.false_eq_true, if_false]; rw [h]; rfl

end Verif.Props
