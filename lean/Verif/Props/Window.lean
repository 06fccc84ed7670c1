import Verif.Props.Prune
import Verif.Props.Prune3D
import Verif.Props.Explicit3D

/-!
# Property C74: the choice of the parameter window

Restricting the window clips the ranges and domains, and loses only those stable partitions whose estimates are not inside
the smaller window.
-/

namespace Verif.Props
open Verif Verif.Spec

/-- two optimality ranges in nested windows -/
theorem interval_eq {a b r₁ r₂ R₁ R₂ : ℝ} (hrab : r₁ ≤ r₂)
    (h : ∀ γ, (r₁ ≤ γ ∧ γ ≤ r₂) ↔ (a ≤ γ ∧ γ ≤ b) ∧ R₁ ≤ γ ∧ γ ≤ R₂) : r₁ = max R₁ a ∧ r₂ = min R₂ b := by
  obtain ⟨⟨h1, h2⟩, h3, h4⟩ := (h r₁).mp ⟨le_rfl, hrab⟩
  obtain ⟨⟨h5, h6⟩, h7, h8⟩ := (h r₂).mp ⟨hrab, le_rfl⟩
  constructor
  · apply le_antisymm
    · exact ((h (max R₁ a)).mpr ⟨⟨le_max_right _ _, max_le (h3.trans h2) (h1.trans h2)⟩, le_max_left _ _,
        max_le (h3.trans h4) (h1.trans h4)⟩).1
    · exact max_le h3 h1
  · apply le_antisymm
    · exact le_min h8 h6
    · exact ((h (min R₂ b)).mpr ⟨⟨le_min (h5.trans h8) (h5.trans h6), min_le_right _ _⟩, le_min (h7.trans h8)
        (h7.trans h6), min_le_left _ _⟩).2

section Champ
variable {α : Type} [DecidableEq α] {env env' : ChampEnv} {G : Graph ℝ} {parts : List (List α)} {a b A B : ℝ} {st st' : Bool}
  {small big : List (ℝ × ℝ × List α)}

theorem same_range_inside (he' : SoundEnv env') (hG : G.WF) (hp : ∀ c ∈ parts, c.length = G.vcount)
    (h' : champ2D env' G parts A B st' = (some (.ok big) : Option _)) (he : SoundEnv env)
    (h : champ2D env G parts a b st = (some (.ok small) : Option _)) (hA : A ≤ a) (hB : b ≤ B)
    {r : ℝ × ℝ × List α} (hr : r ∈ small) :
    ∃ R ∈ big, SameModularity G R.2.2 r.2.2 ∧ r.1 = max R.1 a ∧ r.2.1 = min R.2.1 b := by
  obtain ⟨h1, h2, h3, h4, hiff⟩ := c17_ranges_correct he hG hp h r hr
  obtain ⟨R, hR, g1, g2, hopt⟩ := c18_ranges_cover he' hG hp (List.ne_nil_of_mem h4) h'
    (γ := (r.1 + r.2.1) / 2) (by linarith) (by linarith)
  obtain ⟨-, -, -, h4', hiff'⟩ := c17_ranges_correct he' hG hp h' R hR
  have hs : SameModularity G R.2.2 r.2.2 := by
    by_contra hn
    unfold SameModularity at hn
    push Not at hn
    have := c20_returned_strictly_optimal he hG hp h r hr ((r.1 + r.2.1) / 2) (by linarith) (by linarith) R.2.2 h4' hn
    have := hopt r.2.2 h4
    linarith
  refine ⟨R, hR, hs, interval_eq h2.le fun γ => ?_⟩
  rw [hiff γ]
  constructor
  · rintro ⟨⟨w1, w2⟩, ho⟩
    refine ⟨⟨w1, w2⟩, (hiff' γ).mpr ⟨⟨by linarith, by linarith⟩, fun c hc => ?_⟩⟩
    rw [hs γ]; exact ho c hc
  · rintro ⟨⟨w1, w2⟩, hR'⟩
    refine ⟨⟨w1, w2⟩, fun c hc => ?_⟩
    rw [← hs γ]; exact ((hiff' γ).mp hR').2 c hc

/-- **C74.** `CHAMP_2D` on a smaller window: every range is the part inside the window of a range of the larger run, and
every range of the larger run that meets the window in more than a point is represented – by a partition with the same
modularity at every resolution.  Solver, sampling, set order, schedule and threading may differ between the two runs. -/
theorem c74_ranges_are_clipped (he : SoundEnv env) (he' : SoundEnv env') (hG : G.WF)
    (hp : ∀ c ∈ parts, c.length = G.vcount) (hA : A ≤ a) (hB : b ≤ B)
    (h : champ2D env G parts a b st = (some (.ok small) : Option _))
    (h' : champ2D env' G parts A B st' = (some (.ok big) : Option _)) :
    (∀ r ∈ small, ∃ R ∈ big, SameModularity G R.2.2 r.2.2 ∧ r.1 = max R.1 a ∧ r.2.1 = min R.2.1 b) ∧
      ∀ R ∈ big, max R.1 a < min R.2.1 b →
        ∃ r ∈ small, SameModularity G R.2.2 r.2.2 ∧ r.1 = max R.1 a ∧ r.2.1 = min R.2.1 b := by
  refine ⟨fun r hr => same_range_inside he' hG hp h' he h hA hB hr, fun R hR hlt => ?_⟩
  obtain ⟨-, -, -, h4', hiff'⟩ := c17_ranges_correct he' hG hp h' R hR
  set γ := (max R.1 a + min R.2.1 b) / 2 with hγ
  have e1 := le_max_left R.1 a
  have e2 := le_max_right R.1 a
  have e3 := min_le_left R.2.1 b
  have e4 := min_le_right R.2.1 b
  obtain ⟨r, hr, g1, g2, hopt⟩ := c18_ranges_cover he hG hp (List.ne_nil_of_mem h4') h (γ := γ) (by linarith) (by linarith)
  have hr4 := (c17_ranges_correct he hG hp h r hr).2.2.2.1
  obtain ⟨R', hR', hs', q1, q2⟩ := same_range_inside he' hG hp h' he h hA hB hr
  have hs : SameModularity G R.2.2 r.2.2 := by
    by_contra hn
    unfold SameModularity at hn
    push Not at hn
    obtain ⟨γ', hn⟩ := hn
    have := c20_returned_strictly_optimal he' hG hp h' R hR γ (by linarith) (by linarith) r.2.2 hr4 ⟨γ', Ne.symm hn⟩
    have := hopt R.2.2 h4'
    linarith
  refine ⟨r, hr, hs, ?_⟩
  obtain ⟨-, hlt', -, -, hiff⟩ := c17_ranges_correct he hG hp h r hr
  refine interval_eq hlt'.le fun γ => ?_
  rw [hiff γ]
  constructor
  · rintro ⟨⟨w1, w2⟩, ho⟩
    refine ⟨⟨w1, w2⟩, (hiff' γ).mpr ⟨⟨by linarith, by linarith⟩, fun c hc => ?_⟩⟩
    rw [hs γ]; exact ho c hc
  · rintro ⟨⟨w1, w2⟩, hR'⟩
    refine ⟨⟨w1, w2⟩, fun c hc => ?_⟩
    rw [← hs γ]; exact ((hiff' γ).mp hR').2 c hc

end Champ

section Prune
variable {α : Type} [LinearOrder α] {env env' : PruneEnv} {G : Graph ℝ} {parts : List (List α)} {a b A B : ℝ}
  {restrict : Option Nat} {st st' : Bool} {out out' : List (List Nat)} {G' G'' : Graph ℝ}

theorem Stable.enlarge {test : Graph ℝ → Bool} {cand : List α → Prop} {p : List α} (hA : A ≤ a) (hB : b ≤ B)
    (h : Stable test G cand a b p) : Stable test G cand A B p := by
  obtain ⟨⟨g, g1, g2, g3⟩, γ, h1, h2, h3, h4⟩ := h
  exact ⟨⟨g, by linarith, by linarith, g3⟩, γ, h1, by linarith, by linarith, h4⟩

theorem Stable.shrink {test : Graph ℝ → Bool} {cand : List α → Prop} {p : List α}
    (h : Stable test G cand A B p) {γ : ℝ} (hγ : HasEstimate test G p γ) (ha : a < γ) (hb : γ < b) :
    Stable test G cand a b p := by
  obtain ⟨⟨g, g1, g2, g3⟩, γ', h1, h2, h3, h4⟩ := h
  obtain rfl : γ' = γ := by
    obtain ⟨c, G₁, e1, e2⟩ := h1
    obtain ⟨c', G₂, e3, e4⟩ := hγ
    rw [e1] at e3
    obtain rfl := Except.ok.inj e3
    rw [e2] at e4
    simpa using (Prod.mk.inj (Except.ok.inj e4)).1
  refine ⟨?_, γ', h1, ha.le, hb.le, h4⟩
  -- a point between the estimate and `g`, inside the small window
  by_cases hgw : a < g ∧ g < b
  · exact ⟨g, hgw.1, hgw.2, g3⟩
  obtain ⟨t, ht0, ht1, hta, htb⟩ : ∃ t : ℝ, 0 < t ∧ t ≤ 1 ∧ a < γ' + t * (g - γ') ∧ γ' + t * (g - γ') < b := by
    set δ := min (γ' - a) (b - γ') with hδ
    have hδ0 : 0 < δ := lt_min (by linarith) (by linarith)
    have hδ1 : δ ≤ γ' - a := min_le_left _ _
    have hδ2 : δ ≤ b - γ' := min_le_right _ _
    refine ⟨δ / (δ + |g - γ'|) , ?_, ?_, ?_, ?_⟩
    · positivity
    · rw [div_le_one (by positivity)]; linarith [abs_nonneg (g - γ')]
    all_goals
      have hpos : 0 < δ + |g - γ'| := by positivity
      have hb1 : |δ / (δ + |g - γ'|) * (g - γ')| < δ := by
        rw [abs_mul, abs_of_pos (by positivity), div_mul_eq_mul_div, div_lt_iff₀ hpos]
        nlinarith [abs_nonneg (g - γ')]
      have := abs_lt.mp hb1
      linarith
  refine ⟨γ' + t * (g - γ'), hta, htb, fun q hq hn => ?_⟩
  have e1 := h4 q hq
  have e2 := g3 q hq hn
  simp only [modularity_affine] at e1 e2 ⊢
  nlinarith

/-- **C74.** `prune_to_stable_partitions` on a smaller window (different candidates have different coefficients): what it
returns is also returned on the larger window, and of the result on the larger window it returns everything whose gamma
estimate lies strictly inside the smaller window. -/
theorem c74_prune (he : SoundPruneEnv env) (he' : SoundPruneEnv env') (htest : env.test = env'.test) (hG : G.WF)
    (hp : ∀ p ∈ parts, p.length = G.vcount)
    (hdist : ∀ p q, Candidate parts restrict p → Candidate parts restrict q → SameModularity G p q → SamePartition p q)
    (hA : A ≤ a) (hB : b ≤ B)
    (h : pruneToStable env G (.memberships parts) a b restrict st = (some (.ok (out, G')) : Option _))
    (h' : pruneToStable env' G (.memberships parts) A B restrict st' = (some (.ok (out', G'')) : Option _)) :
    (∀ c ∈ out, c ∈ out') ∧
      ∀ c ∈ out', ∀ γ, HasEstimate env.test G c γ → a < γ → γ < b → c ∈ out := by
  constructor
  · intro c hc
    obtain ⟨p, h1, h2, h3⟩ := (c39_characterisation he hG hp hdist h c).mp hc
    exact (c39_characterisation he' hG hp hdist h' c).mpr ⟨p, h1, h2, htest ▸ Stable.enlarge hA hB h3⟩
  · intro c hc γ hγ ha hb
    obtain ⟨p, h1, h2, h3⟩ := (c39_characterisation he' hG hp hdist h' c).mp hc
    refine (c39_characterisation he hG hp hdist h c).mpr ⟨p, h1, h2, ?_⟩
    rw [← htest] at h3
    refine Stable.shrink h3 ?_ ha hb
    have hcc : sortedTuple c = .ok c := by
      rw [sortedTuple_eq] at h2 ⊢
      rw [← Except.ok.inj h2, canon_idem]
    obtain ⟨c', G₁, e1, e2⟩ := hγ
    rw [hcc] at e1
    obtain rfl := Except.ok.inj e1
    exact ⟨_, G₁, h2, e2⟩

/-- **C74 (any coefficients, unweighted undirected graph).** Enlarging the window loses nothing, up to partitions with
exactly the same modularity at every resolution; restricting it loses no partition whose estimate is strictly inside. -/
theorem c74_prune_up_to_coefficients (he : SoundPruneEnv env) (he' : SoundPruneEnv env') (htest : env.test = env'.test)
    (hG : G.WF) (hd : G.directed = false) (hm : 0 < G.ecount) (hw : CountsAsUnweighted env.test G)
    (hp : ∀ p ∈ parts, p.length = G.vcount) (hA : A ≤ a) (hB : b ≤ B)
    (h : pruneToStable env G (.memberships parts) a b restrict st = (some (.ok (out, G')) : Option _))
    (h' : pruneToStable env' G (.memberships parts) A B restrict st' = (some (.ok (out', G'')) : Option _)) :
    (∀ c ∈ out, ∃ c' ∈ out', SameModularity G c c') ∧
      ∀ c ∈ out', ∀ γ, HasEstimate env.test G c γ → a < γ → γ < b → ∃ c' ∈ out, SameModularity G c c' := by
  have hest : ∀ p, Candidate parts restrict p → ∀ q, Candidate parts restrict q → SameModularity G q p →
      ∀ γ, HasEstimate env.test G q γ ↔ HasEstimate env.test G p γ := fun p hp' q hq hs γ =>
    same_estimates hG hd hm hw (hp q hq.1) (hp p hp'.1) hs
  constructor
  · intro c hc
    obtain ⟨⟨p, hpc, hpr⟩, -⟩ := c38_sound he hG hp h c hc
    rw [sortedTuple_eq] at hpr
    obtain rfl := Except.ok.inj hpr
    have hst := (returned_iff_stable he hG hp h hpc (hest p hpc)).mp
      ⟨_, hc, fun γ => (modularity_canon (hp p hpc.1) γ).symm⟩
    obtain ⟨c', hc', hs⟩ := (returned_iff_stable he' hG hp h' hpc (by rw [← htest]; exact hest p hpc)).mpr
      (htest ▸ Stable.enlarge hA hB hst)
    exact ⟨c', hc', fun γ => by rw [modularity_canon (hp p hpc.1), hs]⟩
  · intro c hc γ hγ ha hb
    obtain ⟨⟨p, hpc, hpr⟩, -⟩ := c38_sound he' hG hp h' c hc
    have hpr' := hpr
    rw [sortedTuple_eq] at hpr
    obtain rfl := Except.ok.inj hpr
    have hst := (returned_iff_stable he' hG hp h' hpc (by rw [← htest]; exact hest p hpc)).mp
      ⟨_, hc, fun γ => (modularity_canon (hp p hpc.1) γ).symm⟩
    have hγp : HasEstimate env.test G p γ := by
      obtain ⟨c', G₁, e1, e2⟩ := hγ
      rw [sortedTuple_eq, canon_idem] at e1
      obtain rfl := Except.ok.inj e1
      exact ⟨_, G₁, hpr', e2⟩
    obtain ⟨c', hc', hs⟩ := (returned_iff_stable he hG hp h hpc (hest p hpc)).mpr
      (Stable.shrink (htest ▸ hst : Stable env.test G (Candidate parts restrict) A B p) hγp ha hb)
    exact ⟨c', hc', fun γ => by rw [modularity_canon (hp p hpc.1), hs]⟩

end Prune

section Multilayer
variable {α : Type} [LinearOrder α] {env env' : PruneEnv} {Gi Gx : Graph ℝ} {layer : List Nat}
  {model : String} {parts : List (List α)} {W W' : Window}
  {restrict : Option Nat} {st st' : Bool} {out out' : List (List Nat)} {G' G'' : Graph ℝ}

theorem BestInside.enlarge {cand : List α → Prop} {p : List α} {γ ω : ℝ}
    (hW : (W'.γ₀ ≤ W.γ₀ ∧ W.γf ≤ W'.γf) ∧ W'.ω₀ ≤ W.ω₀ ∧ W.ωf ≤ W'.ωf)
    (h : BestInside Gi Gx layer cand W p γ ω) : BestInside Gi Gx layer cand W' p γ ω := by
  obtain ⟨⟨⟨h1, h2⟩, h3, h4⟩, h5⟩ := h
  obtain ⟨⟨w1, w2⟩, w3, w4⟩ := hW
  exact ⟨⟨⟨by linarith, by linarith⟩, by linarith, by linarith⟩, h5⟩

theorem hasEstimates_canon {test : Graph ℝ → Bool} {fsolve : (ℝ → ℝ) → ℝ → ℝ} {p : List α} {c : List Nat}
    (h : sortedTuple p = .ok c) {γ ω : ℝ} (hc : HasEstimates test fsolve Gi Gx layer model c γ ω) :
    HasEstimates test fsolve Gi Gx layer model p γ ω := by
  have hcc : sortedTuple c = .ok c := by
    rw [sortedTuple_eq] at h ⊢
    rw [← Except.ok.inj h, canon_idem]
  obtain ⟨c', G₁, e1, e2⟩ := hc
  rw [hcc] at e1
  obtain rfl := Except.ok.inj e1
  exact ⟨_, G₁, h, e2⟩

theorem hasEstimates_unique {test : Graph ℝ → Bool} {fsolve : (ℝ → ℝ) → ℝ → ℝ} {p : List α} {γ ω γ' ω' : ℝ}
    (h : HasEstimates test fsolve Gi Gx layer model p γ ω) (h' : HasEstimates test fsolve Gi Gx layer model p γ' ω') :
    γ = γ' ∧ ω = ω' := by
  obtain ⟨c, G₁, e1, e2⟩ := h
  obtain ⟨c', G₂, e3, e4⟩ := h'
  rw [e1] at e3
  obtain rfl := Except.ok.inj e3
  rw [e2] at e4
  have := (Prod.mk.inj (Except.ok.inj e4)).1
  simpa using this

theorem nan_or_estimates {test : Graph ℝ → Bool} {fsolve : (ℝ → ℝ) → ℝ → ℝ} {p : List α} {γ ω : ℝ}
    (h : HasEstimates test fsolve Gi Gx layer model p γ ω) : ¬ HasNanEstimate test fsolve Gi Gx layer model p := by
  rintro ⟨c, ω', G₁, e1, e2⟩
  obtain ⟨c', G₂, e3, e4⟩ := h
  rw [e1] at e3
  obtain rfl := Except.ok.inj e3
  rw [e2] at e4
  simpa using (Prod.mk.inj (Except.ok.inj e4)).1

/-- **C74.** The same for `prune_to_multilayer_stable_partitions`, for partitions whose estimates `(γ, ω)` are strictly
inside the smaller window (for `ω`: by the 0.001 at which the pipeline truncates): such a partition is returned on the
smaller window iff it is returned on the larger one. -/
theorem c74_multilayer (he : SoundPruneEnv env) (he' : SoundPruneEnv env') (htest : env.test = env'.test)
    (hf : env.fsolve = env'.fsolve) (hM : Multilayer Gi Gx layer) (hp : ∀ p ∈ parts, p.length = Gi.vcount)
    (hdist : ∀ p q, Candidate parts restrict p → Candidate parts restrict q → SameMultilayer Gi Gx layer p q →
      SamePartition p q)
    (hW : (W'.γ₀ ≤ W.γ₀ ∧ W.γf ≤ W'.γf) ∧ W'.ω₀ ≤ W.ω₀ ∧ W.ωf ≤ W'.ωf)
    (h : pruneToMultilayerStable env Gi Gx layer model (.memberships parts) W.γ₀ W.γf W.ω₀ W.ωf restrict st =
      (some (.ok (out, G')) : Option _))
    (h' : pruneToMultilayerStable env' Gi Gx layer model (.memberships parts) W'.γ₀ W'.γf W'.ω₀ W'.ωf restrict st' =
      (some (.ok (out', G'')) : Option _))
    {c : List Nat} {γ ω : ℝ} (hE : HasEstimates env.test env.fsolve Gi Gx layer model c γ ω)
    (hγ : W.γ₀ < γ ∧ γ < W.γf) (hω : W.ω₀ < ω ∧ ω ≤ W.ωf - 1 / 1000) : c ∈ out ↔ c ∈ out' := by
  have hmin : min ω (W.ωf - 1 / 1000) = ω := min_eq_left hω.2
  have hmin' : min ω (W'.ωf - 1 / 1000) = ω := min_eq_left (by have := hW.2.2; linarith)
  rw [c44_characterisation he hM hp hdist h c, c44_characterisation he' hM hp hdist h' c, ← htest, ← hf]
  apply exists_congr
  intro p
  refine and_congr_right fun hpc => and_congr_right fun hpr => ?_
  have hEp := hasEstimates_canon hpr hE
  have hn : ∀ V, ¬ NanMultilayer env.test env.fsolve Gi Gx layer model (Candidate parts restrict) V p :=
    fun V hV => nan_or_estimates hEp hV.1
  simp only [hn, or_false]
  constructor
  · rintro ⟨γ', ω', e, hb⟩
    obtain ⟨rfl, rfl⟩ := hasEstimates_unique e hEp
    rw [hmin] at hb
    exact ⟨_, _, e, by rw [hmin']; exact BestInside.enlarge hW hb⟩
  · rintro ⟨γ', ω', e, hb⟩
    obtain ⟨rfl, rfl⟩ := hasEstimates_unique e hEp
    rw [hmin'] at hb
    refine ⟨_, _, e, ?_⟩
    rw [hmin]
    exact ⟨⟨hγ, hω.1, by linarith [hω.2]⟩, hb.2⟩

/-- Two affine modularity functions, one below the other near a point where they meet, are the same. -/
theorem same_of_touching {β : Type} [DecidableEq β] {p p' : List β} {q : ℝ × ℝ} {U : Set (ℝ × ℝ)} (hU : U ∈ nhds q)
    (hle : ∀ z ∈ U, multilayerModularity Gi Gx layer z.1 z.2 p' ≤ multilayerModularity Gi Gx layer z.1 z.2 p)
    (hge : multilayerModularity Gi Gx layer q.1 q.2 p ≤ multilayerModularity Gi Gx layer q.1 q.2 p') :
    SameMultilayer Gi Gx layer p' p := by
  obtain ⟨ε, hε, hball⟩ := Metric.mem_nhds_iff.mp hU
  have key : ∀ x y : ℝ, |x| < ε → |y| < ε → multilayerModularity Gi Gx layer (q.1 + x) (q.2 + y) p' ≤
      multilayerModularity Gi Gx layer (q.1 + x) (q.2 + y) p := by
    intro x y hx hy
    refine hle (q.1 + x, q.2 + y) (hball ?_)
    rw [Metric.mem_ball, Prod.dist_eq, max_lt_iff]
    constructor
    · simpa [Real.dist_eq] using hx
    · simpa [Real.dist_eq] using hy
  have hε2 : |ε / 2| < ε := by rw [abs_of_pos (by linarith)]; linarith
  have hε3 : |-(ε / 2)| < ε := by rw [abs_neg]; exact hε2
  have h0 : |(0 : ℝ)| < ε := by simpa using hε
  have e1 := key (ε / 2) 0 hε2 h0
  have e2 := key (-(ε / 2)) 0 hε3 h0
  have e3 := key 0 (ε / 2) h0 hε2
  have e4 := key 0 (-(ε / 2)) h0 hε3
  have e0 := key 0 0 h0 h0
  unfold SameMultilayer
  unfold multilayerModularity at *
  have hP : withinNullLayered Gi layer p' = withinNullLayered Gi layer p := by
    have h1 : ε / 2 * (withinNullLayered Gi layer p' - withinNullLayered Gi layer p) ≤ 0 := by linarith
    have h2 : 0 ≤ ε / 2 * (withinNullLayered Gi layer p' - withinNullLayered Gi layer p) := by linarith
    have h3 := le_antisymm h1 h2
    rcases mul_eq_zero.mp h3 with h | h <;> linarith
  have hC : withinAdj Gx p' = withinAdj Gx p := by
    have h1 : ε / 2 * (withinAdj Gx p' - withinAdj Gx p) ≤ 0 := by linarith
    have h2 : 0 ≤ ε / 2 * (withinAdj Gx p' - withinAdj Gx p) := by linarith
    have h3 := le_antisymm h1 h2
    rcases mul_eq_zero.mp h3 with h | h <;> linarith
  intro γ ω
  rw [hP, hC] at e0 hge ⊢
  linarith

theorem same_domain {β : Type} [DecidableEq β] {env env' : ChampEnv} (he : SoundEnv env) (he' : SoundEnv env')
    (hM : Multilayer Gi Gx layer) {parts : List (List β)} (hp : ∀ c ∈ parts, c.length = Gi.vcount)
    (hW : (W'.γ₀ ≤ W.γ₀ ∧ W.γf ≤ W'.γf) ∧ W'.ω₀ ≤ W.ω₀ ∧ W.ωf ≤ W'.ωf) {doms doms' : List (List (ℝ × ℝ) × List β)}
    (h : champ3D env Gi Gx layer parts W.γ₀ W.γf W.ω₀ W.ωf = (some (.ok doms) : Option _))
    (h' : champ3D env' Gi Gx layer parts W'.γ₀ W'.γf W'.ω₀ W'.ωf = (some (.ok doms') : Option _))
    {d d' : List (ℝ × ℝ) × List β} (hd : d ∈ doms) (hd' : d' ∈ doms') (hs : SameMultilayer Gi Gx layer d'.2 d.2)
    (q : ℝ × ℝ) : q ∈ convexHull ℝ {q | q ∈ d.1} ↔
        q ∈ convexHull ℝ {q | q ∈ d'.1} ∧ (W.γ₀ ≤ q.1 ∧ q.1 ≤ W.γf) ∧ W.ω₀ ≤ q.2 ∧ q.2 ≤ W.ωf := by
  rw [(c21_domains_correct he hM hp h d hd).2.2 q, (c21_domains_correct he' hM hp h' d' hd').2.2 q]
  obtain ⟨⟨w1, w2⟩, w3, w4⟩ := hW
  constructor
  · rintro ⟨⟨⟨a1, a2⟩, a3, a4⟩, ho⟩
    exact ⟨⟨⟨⟨by linarith, by linarith⟩, by linarith, by linarith⟩, fun c hc => by rw [hs]; exact ho c hc⟩,
      ⟨a1, a2⟩, a3, a4⟩
  · rintro ⟨⟨-, ho⟩, hin⟩
    exact ⟨hin, fun c hc => by rw [← hs]; exact ho c hc⟩

/-- **C74.** `CHAMP_3D` on a smaller window: every domain is the part inside the window of a domain of the larger run, and
every domain of the larger run whose interior meets the interior of the window is represented – by a partition with the
same multilayer modularity everywhere. -/
theorem c74_domains_are_clipped {β : Type} [DecidableEq β] {env env' : ChampEnv} (he : SoundEnv env) (he' : SoundEnv env')
    (hM : Multilayer Gi Gx layer) {parts : List (List β)} (hp : ∀ c ∈ parts, c.length = Gi.vcount)
    (hW : (W'.γ₀ ≤ W.γ₀ ∧ W.γf ≤ W'.γf) ∧ W'.ω₀ ≤ W.ω₀ ∧ W.ωf ≤ W'.ωf) {doms doms' : List (List (ℝ × ℝ) × List β)}
    (h : champ3D env Gi Gx layer parts W.γ₀ W.γf W.ω₀ W.ωf = (some (.ok doms) : Option _))
    (h' : champ3D env' Gi Gx layer parts W'.γ₀ W'.γf W'.ω₀ W'.ωf = (some (.ok doms') : Option _)) :
    (∀ d ∈ doms, ∃ d' ∈ doms', SameMultilayer Gi Gx layer d'.2 d.2 ∧
      ∀ q : ℝ × ℝ, q ∈ convexHull ℝ {q | q ∈ d.1} ↔
        q ∈ convexHull ℝ {q | q ∈ d'.1} ∧ (W.γ₀ ≤ q.1 ∧ q.1 ≤ W.γf) ∧ W.ω₀ ≤ q.2 ∧ q.2 ≤ W.ωf) ∧
    ∀ d' ∈ doms', (∃ z ∈ interior (convexHull ℝ {q | q ∈ d'.1}),
        (W.γ₀ ≤ z.1 ∧ z.1 ≤ W.γf) ∧ W.ω₀ ≤ z.2 ∧ z.2 ≤ W.ωf) →
      ∃ d ∈ doms, SameMultilayer Gi Gx layer d'.2 d.2 ∧
      ∀ q : ℝ × ℝ, q ∈ convexHull ℝ {q | q ∈ d.1} ↔
        q ∈ convexHull ℝ {q | q ∈ d'.1} ∧ (W.γ₀ ≤ q.1 ∧ q.1 ≤ W.γf) ∧ W.ω₀ ≤ q.2 ∧ q.2 ≤ W.ωf := by
  constructor
  · intro d hd
    obtain ⟨q, hq⟩ := (c22_domains_disjoint he hM hp h).2.2.2 d hd
    obtain ⟨hdp, -, hchar⟩ := c21_domains_correct he hM hp h d hd
    obtain ⟨⟨⟨a1, a2⟩, a3, a4⟩, -⟩ := (hchar q).mp (interior_subset hq)
    obtain ⟨⟨w1, w2⟩, w3, w4⟩ := hW
    obtain ⟨d', hd', -, hopt⟩ := c22_domains_cover he' hM hp (List.ne_nil_of_mem hdp) h' (γ := q.1) (ω := q.2)
      ⟨by linarith, by linarith⟩ ⟨by linarith, by linarith⟩
    have hs := same_of_touching (mem_interior_iff_mem_nhds.mp hq)
      (fun z hz => ((hchar z).mp hz).2 _ (c21_domains_correct he' hM hp h' d' hd').1) (hopt _ hdp)
    exact ⟨d', hd', hs, same_domain he he' hM hp ⟨⟨w1, w2⟩, w3, w4⟩ h h' hd hd' hs⟩
  · rintro d' hd' ⟨z, hz, hz1, hz2⟩
    obtain ⟨hdp, -, hchar⟩ := c21_domains_correct he' hM hp h' d' hd'
    obtain ⟨d, hd, -, hopt⟩ := c22_domains_cover he hM hp (List.ne_nil_of_mem hdp) h hz1 hz2
    have hs := same_of_touching (mem_interior_iff_mem_nhds.mp hz)
      (fun z hz => ((hchar z).mp hz).2 _ (c21_domains_correct he hM hp h d hd).1) (hopt _ hdp)
    have hs' : SameMultilayer Gi Gx layer d'.2 d.2 := fun γ ω => (hs γ ω).symm
    exact ⟨d, hd, hs', same_domain he he' hM hp hW h h' hd hd' hs'⟩

end Multilayer

/-! ### Witnesses -/

/-- two real runs, with the middle partition of three, one window inside the other -/
example : ∃ small big, champ2D exactEnv gReal threeParts (1 / 2) (3 / 2) false = (some (.ok small) : Option _) ∧
    champ2D exactEnv gReal threeParts 0 2 true = (some (.ok big) : Option _) ∧ small ≠ [] ∧
    ∀ r ∈ small, ∃ R ∈ big, SameModularity gReal R.2.2 r.2.2 ∧ r.1 = max R.1 (1 / 2) ∧ r.2.1 = min R.2.1 (3 / 2) := by
  obtain ⟨small, h⟩ := c17_returns exactEnv_exact gReal_wf rfl (by decide) (by decide : ∀ c ∈ threeParts, c.length = gReal.vcount) (by decide)
    (by norm_num : (1 / 2 : ℝ) < 3 / 2) false
  obtain ⟨big, h'⟩ := c17_returns exactEnv_exact gReal_wf rfl (by decide) (by decide : ∀ c ∈ threeParts, c.length = gReal.vcount) (by decide)
    (by norm_num : (0 : ℝ) < 2) true
  refine ⟨small, big, h, h', ?_, (c74_ranges_are_clipped exactEnv_exact.toSoundEnv exactEnv_exact.toSoundEnv gReal_wf
    (by decide) (by norm_num) (by norm_num) h h').1⟩
  obtain ⟨r, hr, -⟩ := c18_ranges_cover exactEnv_exact.toSoundEnv gReal_wf (by decide) (by decide : threeParts ≠ []) h
    (γ := 1) (by norm_num) (by norm_num)
  exact List.ne_nil_of_mem hr

example : ∃ out G' out' G'', pruneToStable pruneEnv gReal (.memberships threeParts) (1 / 2) (3 / 2) none false =
      (some (.ok (out, G')) : Option _) ∧
    pruneToStable pruneEnv gReal (.memberships threeParts) 0 2 none false = (some (.ok (out', G'')) : Option _) ∧
    (∀ c ∈ out, c ∈ out') ∧
      ∀ c ∈ out', ∀ γ, HasEstimate pruneEnv.test gReal c γ → 1 / 2 < γ → γ < 3 / 2 → c ∈ out := by
  obtain ⟨out, G', h⟩ := c39_returns pruneEnv_sound exactEnv_exact gReal_wf rfl (by decide) (by decide)
    (by intro h; cases h) (by decide : ∀ p ∈ threeParts, p.length = gReal.vcount) (by norm_num : (1 / 2 : ℝ) < 3 / 2)
    none false
  obtain ⟨out', G'', h'⟩ := c39_returns pruneEnv_sound exactEnv_exact gReal_wf rfl (by decide) (by decide)
    (by intro h; cases h) (by decide : ∀ p ∈ threeParts, p.length = gReal.vcount) (by norm_num : (0 : ℝ) < 2) none false
  exact ⟨out, G', out', G'', h, h', c74_prune pruneEnv_sound pruneEnv_sound rfl gReal_wf (by decide) threeParts_distinct
    (by norm_num) (by norm_num) h h'⟩

/-- two nested windows of a two-layer network and a partition whose estimates `(log-mean of 4/5 and 4/3, 1000)` are inside
both -/
example : ∃ out G' out' G'', pruneToMultilayerStable pruneEnv gIntraR gInterR [0, 0, 0, 1, 1, 1] "temporal"
      (.memberships [[0, 0, 1, 0, 0, 1]]) 0 2 0 2000 none false = (some (.ok (out, G')) : Option _) ∧
    pruneToMultilayerStable pruneEnv gIntraR gInterR [0, 0, 0, 1, 1, 1] "temporal"
      (.memberships [[0, 0, 1, 0, 0, 1]]) 0 3 0 3000 none false = (some (.ok (out', G'')) : Option _) ∧
    ([0, 0, 1, 0, 0, 1] ∈ out ↔ [0, 0, 1, 0, 0, 1] ∈ out') := by
  have hA : withinAdj gIntraR [0, 0, 1, 0, 0, 1] = 4 := by
    simp [withinAdj, gIntraR, adj, Finset.sum_range_succ]; norm_num
  have hX : withinAdj gInterR [0, 0, 1, 0, 0, 1] = 3 := by
    simp [withinAdj, gInterR, adj, Finset.sum_range_succ]; norm_num
  have hP : withinNullLayered gIntraR [0, 0, 0, 1, 1, 1] [0, 0, 1, 0, 0, 1] = 5 := by
    simp [withinNullLayered, gIntraR, adj, rowSum, colSum, layerTotal, Finset.sum_range_succ]; norm_num
  have hec : 2 * (gIntraR.ecount : ℝ) = 8 := by norm_num [gIntraR, Graph.ecount]
  have hd : ([0, 0, 1, 0, 0, 1] : List Nat).dedup.length = 2 := by decide
  have hE : HasEstimates pruneEnv.test pruneEnv.fsolve gIntraR gInterR [0, 0, 0, 1, 1, 1] "temporal" [0, 0, 1, 0, 0, 1]
      (logMean (4 / 5) ((8 - 4) / (8 - 5))) 1000 := by
    rw [c69_has_estimates gIntraR_temporal (fun h => by cases h) rfl, hA, hP, hX, hec]
    refine ⟨by norm_num, by norm_num, by norm_num, by norm_num, rfl, ?_⟩
    rw [hd]
    unfold temporalCoupling copying
    norm_num
  obtain ⟨b1, b2⟩ := logMean_between (a := 4 / 5) (b := (8 - 4) / (8 - 5)) (by norm_num) (by norm_num) (by norm_num)
  norm_num at b1 b2
  have hok : ∀ p, Candidate [[0, 0, 1, 0, 0, 1]] none p → ¬ Failing gIntraR gInterR [0, 0, 0, 1, 1, 1] 3 2 p := by
    intro q hqc hf
    obtain rfl := List.mem_singleton.mp hqc.1
    have := hf.2.1
    rw [hX, hd] at this
    unfold copying at this
    norm_num at this
  have hdist : ∀ p q, Candidate [[0, 0, 1, 0, 0, 1]] none p → Candidate [[0, 0, 1, 0, 0, 1]] none q →
      SameMultilayer gIntraR gInterR [0, 0, 0, 1, 1, 1] p q → SamePartition p q := by
    intro p q hp hq _
    obtain rfl := List.mem_singleton.mp hp.1
    obtain rfl := List.mem_singleton.mp hq.1
    exact ⟨rfl, fun _ _ _ _ => Iff.rfl⟩
  obtain ⟨out, G', h⟩ := c69_returns (W := ⟨0, 2, 0, 2000⟩) (restrict := none) (parts := [[0, 0, 1, 0, 0, 1]]) pruneEnv_sound
    exactEnv_exact gIntraR_temporal (fun h => by cases h) (by decide) (by norm_num) (by norm_num) hok
  obtain ⟨out', G'', h'⟩ := c69_returns (W := ⟨0, 3, 0, 3000⟩) (restrict := none) (parts := [[0, 0, 1, 0, 0, 1]])
    pruneEnv_sound exactEnv_exact gIntraR_temporal (fun h => by cases h) (by decide) (by norm_num) (by norm_num) hok
  refine ⟨out, G', out', G'', h, h', c74_multilayer (W := ⟨0, 2, 0, 2000⟩) (W' := ⟨0, 3, 0, 3000⟩) pruneEnv_sound
    pruneEnv_sound rfl rfl gIntraR_multilayer (by decide) hdist (by norm_num) h h' hE ⟨?_, ?_⟩ (by norm_num)⟩
  · norm_num; linarith
  · norm_num; linarith

example : ∃ doms doms', champ3D exactEnv gIntraR gInterR [0, 0, 0, 1, 1, 1]
      [[0, 0, 0, 0, 0, 0], [0, 0, 0, 1, 1, 1], [0, 1, 2, 0, 1, 2]] 0 1 0 1 = (some (.ok doms) : Option _) ∧
    champ3D exactEnv gIntraR gInterR [0, 0, 0, 1, 1, 1]
      [[0, 0, 0, 0, 0, 0], [0, 0, 0, 1, 1, 1], [0, 1, 2, 0, 1, 2]] 0 2 0 1 = (some (.ok doms') : Option _) ∧
    ∀ d ∈ doms, ∃ d' ∈ doms', SameMultilayer gIntraR gInterR [0, 0, 0, 1, 1, 1] d'.2 d.2 := by
  obtain ⟨doms, h⟩ := c21_returns (γ₀ := 0) (γf := 1) (ω₀ := 0) (ωf := 1)
    (parts := [[0, 0, 0, 0, 0, 0], [0, 0, 0, 1, 1, 1], [0, 1, 2, 0, 1, 2]]) exactEnv_exact gIntraR_multilayer rfl (by decide)
    (by decide) (by decide) (by decide) (by norm_num) (by norm_num)
  obtain ⟨doms', h'⟩ := c21_returns (γ₀ := 0) (γf := 2) (ω₀ := 0) (ωf := 1)
    (parts := [[0, 0, 0, 0, 0, 0], [0, 0, 0, 1, 1, 1], [0, 1, 2, 0, 1, 2]]) exactEnv_exact gIntraR_multilayer rfl (by decide)
    (by decide) (by decide) (by decide) (by norm_num) (by norm_num)
  refine ⟨doms, doms', h, h', fun d hd => ?_⟩
  obtain ⟨d', hd', hs, -⟩ := (c74_domains_are_clipped (W := ⟨0, 1, 0, 1⟩) (W' := ⟨0, 2, 0, 1⟩) exactEnv_exact.toSoundEnv
    exactEnv_exact.toSoundEnv gIntraR_multilayer (by decide) (by norm_num) h h').1 d hd
  exact ⟨d', hd', hs⟩

end Verif.Props
