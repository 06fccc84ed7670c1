import Verif.Props.Tradeoff
import Verif.Props.FixedPoint

/-!
# Property C124: raising the coupling keeps more interlayer edges within communities
-/

namespace Verif.Props
open Verif Verif.Spec

variable {α : Type} [DecidableEq α] {env : ChampEnv} {Gi Gx : Graph ℝ} {layer : List Nat} {parts : List (List α)}
  {γ₀ γf ω₀ ωf : ℝ} {doms : List (List (ℝ × ℝ) × List α)}

theorem edgesWithin_le_iff (hG : Gx.WF) {c d : List α} (hc : c.length = Gx.vcount) (hd : d.length = Gx.vcount) :
    edgesWithin Gx c ≤ edgesWithin Gx d ↔ withinAdj Gx c ≤ withinAdj Gx d := by
  rw [withinAdj_edgesWithin hG hc, withinAdj_edgesWithin hG hd]
  rw [mul_le_mul_iff_right₀ (by split <;> norm_num)]
  exact Nat.cast_le.symm

/-- one edge more changes the sum by at least one -/
theorem edgesWithin_gap (hG : Gx.WF) {c d : List α} (hc : c.length = Gx.vcount) (hd : d.length = Gx.vcount)
    (h : edgesWithin Gx c < edgesWithin Gx d) : withinAdj Gx c + 1 ≤ withinAdj Gx d := by
  rw [withinAdj_edgesWithin hG hc, withinAdj_edgesWithin hG hd]
  have : (edgesWithin Gx c : ℝ) + 1 ≤ edgesWithin Gx d := by exact_mod_cast h
  split <;> linarith

/-- **C124 (monotone).** Between any two points of the window, the null model sum moves against the resolution and the coupling
within communities moves with the coupling parameter, at least one of them. -/
theorem c124_monotone (he : SoundEnv env) (hM : Multilayer Gi Gx layer) (hp : ∀ c ∈ parts, c.length = Gi.vcount)
    (h : champ3D env Gi Gx layer parts γ₀ γf ω₀ ωf = (some (.ok doms) : Option _)) {d e : List (ℝ × ℝ) × List α}
    (hd : d ∈ doms) (he' : e ∈ doms) {γ ω γ' ω' : ℝ} (h1 : (γ, ω) ∈ convexHull ℝ {q | q ∈ d.1})
    (h2 : (γ', ω') ∈ convexHull ℝ {q | q ∈ e.1}) :
    (γ' - γ) * (withinNullLayered Gi layer e.2 - withinNullLayered Gi layer d.2) ≤
      (ω' - ω) * (withinAdj Gx e.2 - withinAdj Gx d.2) := by
  obtain ⟨hdp, -, hdi⟩ := c21_domains_correct he hM hp h d hd
  obtain ⟨hep, -, hei⟩ := c21_domains_correct he hM hp h e he'
  have a := ((hdi _).mp h1).2 _ hep
  have b := ((hei _).mp h2).2 _ hdp
  unfold multilayerModularity at a b
  simp only at a b
  nlinarith

/-- **C124 (coupling).** At the same resolution, a domain at a larger `ω` has a partition with at least as many interlayer edges within
communities; its intralayer modularity is at most that of the other one (unless `ω` is negative), and if the number of interlayer edges
is the same the two are equally good at both points. -/
theorem c124_coupling (he : SoundEnv env) (hM : Multilayer Gi Gx layer) (hp : ∀ c ∈ parts, c.length = Gi.vcount)
    (h : champ3D env Gi Gx layer parts γ₀ γf ω₀ ωf = (some (.ok doms) : Option _)) {d e : List (ℝ × ℝ) × List α}
    (hd : d ∈ doms) (he' : e ∈ doms) {γ ω ω' : ℝ} (hω : ω < ω') (h1 : (γ, ω) ∈ convexHull ℝ {q | q ∈ d.1})
    (h2 : (γ, ω') ∈ convexHull ℝ {q | q ∈ e.1}) :
    edgesWithin Gx d.2 ≤ edgesWithin Gx e.2 ∧
    (0 ≤ ω → multilayerModularity Gi Gx layer γ 0 e.2 ≤ multilayerModularity Gi Gx layer γ 0 d.2) ∧
    (edgesWithin Gx d.2 = edgesWithin Gx e.2 → ∀ w, multilayerModularity Gi Gx layer γ w e.2 = multilayerModularity Gi Gx layer γ w d.2) := by
  obtain ⟨hdp, -, hdi⟩ := c21_domains_correct he hM hp h d hd
  obtain ⟨hep, -, hei⟩ := c21_domains_correct he hM hp h e he'
  have a := ((hdi _).mp h1).2 _ hep
  have b := ((hei _).mp h2).2 _ hdp
  have hdl : d.2.length = Gx.vcount := by rw [hp _ hdp, hM.vcount]
  have hel : e.2.length = Gx.vcount := by rw [hp _ hep, hM.vcount]
  have hC : withinAdj Gx d.2 ≤ withinAdj Gx e.2 := by
    unfold multilayerModularity at a b
    simp only at a b
    have : 0 ≤ (ω' - ω) * (withinAdj Gx e.2 - withinAdj Gx d.2) := by nlinarith
    have := nonneg_of_mul_nonneg_right this (by linarith)
    linarith
  refine ⟨(edgesWithin_le_iff hM.inter hdl hel).mpr hC, fun h0 => ?_, fun hEq w => ?_⟩
  · unfold multilayerModularity at a b ⊢
    simp only at a b ⊢
    have := mul_le_mul_of_nonneg_left hC h0
    linarith
  · have hCe : withinAdj Gx d.2 = withinAdj Gx e.2 := by
      rw [withinAdj_edgesWithin hM.inter hdl, withinAdj_edgesWithin hM.inter hel, hEq]
    unfold multilayerModularity at a b ⊢
    simp only at a b
    rw [hCe] at a b ⊢
    linarith

/-- **C124 (resolution).** At the same `ω`, a domain at a larger resolution has a partition with at most as large a null model sum, and
(unless the resolution is negative) at most as many edges within communities, counting the interlayer ones with weight `ω`. -/
theorem c124_resolution (he : SoundEnv env) (hM : Multilayer Gi Gx layer) (hp : ∀ c ∈ parts, c.length = Gi.vcount)
    (h : champ3D env Gi Gx layer parts γ₀ γf ω₀ ωf = (some (.ok doms) : Option _)) {d e : List (ℝ × ℝ) × List α}
    (hd : d ∈ doms) (he' : e ∈ doms) {γ γ' ω : ℝ} (hγ : γ < γ') (h1 : (γ, ω) ∈ convexHull ℝ {q | q ∈ d.1})
    (h2 : (γ', ω) ∈ convexHull ℝ {q | q ∈ e.1}) :
    withinNullLayered Gi layer e.2 ≤ withinNullLayered Gi layer d.2 ∧
    (0 ≤ γ → withinAdj Gi e.2 + ω * withinAdj Gx e.2 ≤ withinAdj Gi d.2 + ω * withinAdj Gx d.2) := by
  obtain ⟨hdp, -, hdi⟩ := c21_domains_correct he hM hp h d hd
  obtain ⟨hep, -, hei⟩ := c21_domains_correct he hM hp h e he'
  have a := ((hdi _).mp h1).2 _ hep
  have b := ((hei _).mp h2).2 _ hdp
  unfold multilayerModularity at a b
  simp only at a b
  have hP : withinNullLayered Gi layer e.2 ≤ withinNullLayered Gi layer d.2 := by
    have : 0 ≤ (γ' - γ) * (withinNullLayered Gi layer d.2 - withinNullLayered Gi layer e.2) := by nlinarith
    have := nonneg_of_mul_nonneg_right this (by linarith)
    linarith
  refine ⟨hP, fun h0 => ?_⟩
  have := mul_le_mul_of_nonneg_left hP h0
  linarith

/-- **C124 (saturation).** Beyond `(1 + |γ|)` times the total of the intralayer adjacency matrix the coupling decides alone: the partition of
the domain has the largest number of interlayer edges within communities of all inputs, and among those that have as many it is the
best within the layers. -/
theorem c124_saturated (he : SoundEnv env) (hM : Multilayer Gi Gx layer) (hp : ∀ c ∈ parts, c.length = Gi.vcount)
    (h : champ3D env Gi Gx layer parts γ₀ γf ω₀ ωf = (some (.ok doms) : Option _)) {d : List (ℝ × ℝ) × List α}
    (hd : d ∈ doms) {γ ω : ℝ} (hω : (1 + |γ|) * total Gi < ω) (h1 : (γ, ω) ∈ convexHull ℝ {q | q ∈ d.1}) :
    ∀ c ∈ parts, edgesWithin Gx c ≤ edgesWithin Gx d.2 ∧ (edgesWithin Gx c = edgesWithin Gx d.2 →
      multilayerModularity Gi Gx layer γ 0 c ≤ multilayerModularity Gi Gx layer γ 0 d.2) := by
  obtain ⟨hdp, -, hdi⟩ := c21_domains_correct he hM hp h d hd
  have hdl : d.2.length = Gx.vcount := by rw [hp _ hdp, hM.vcount]
  intro c hc
  have a := ((hdi _).mp h1).2 _ hc
  have hcl : c.length = Gx.vcount := by rw [hp _ hc, hM.vcount]
  unfold multilayerModularity at a ⊢
  simp only at a
  refine ⟨?_, fun hEq => ?_⟩
  · by_contra hlt
    have hgap := edgesWithin_gap hM.inter hdl hcl (not_le.mp hlt)
    have a1 := Verif.withinAdj_nonneg Gi c
    have a2 := withinAdj_le Gi d.2
    have p1 := withinNullLayered_nonneg Gi layer c
    have p2 := withinNullLayered_le_total layer hM.layers c
    have p3 := withinNullLayered_nonneg Gi layer d.2
    have p4 := withinNullLayered_le_total layer hM.layers d.2
    have hT : (0 : ℝ) ≤ total Gi := a1.trans (withinAdj_le Gi c)
    have hω0 : 0 < ω := lt_of_le_of_lt (by positivity) hω
    have hω1 : ω ≤ ω * (withinAdj Gx c - withinAdj Gx d.2) := by nlinarith
    have hPd : |withinNullLayered Gi layer c - withinNullLayered Gi layer d.2| ≤ total Gi := abs_le.mpr ⟨by linarith, by linarith⟩
    have hγP : γ * (withinNullLayered Gi layer c - withinNullLayered Gi layer d.2) ≤ |γ| * total Gi :=
      (le_abs_self _).trans (by rw [abs_mul]; exact mul_le_mul_of_nonneg_left hPd (abs_nonneg γ))
    nlinarith
  · rw [withinAdj_edgesWithin hM.inter hcl, withinAdj_edgesWithin hM.inter hdl, hEq] at a ⊢
    linarith

section
variable {β : Type} [LinearOrder β] {ps : List (List β)} {penv : PruneEnv} {model : String} {restrict : Option Nat} {st : Bool}
  {out : List (List Nat)} {G' : Graph ℝ}

/-- **C124 (pruning).** Between the estimates (`ω` cut off at the window) of any two partitions returned by
`prune_to_multilayer_stable_partitions`, the null model sum moves against the resolution and the coupling within communities moves with
the coupling parameter, at least one of them; at equal resolution the larger `ω` keeps at least as many interlayer edges. -/
theorem c124_pruned (he : SoundPruneEnv penv) (hM : Multilayer Gi Gx layer) (hp : ∀ p ∈ ps, p.length = Gi.vcount)
    (h : pruneToMultilayerStable penv Gi Gx layer model (.memberships ps) γ₀ γf ω₀ ωf restrict st =
      (some (.ok (out, G')) : Option _)) {c c' : List Nat} (hc : c ∈ out) (hc' : c' ∈ out) {γ ω γ' ω' : ℝ}
    (h1 : gammaOmegaEstimate penv.test penv.fsolve Gi Gx layer c defaultOmegaMax model = .ok ((some (.fin γ), ω), G'))
    (h2 : gammaOmegaEstimate penv.test penv.fsolve Gi Gx layer c' defaultOmegaMax model = .ok ((some (.fin γ'), ω'), G')) :
    (γ' - γ) * (withinNullLayered Gi layer c' - withinNullLayered Gi layer c) ≤
      (min ω' (ωf - 1 / 1000) - min ω (ωf - 1 / 1000)) * (withinAdj Gx c' - withinAdj Gx c) ∧
    (γ = γ' → ω < ω' → ω < ωf - 1 / 1000 → edgesWithin Gx c ≤ edgesWithin Gx c') := by
  obtain ⟨qs, ⟨hnd, hqs⟩, doms, hch, hest, hsub, hout⟩ := pruneToMultilayerStable_facts he hM hp h
  have hlen : ∀ c ∈ qs, c.length = Gi.vcount := by
    intro c hc
    obtain ⟨p, hpc, rfl⟩ := (hqs c).mp hc
    rw [canon_length]; exact hp p hpc.1
  obtain ⟨d, hd, rfl, g, w, e1, hin⟩ := (hout c).mp hc
  obtain ⟨d', hd', rfl, g', w', e2, hin'⟩ := (hout c').mp hc'
  rw [h1] at e1; rw [h2] at e2
  cases e1; cases e2
  obtain hx | ⟨_, hx, hin⟩ := hin
  · cases hx
  cases hx
  obtain hx | ⟨_, hx, hin'⟩ := hin'
  · cases hx
  cases hx
  refine ⟨c124_monotone he.toSoundEnv hM hlen hch hd hd' (interior_subset hin) (interior_subset hin'), ?_⟩
  rintro rfl hω hf
  have hlt : min ω (ωf - 1 / 1000) < min ω' (ωf - 1 / 1000) := by
    rw [min_eq_left hf.le]; exact lt_min hω hf
  exact (c124_coupling he.toSoundEnv hM hlen hch hd hd' hlt (interior_subset hin) (interior_subset hin')).1

end

/-! ### Concrete cases -/

-- one community, the layers as communities, and the vertices followed through time: at `ω = 0` and at `ω = 50` some domain is
-- found, and the second has all three interlayer edges within communities
example : ∃ doms, champ3D exactEnv gIntraR gInterR [0, 0, 0, 1, 1, 1]
      [[0, 0, 0, 0, 0, 0], [0, 0, 0, 1, 1, 1], [0, 1, 2, 0, 1, 2]] 0 2 0 60 = (some (.ok doms) : Option _) ∧
    ∃ d ∈ doms, ∃ e ∈ doms, (1, 0) ∈ convexHull ℝ {q | q ∈ d.1} ∧ (1, 50) ∈ convexHull ℝ {q | q ∈ e.1} ∧
      edgesWithin gInterR d.2 ≤ edgesWithin gInterR e.2 ∧ 3 ≤ edgesWithin gInterR e.2 := by
  have hp : ∀ c ∈ ([[0, 0, 0, 0, 0, 0], [0, 0, 0, 1, 1, 1], [0, 1, 2, 0, 1, 2]] : List (List Nat)), c.length = gIntraR.vcount := by
    decide
  obtain ⟨doms, h⟩ := c21_returns (γ₀ := 0) (γf := 2) (ω₀ := 0) (ωf := 60) exactEnv_exact gIntraR_multilayer rfl (by decide)
    (by decide) hp (by decide) (by norm_num) (by norm_num)
  obtain ⟨d, hd, h1, -⟩ := c22_domains_cover (γ := 1) (ω := 0) exactEnv_exact.toSoundEnv gIntraR_multilayer hp (by decide) h
    (by norm_num) (by norm_num)
  obtain ⟨e, he, h2, -⟩ := c22_domains_cover (γ := 1) (ω := 50) exactEnv_exact.toSoundEnv gIntraR_multilayer hp (by decide) h
    (by norm_num) (by norm_num)
  refine ⟨doms, h, d, hd, e, he, h1, h2, (c124_coupling exactEnv_exact.toSoundEnv gIntraR_multilayer hp h hd he (by norm_num) h1 h2).1, ?_⟩
  have hT : total gIntraR = 8 := by rw [total_eq (F := ℝ) gIntraR_multilayer.intra]; decide
  have := (c124_saturated exactEnv_exact.toSoundEnv gIntraR_multilayer hp h he (γ := 1) (ω := 50) (by rw [hT]; norm_num) h2
    [0, 1, 2, 0, 1, 2] (by decide)).1
  exact le_trans (by decide +kernel) this

end Verif.Props
