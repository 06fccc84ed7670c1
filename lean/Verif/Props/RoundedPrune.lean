import Verif.Model.RoundedPrune
import Verif.Props.Rounding
import Verif.Props.FixedPoint
import Verif.Props.Prune

/-!
# Property C125: pruning with rounded coefficients and estimates
-/

namespace Verif.Props
open Verif Verif.Spec

variable {α : Type} [LinearOrder α] {env : PruneEnv} {G : Graph ℝ} {parts : List (List α)} {γ₀ γf u v : ℝ} {fl fle : ℝ → ℝ}
  {restrict : Option Nat} {st : Bool} {out : List (List Nat)} {G' : Graph ℝ}

theorem roundEstimate_fin {fle : ℝ → ℝ} {e : Option (Fl ℝ)} {x : ℝ} :
    roundEstimate fle e = some (.fin x) ↔ ∃ y, e = some (.fin y) ∧ x = fle y := by
  obtain _ | (y | _ | _ | _) := e <;> simp [roundEstimate, eq_comm]

/-- without rounding it is `prune_to_stable_partitions` -/
theorem c125_exact (env : PruneEnv) (G : Graph ℝ) (parts : PartsArg α) (γ₀ γf : ℝ) (restrict : Option Nat) (st : Bool) :
    pruneToStableRounded id id env G parts γ₀ γf restrict st = pruneToStable env G parts γ₀ γf restrict st := by
  have h : ∀ es : List (ℝ × ℝ × List Nat × Option (Fl ℝ)),
      (es.map fun e => (e.1, e.2.1, e.2.2.1, roundEstimate id e.2.2.2)) = es := by
    intro es
    conv_rhs => rw [← List.map_id es]
    refine List.map_congr_left fun e _ => ?_
    obtain ⟨a, b, c, _ | (y | _ | _ | _)⟩ := e <;> rfl
  unfold pruneToStableRounded pruneToStable
  simp only [h, c123_exact]

/-- everything the pipeline did, if it returned -/
theorem roundedPrune_facts (he : SoundPruneEnv env)
    (h : pruneToStableRounded fl fle env G (.memberships parts) γ₀ γf restrict st = (some (.ok (out, G')) : Option _)) :
    ∃ ps : List (List Nat), (ps.Nodup ∧ ∀ c, c ∈ ps ↔ ∃ p, Candidate parts restrict p ∧ canon p = c) ∧
      ∃ ranges, champ2DRounded fl env.toChampEnv G ps γ₀ γf st = (some (.ok ranges) : Option _) ∧
        (∀ r ∈ ranges, ∃ e, gammaEstimate env.test G r.2.2 = .ok (e, G')) ∧
        ∀ c, c ∈ out ↔ ∃ r ∈ ranges, r.2.2 = c ∧ ∃ γ, r.1 ≤ fle γ ∧ fle γ ≤ r.2.1 ∧
          gammaEstimate env.test G c = .ok (some (.fin γ), G') := by
  unfold pruneToStableRounded at h
  rw [Run.bind_ok] at h
  obtain ⟨ps₁, h1, h⟩ := h
  rw [Run.bind_ok] at h
  obtain ⟨ps, h2, h⟩ := h
  rw [Run.ofPy_ok] at h1 h2
  refine ⟨ps, candidates_ok he h1 h2, ?_⟩
  by_cases hps : ps.length = 0
  · rw [if_pos hps] at h
    obtain rfl := List.length_eq_zero_iff.mp hps
    obtain ⟨rfl, rfl⟩ := Prod.mk.inj (Except.ok.inj (Option.some.inj h))
    exact ⟨[], rfl, by simp, by simp⟩
  · rw [if_neg hps] at h
    rw [Run.bind_ok] at h
    obtain ⟨ranges, h3, h⟩ := h
    rw [Run.bind_ok] at h
    obtain ⟨⟨ests, G₁⟩, h4, h⟩ := h
    rw [Run.ofPy_ok] at h4
    obtain ⟨rfl, rfl⟩ := Prod.mk.inj (Except.ok.inj (Option.some.inj h))
    obtain ⟨-, -, est, e1, e2⟩ := rangesToGammaEstimates_ok h4
    refine ⟨ranges, h3, fun r hr => ⟨_, e1 r hr⟩, fun c => ?_⟩
    simp only [c35_single_layer_filter, e2, List.mem_map, List.mem_filter, decide_eq_true_iff, List.map_map]
    constructor
    · rintro ⟨e, ⟨⟨r, hr, rfl⟩, g, hg, hl, hu⟩, rfl⟩
      obtain ⟨y, hy, rfl⟩ := roundEstimate_fin.mp hg
      refine ⟨r, hr, rfl, y, hl, hu, ?_⟩
      have := e1 r hr
      simp only at hy
      rw [hy] at this
      exact this
    · rintro ⟨r, hr, rfl, g, hl, hu, hest⟩
      refine ⟨_, ⟨⟨r, hr, rfl⟩, fle g, ?_, hl, hu⟩, rfl⟩
      have := e1 r hr
      rw [hest] at this
      exact roundEstimate_fin.mpr ⟨g, (Prod.mk.inj (Except.ok.inj this)).1.symm, rfl⟩

theorem modularity_shift {β : Type} [DecidableEq β] {G : Graph ℝ} (hv : |fle γ₀ - γ₀| ≤ v * |γ₀|) (p q : List β) :
    modularity G γ₀ q - modularity G γ₀ p ≤ modularity G (fle γ₀) q - modularity G (fle γ₀) p + v * |γ₀| * total G := by
  have p1 := withinNull_nonneg G p
  have q1 := withinNull_nonneg G q
  have p2 := withinNull_le G p
  have q2 := withinNull_le G q
  rw [modularity_affine, modularity_affine, modularity_affine, modularity_affine]
  have hP : |withinNull G q - withinNull G p| ≤ total G := abs_le.mpr ⟨by linarith, by linarith⟩
  have : (fle γ₀ - γ₀) * (withinNull G q - withinNull G p) ≤ v * |γ₀| * total G := by
    refine (le_abs_self _).trans ?_
    rw [abs_mul]
    exact mul_le_mul hv hP (abs_nonneg _) (le_trans (abs_nonneg _) hv)
  linarith

theorem slack_at (hu : 0 ≤ u) (hv : RoundsWithin v fle) (G : Graph ℝ) (γ : ℝ) :
    2 * (u * (1 + |fle γ|) * total G) ≤ 2 * u * (1 + (1 + v) * |γ|) * total G := by
  have hT : (0 : ℝ) ≤ total G := (Verif.withinAdj_nonneg G ([] : List Nat)).trans (withinAdj_le G [])
  have h1 : |fle γ| ≤ (1 + v) * |γ| := by
    have := abs_sub_abs_le_abs_sub (fle γ) γ
    have := hv γ
    linarith
  have := mul_le_mul_of_nonneg_right (mul_le_mul_of_nonneg_left h1 hu) hT
  linarith

/-- **C125 (soundness).** Every returned partition is, at its exact estimate, better than all other candidates up to the margin; its rounded
estimate lies inside the window. -/
theorem c125_sound (he : SoundPruneEnv env) (hu : 0 ≤ u) (hu1 : u ≤ 1) (hfl : RoundsWithin u fl) (hfle : RoundsWithin v fle)
    (hG : G.WF) (hp : ∀ p ∈ parts, p.length = G.vcount)
    (h : pruneToStableRounded fl fle env G (.memberships parts) γ₀ γf restrict st = (some (.ok (out, G')) : Option _)) :
    ∀ c ∈ out, (∃ p, Candidate parts restrict p ∧ sortedTuple p = .ok c) ∧
      ∃ γ, HasEstimate env.test G c γ ∧ γ₀ ≤ fle γ ∧ fle γ ≤ γf ∧
        ∀ q, Candidate parts restrict q → modularity G γ q ≤ modularity G γ c + margin u v γ * total G := by
  obtain ⟨ps, ⟨hnd, hps⟩, ranges, hch, hest, hout⟩ := roundedPrune_facts he h
  have hlen : ∀ c ∈ ps, c.length = G.vcount := by
    intro c hc
    obtain ⟨p, hpc, rfl⟩ := (hps c).mp hc
    rw [canon_length]; exact hp p hpc.1
  intro c hc
  obtain ⟨r, hr, rfl, γ, hl, hu', hg⟩ := (hout c).mp hc
  have hne : ps ≠ [] := by
    rintro rfl
    unfold champ2DRounded at hch
    rw [if_pos (by rfl)] at hch
    obtain rfl := Except.ok.inj (Option.some.inj hch)
    simp at hr
  have hcl := rounded_coefs (G := G) (parts := ps) hu hu1 hfl
  have hrun := rounded_from he.toSoundEnv hG hlen hne hch
  obtain ⟨g1, g2, g3, g4, g5⟩ := c123_nearly_optimal he.qhull hcl hrun r hr
  obtain ⟨p, hpc, hpr⟩ := (hps _).mp g4
  refine ⟨⟨p, hpc, by rw [sortedTuple_eq, hpr]⟩, γ, ⟨r.2.2, G', by rw [sortedTuple_eq, ← hpr, canon_idem], hg⟩, by linarith,
    by linarith, fun q hq => ?_⟩
  have hb := g5 _ hl hu' (canon q) ((hps _).mpr ⟨q, hq, rfl⟩)
  have hsh := modularity_shift (G := G) (hfle γ) r.2.2 (canon q)
  have hsl := slack_at hu hfle G γ
  have hcq : modularity G γ (canon q) = modularity G γ q := modularity_same (canon_same q) (by rw [canon_length, hp q hq.1]) γ
  unfold slack at hb
  unfold margin
  rw [← hcq]
  linarith

/-- **C125 (completeness).** A candidate that at its exact estimate beats all other candidates by more than the margin, with the rounded
estimate strictly inside the window, is returned. -/
theorem c125_complete (he : SoundPruneEnv env) (hu : 0 ≤ u) (hu1 : u ≤ 1) (hfl : RoundsWithin u fl) (hfle : RoundsWithin v fle)
    (hG : G.WF) (hp : ∀ p ∈ parts, p.length = G.vcount)
    (h : pruneToStableRounded fl fle env G (.memberships parts) γ₀ γf restrict st = (some (.ok (out, G')) : Option _))
    {p : List α} (hpc : Candidate parts restrict p) {c : List Nat} (hc : sortedTuple p = .ok c) {γ : ℝ}
    (hE : HasEstimate env.test G p γ) (h0 : γ₀ < fle γ) (hf : fle γ < γf)
    (hbest : ∀ q, Candidate parts restrict q → ¬ SamePartition q p →
      modularity G γ q + margin u v γ * total G < modularity G γ p) : c ∈ out := by
  rw [sortedTuple_eq] at hc
  obtain rfl := Except.ok.inj hc
  obtain ⟨ps, ⟨hnd, hps⟩, ranges, hch, hest, hout⟩ := roundedPrune_facts he h
  have hlen : ∀ c ∈ ps, c.length = G.vcount := by
    intro c hc
    obtain ⟨p, hpc, rfl⟩ := (hps c).mp hc
    rw [canon_length]; exact hp p hpc.1
  have hpm : canon p ∈ ps := (hps _).mpr ⟨p, hpc, rfl⟩
  have hcanon : ∀ q ∈ parts, ∀ g, modularity G g (canon q) = modularity G g q := fun q hq g =>
    modularity_same (canon_same q) (by rw [canon_length, hp q hq]) g
  obtain ⟨r, hr, hl, hu', hrp⟩ := c123_rounded_keeps he.toSoundEnv hu hu1 hfl hG hlen hch hpm h0 hf (fun c' hc' hne => by
    obtain ⟨q, hq, rfl⟩ := (hps _).mp hc'
    have hb := hbest q hq (fun hs => hne ((canon_eq_iff q p).mpr hs))
    have hsh := modularity_shift (G := G) (hfle γ) (canon q) (canon p)
    have hsl := slack_at hu hfle G γ
    simp only [hcanon q hq.1, hcanon p hpc.1] at hsh ⊢
    unfold margin at hb
    linarith)
  refine (hout _).mpr ⟨r, hr, hrp, γ, hl, hu', ?_⟩
  obtain ⟨c, G₁, hc, hg⟩ := hE
  rw [sortedTuple_eq] at hc
  obtain rfl := Except.ok.inj hc
  obtain ⟨e, he'⟩ := hest r hr
  rw [hrp, hg] at he'
  rw [hg, (Prod.mk.inj (Except.ok.inj he')).2]

/-- the estimates of all ranges exist when every vertex has an edge -/
theorem estimates_return (hG : G.WF) (hv : 0 < G.vcount) (hiso : ∀ v < G.vcount, ∃ e ∈ G.edges, e.1 = v ∨ e.2 = v)
    (hw : env.test G = true → ∃ ws, G.weight = some ws ∧ ∀ w ∈ ws, 0 < w) {ranges : List (ℝ × ℝ × List Nat)}
    (hr : ∀ r ∈ ranges, ∃ p : List α, p.length = G.vcount ∧ canon p = r.2.2) :
    ∃ es G₂, rangesToGammaEstimates env.test G ranges = .ok (es, G₂) := by
  obtain ⟨G₁, hens, hWF, ws, hws, hpos⟩ : ∃ G₁, ensureWeight env.test G.vcount G = .ok G₁ ∧ G₁.WF ∧
      ∃ ws, G₁.weight = some ws ∧ ∀ w ∈ ws, 0 < w := by
    unfold ensureWeight
    by_cases ht : env.test G = true
    · obtain ⟨ws, h1, h2⟩ := hw ht
      exact ⟨G, by rw [if_pos ht], hG, ws, h1, h2⟩
    · refine ⟨{ G with weight := some (List.replicate G.edges.length 1) }, by rw [if_neg ht, setEsWeight_ones hv],
        ⟨hG.1, ?_⟩, List.replicate G.edges.length 1, rfl, ?_⟩
      · intro ws h; rw [← Option.some.inj h]; simp
      · intro w hw'; rw [List.eq_of_mem_replicate hw']; exact one_pos
  obtain ⟨v1, v2, v3⟩ := ensureWeight_vcount hens
  have hgam : ∀ p : List α, p.length = G.vcount → ∃ e, gammaEstimate env.test G (canon p) = .ok (e, G₁) := by
    intro p hp
    obtain ⟨r, hr⟩ := c25_no_isolated_vertices hWF hws hpos (c := canon p) (by rw [canon_length, hp, v1])
      (K := p.dedup.length) (canon_mem_iff p) (by rw [v1]; exact hv) (by rw [v1, v2]; exact hiso)
    refine ⟨gammaFromParameters r.1 r.2, ?_⟩
    unfold gammaEstimate
    rw [hens, Py.ok_bind]
    unfold leidenPartWithMembership
    rw [if_pos (by rw [canon_length, hp, v1]), Py.ok_bind, hr]
    rfl
  have hests : ∀ (ranges : List (ℝ × ℝ × List Nat)) (G₀ : Graph ℝ),
      (∀ r ∈ ranges, ∃ e, gammaEstimate env.test G₀ r.2.2 = .ok (e, G₁)) →
      ensureWeight env.test G₀.vcount G₀ = .ok G₁ →
      ∃ es G₂, rangesToGammaEstimates env.test G₀ ranges = .ok (es, G₂) := by
    intro ranges
    induction ranges with
    | nil => intro G₀ _ _; exact ⟨_, _, rfl⟩
    | cons r rest ih =>
      intro G₀ hr hG₀
      obtain ⟨e, he'⟩ := hr r (by simp)
      have hth := gammaEstimate_thread hG₀
      obtain ⟨es, G₂, hrest⟩ := ih G₁
        (fun r' hr' => by rw [hth]; exact hr r' (List.mem_cons_of_mem _ hr'))
        (by rw [(ensureWeight_vcount hG₀).1]; exact ensureWeight_idem hG₀)
      refine ⟨(r.1, r.2.1, r.2.2, e) :: es, G₂, ?_⟩
      unfold rangesToGammaEstimates
      rw [he', Py.ok_bind, hrest]; rfl
  exact hests ranges G (fun r hrm => by
    obtain ⟨p, hp, hpr⟩ := hr r hrm
    rw [← hpr]; exact hgam p hp) hens

/-- **C125 (returns).** It returns whenever the exact computation is known to (C39). -/
theorem c125_returns (he : SoundPruneEnv env) (hx : ExactEnv env.toChampEnv) (hu1 : u < 1) (hu : 0 ≤ u) (hfl : RoundsWithin u fl)
    (fle : ℝ → ℝ) (hG : G.WF) (hd : G.directed = false) (hv : 0 < G.vcount)
    (hiso : ∀ v < G.vcount, ∃ e ∈ G.edges, e.1 = v ∨ e.2 = v)
    (hw : env.test G = true → ∃ ws, G.weight = some ws ∧ ∀ w ∈ ws, 0 < w)
    (hp : ∀ p ∈ parts, p.length = G.vcount) (hγ : γ₀ < γf) (restrict : Option Nat) (st : Bool) :
    ∃ out G', pruneToStableRounded fl fle env G (.memberships parts) γ₀ γf restrict st = (some (.ok (out, G')) : Option _) := by
  have hm : 0 < G.ecount := by
    obtain ⟨e, he', -⟩ := hiso 0 hv
    exact List.length_pos_of_mem he'
  obtain ⟨out₀, G₀, hex⟩ := c39_returns (env := env) he hx hG hd hv hiso hw hp hγ restrict st
  unfold pruneToStable at hex
  rw [Run.bind_ok] at hex
  obtain ⟨ps₁, h1, hex⟩ := hex
  rw [Run.bind_ok] at hex
  obtain ⟨ps, h2, -⟩ := hex
  have hcand := candidates_ok he (Run.ofPy_ok.mp h1) (Run.ofPy_ok.mp h2)
  have hlen : ∀ c ∈ ps, c.length = G.vcount := by
    intro c hc
    obtain ⟨p, hpc, rfl⟩ := (hcand.2 c).mp hc
    rw [canon_length]; exact hp p hpc.1
  unfold pruneToStableRounded
  by_cases hne : ps.length = 0
  · refine ⟨[], G, ?_⟩
    rw [Run.bind_ok]
    refine ⟨ps₁, h1, ?_⟩
    rw [Run.bind_ok]
    refine ⟨ps, h2, ?_⟩
    rw [if_pos hne]; rfl
  · have hne' : ps ≠ [] := fun h => hne (by rw [h]; rfl)
    obtain ⟨ranges, hch⟩ := c123_rounded_returns hx hu1 hfl hG hd hm hlen hne' hγ st
    have hmem := fun r hr => c123_nearly_optimal he.qhull (rounded_coefs (G := G) (parts := ps) hu hu1.le hfl)
      (rounded_from he.toSoundEnv hG hlen hne' hch) r hr
    obtain ⟨es, G₂, hes⟩ := estimates_return (α := α) (env := env) hG hv hiso hw (ranges := ranges) (fun r hr => by
      obtain ⟨p, hpc, hpr⟩ := (hcand.2 _).mp (hmem r hr).2.2.2.1
      exact ⟨p, hp p hpc.1, hpr⟩)
    refine ⟨stablePartitions2D (es.map fun e => (e.1, e.2.1, e.2.2.1, roundEstimate fle e.2.2.2)), G₂, ?_⟩
    rw [Run.bind_ok]
    refine ⟨ps₁, h1, ?_⟩
    rw [Run.bind_ok]
    refine ⟨ps, h2, ?_⟩
    rw [if_neg hne, Run.bind_ok]
    refine ⟨ranges, hch, ?_⟩
    rw [Run.bind_ok]
    exact ⟨_, Run.ofPy_ok.mpr hes, rfl⟩

/-! ### A concrete case -/

/-- three partitions of a small graph, coefficients and estimates rounded to three digits: the partition into two communities
is still returned -/
example : ∃ out G', pruneToStableRounded (fun x => x * (999 / 1000)) (fun x => x * (999 / 1000)) pruneEnv gReal
      (.memberships threeParts) 0 2 none false = (some (.ok (out, G')) : Option _) ∧ [0, 0, 1, 1, 1] ∈ out := by
  obtain ⟨out, G', h⟩ := c125_returns (u := 1 / 1000) (parts := threeParts) (γ₀ := 0) (γf := 2) pruneEnv_sound exactEnv_exact
    (by norm_num) (by norm_num) chop_rounds (fun x => x * (999 / 1000)) gReal_wf rfl (by decide) (by decide) (by intro h; cases h)
    (by decide) (by norm_num) none false
  refine ⟨out, G', h, ?_⟩
  obtain ⟨hA, hP, hA1, hP1, hA0, hP0⟩ := gReal_coefs
  have hec : (gReal.ecount : ℝ) = 5 := by norm_num [gReal, Graph.ecount]
  have hT : total gReal = 10 := by rw [total_eq (F := ℝ) gReal_wf]; decide
  have hE : HasEstimate pruneEnv.test gReal [7, 7, 2, 2, 2] (logMean (6 / (52 / 10)) ((10 - 6) / (10 - 52 / 10))) := by
    rw [hasEstimate_unweighted gReal_wf rfl (by decide) (by intro h; cases h) rfl, hA, hP, hec]
    refine ⟨by norm_num, by norm_num, by norm_num, by norm_num, by norm_num⟩
  obtain ⟨b1, b2⟩ := logMean_between (a := 6 / (52 / 10)) (b := (10 - 6) / (10 - 52 / 10)) (by norm_num) (by norm_num)
    (by norm_num)
  have b3 : 9 / 10 ≤ logMean (6 / (52 / 10)) ((10 - 6) / (10 - 52 / 10)) := by
    unfold logMean
    have e1 := Real.log_le_sub_one_of_pos (x := 15 / 13) (by norm_num)
    have e2 := Real.one_sub_inv_le_log_of_pos (x := 5 / 6) (by norm_num)
    have e3 : (0 : ℝ) < Real.log (15 / 13) := Real.log_pos (by norm_num)
    have e4 : Real.log (5 / 6) < 0 := Real.log_neg (by norm_num) (by norm_num)
    norm_num at e1 e2 ⊢
    rw [le_div_iff₀ (by linarith)]
    linarith
  generalize logMean (6 / (52 / 10)) ((10 - 6) / (10 - 52 / 10)) = γ at *
  norm_num at b1 b2
  refine c125_complete (u := 1 / 1000) (v := 1 / 1000) pruneEnv_sound (by norm_num) (by norm_num) chop_rounds chop_rounds gReal_wf
    (by decide) h (p := [7, 7, 2, 2, 2]) ⟨by decide, by simp⟩ (by decide) hE (by linarith) (by linarith) ?_
  rintro q ⟨hq, -⟩ hn
  simp only [threeParts, List.mem_cons, List.not_mem_nil, or_false] at hq
  unfold margin
  rw [abs_of_pos (by linarith : 0 < γ), hT]
  rcases hq with rfl | rfl | rfl
  · simp only [modularity_affine, hA, hP, hA1, hP1]; norm_num; linarith
  · exact absurd ⟨rfl, fun _ _ _ _ => Iff.rfl⟩ hn
  · simp only [modularity_affine, hA, hP, hA0, hP0]; norm_num; linarith

end Verif.Props
