import Verif.Model.RoundedPrune3D
import Verif.Props.RoundedPrune
import Verif.Props.Rounding3D
import Verif.Props.Returns3D
import Verif.Props.Explicit3D

/-!
# Property C126: multilayer pruning with rounded coefficients and estimates
-/

namespace Verif.Props
open Verif Verif.Spec

section
variable {α : Type} [DecidableEq α] {env : ChampEnv} {Gi Gx : Graph ℝ} {layer : List Nat} {parts : List (List α)}
  {A P C : List ℝ} {γ₀ γf ω₀ ωf δ : ℝ} {doms : List (List (ℝ × ℝ) × List α)}

/-- the domains are still polygons, listed clockwise -/
theorem from_boundary_order (hq : ExactQhull env.qhull) (hc : CloseCoefs3D δ Gi Gx layer parts A P C)
    (h : champ3DFrom env parts A P C γ₀ γf ω₀ ωf = (some (.ok doms) : Option _)) :
    ∀ d ∈ doms, 3 ≤ d.1.length ∧ d.1.Nodup ∧ Clockwise d.1 := by
  obtain ⟨-, keys, dom, part, coef, -, hr, hk, -, -⟩ :=
    champ3DFrom_facts hq rfl (zip3_length hc) (close3_nn hc).1 (close3_nn hc).2 h
  intro d hd
  rw [hr] at hd
  obtain ⟨j, hj, rfl⟩ := List.mem_map.mp hd
  obtain ⟨-, -, -, -, h5, h6, -, h8⟩ := hk j hj
  exact ⟨h6, h5, h8⟩

/-- no partition has two domains -/
theorem from_unique (hq : ExactQhull env.qhull) (hc : CloseCoefs3D δ Gi Gx layer parts A P C) (hnd : parts.Nodup)
    (h : champ3DFrom env parts A P C γ₀ γf ω₀ ωf = (some (.ok doms) : Option _)) :
    ∀ d ∈ doms, ∀ e ∈ doms, d.2 = e.2 → d = e := by
  obtain ⟨-, keys, dom, part, coef, -, hr, hk, -, -⟩ :=
    champ3DFrom_facts hq rfl (zip3_length hc) (close3_nn hc).1 (close3_nn hc).2 h
  intro d hd e he hde
  rw [hr] at hd he
  obtain ⟨j, hj, rfl⟩ := List.mem_map.mp hd
  obtain ⟨k, hk', rfl⟩ := List.mem_map.mp he
  have h1 := (hk j hj).1
  have h2 := (hk k hk').1
  simp only at hde
  rw [← hde] at h2
  obtain ⟨hlt, e1⟩ := List.getElem?_eq_some_iff.mp h1
  obtain ⟨hlt', e2⟩ := List.getElem?_eq_some_iff.mp h2
  rw [(hnd.getElem_inj_iff (hi := hlt) (hj := hlt')).mp (e1.trans e2.symm)]

theorem slack_continuous (δ : ℝ) (Gi Gx : Graph ℝ) (layer : List Nat) (c : List α) :
    Continuous (fun q : ℝ × ℝ => multilayerModularity Gi Gx layer q.1 q.2 c) ∧
    Continuous (fun q : ℝ × ℝ => slack3D δ Gi Gx q.1 q.2) := by
  unfold multilayerModularity slack3D
  constructor <;> fun_prop

/-- a clear optimum inside the window lies in the interior of its domain -/
theorem clear_optimum_interior (hq : ExactQhull env.qhull) (hc : CloseCoefs3D δ Gi Gx layer parts A P C) (hnd : parts.Nodup)
    (h : champ3DFrom env parts A P C γ₀ γf ω₀ ωf = (some (.ok doms) : Option _)) {c : List α} (hcp : c ∈ parts) {γ ω : ℝ}
    (hγ : γ₀ < γ ∧ γ < γf) (hω : ω₀ < ω ∧ ω < ωf)
    (hopt : ∀ c' ∈ parts, c' ≠ c → multilayerModularity Gi Gx layer γ ω c' + slack3D δ Gi Gx γ ω <
      multilayerModularity Gi Gx layer γ ω c) :
    ∃ d ∈ doms, (γ, ω) ∈ interior (convexHull ℝ {q | q ∈ d.1}) ∧ d.2 = c := by
  obtain ⟨d, hd, -, hdc⟩ := c123_clear_optimum_3D hq hc h hcp ⟨hγ.1.le, hγ.2.le⟩ ⟨hω.1.le, hω.2.le⟩ hopt
  refine ⟨d, hd, ?_, hdc⟩
  rw [mem_interior_iff_mem_nhds]
  have hwin : ∀ᶠ q : ℝ × ℝ in nhds (γ, ω), (γ₀ < q.1 ∧ q.1 < γf) ∧ ω₀ < q.2 ∧ q.2 < ωf := by
    have : IsOpen (Set.Ioo γ₀ γf ×ˢ Set.Ioo ω₀ ωf) := isOpen_Ioo.prod isOpen_Ioo
    filter_upwards [this.mem_nhds (show (γ, ω) ∈ Set.Ioo γ₀ γf ×ˢ Set.Ioo ω₀ ωf from ⟨hγ, hω⟩)] with q hq using hq
  have hall : ∀ᶠ q : ℝ × ℝ in nhds (γ, ω), ∀ c' ∈ {c' | c' ∈ parts}, c' ≠ c →
      multilayerModularity Gi Gx layer q.1 q.2 c' + slack3D δ Gi Gx q.1 q.2 < multilayerModularity Gi Gx layer q.1 q.2 c := by
    rw [Filter.eventually_all_finite (List.finite_toSet parts)]
    intro c' hc'
    by_cases hne : c' = c
    · exact Filter.Eventually.of_forall fun q hq => absurd hne hq
    · have k1 := slack_continuous δ Gi Gx layer c'
      have k2 := slack_continuous δ Gi Gx layer c
      have := (isOpen_lt (k1.1.add k1.2) k2.1).mem_nhds (x := (γ, ω)) (hopt c' hc' hne)
      filter_upwards [this] with q hq _ using hq
  filter_upwards [hwin, hall] with q hqw hqa
  obtain ⟨e, he, hm, hec⟩ := c123_clear_optimum_3D hq hc h hcp (γ := q.1) (ω := q.2) ⟨hqw.1.1.le, hqw.1.2.le⟩
    ⟨hqw.2.1.le, hqw.2.2.le⟩ hqa
  rw [from_unique hq hc hnd h d hd e he (hdc.trans hec.symm)]
  exact hm

end

variable {α : Type} [LinearOrder α] {env : PruneEnv} {Gi Gx : Graph ℝ} {layer : List Nat} {model : String}
  {parts : List (List α)} {γ₀ γf ω₀ ωf u v : ℝ} {fl fle : ℝ → ℝ} {restrict : Option Nat} {st : Bool} {out : List (List Nat)}
  {G' : Graph ℝ}

/-- without rounding it is `prune_to_multilayer_stable_partitions` -/
theorem c126_exact (env : PruneEnv) (Gi Gx : Graph ℝ) (layer : List Nat) (model : String) (parts : PartsArg α)
    (γ₀ γf ω₀ ωf : ℝ) (restrict : Option Nat) (st : Bool) :
    pruneToMultilayerRounded id id env Gi Gx layer model parts γ₀ γf ω₀ ωf restrict st =
      pruneToMultilayerStable env Gi Gx layer model parts γ₀ γf ω₀ ωf restrict st := by
  have h : ∀ es : List (List (ℝ × ℝ) × List Nat × Option (Fl ℝ) × ℝ),
      (es.map fun e => (e.1, e.2.1, roundEstimate id e.2.2.1, id e.2.2.2)) = es := by
    intro es
    conv_rhs => rw [← List.map_id es]
    refine List.map_congr_left fun e _ => ?_
    obtain ⟨a, b, _ | (y | _ | _ | _), c⟩ := e <;> rfl
  unfold pruneToMultilayerRounded pruneToMultilayerStable
  simp only [h, c123_exact_3D]

theorem side_iff {d : List (ℝ × ℝ)} (h : 3 ≤ d.length ∧ d.Nodup ∧ Clockwise d) (γ ω : ℝ) :
    sameSideOfAllEdges d (.fin γ) (.fin ω) = true ↔ (γ, ω) ∈ interior (convexHull ℝ {q | q ∈ d}) := by
  obtain ⟨c1, c2⟩ := c36_point_in_polygon (⟨h.1, h.2.1, Or.inl h.2.2⟩ : ConvexPolygon d) ([] : List Nat) γ ω
  unfold stablePartitions3D stableDomains at c1 c2
  by_cases hs : sameSideOfAllEdges d (.fin γ) (.fin ω) = true
  · refine ⟨fun _ => ?_, fun _ => hs⟩
    by_contra hn
    have := c2 hn
    simp [hs] at this
  · refine ⟨fun h => absurd h hs, fun hi => ?_⟩
    have := c1 hi
    simp [hs] at this

theorem side_nan (d : List (ℝ × ℝ)) (ω : ℝ) : sameSideOfAllEdges d .nan (.fin ω) = true := by
  have := c37_nan_is_stable d ([] : List Nat) .nan (.fin ω) (Or.inl rfl)
  unfold stablePartitions3D stableDomains at this
  by_contra hs
  simp [hs] at this

/-- everything the pipeline did, if it returned -/
theorem roundedPrune3D_facts (he : SoundPruneEnv env) (hu : 0 ≤ u) (hu1 : u ≤ 1) (hfl : RoundsWithin u fl)
    (hM : Multilayer Gi Gx layer) (hp : ∀ p ∈ parts, p.length = Gi.vcount)
    (h : pruneToMultilayerRounded fl fle env Gi Gx layer model (.memberships parts) γ₀ γf ω₀ ωf restrict st =
      (some (.ok (out, G')) : Option _)) :
    ∃ ps : List (List Nat), (ps.Nodup ∧ ∀ c, c ∈ ps ↔ ∃ p, Candidate parts restrict p ∧ canon p = c) ∧
      ∃ doms, champ3DRounded fl env.toChampEnv Gi Gx layer ps γ₀ γf ω₀ ωf = (some (.ok doms) : Option _) ∧
        (∀ d ∈ doms, ∃ e, gammaOmegaEstimate env.test env.fsolve Gi Gx layer d.2 defaultOmegaMax model = .ok (e, G')) ∧
        ∀ c, c ∈ out ↔ ∃ d ∈ doms, d.2 = c ∧ ∃ g ω,
          gammaOmegaEstimate env.test env.fsolve Gi Gx layer c defaultOmegaMax model = .ok ((some g, ω), G') ∧
          (g = .nan ∨ ∃ γ, g = .fin γ ∧
            (fle γ, min (fle ω) (ωf - 1 / 1000)) ∈ interior (convexHull ℝ {q | q ∈ d.1})) := by
  unfold pruneToMultilayerRounded at h
  cases st with
  | true => cases h
  | false =>
  simp only [Bool.false_eq_true, if_false] at h
  rw [Run.bind_ok] at h
  obtain ⟨ps₁, h1, h⟩ := h
  rw [Run.bind_ok] at h
  obtain ⟨ps, h2, h⟩ := h
  rw [Run.ofPy_ok] at h1 h2
  have hcand := candidates_ok he h1 h2
  refine ⟨ps, hcand, ?_⟩
  have hlen : ∀ c ∈ ps, c.length = Gi.vcount := by
    intro c hc
    obtain ⟨p, hpc, rfl⟩ := (hcand.2 c).mp hc
    rw [canon_length]; exact hp p hpc.1
  by_cases hps : ps.length = 0
  · rw [if_pos hps] at h
    obtain rfl := List.length_eq_zero_iff.mp hps
    obtain ⟨rfl, rfl⟩ := Prod.mk.inj (Except.ok.inj (Option.some.inj h))
    exact ⟨[], rfl, by simp, by simp⟩
  · rw [if_neg hps] at h
    rw [Run.bind_ok] at h
    obtain ⟨doms, h3, h⟩ := h
    rw [Run.bind_ok] at h
    obtain ⟨⟨ests, G₁⟩, h4, h⟩ := h
    rw [Run.ofPy_ok] at h4
    obtain ⟨rfl, rfl⟩ := Prod.mk.inj (Except.ok.inj (Option.some.inj h))
    obtain ⟨est, e1, e2⟩ := domainsToEstimates_ok h4
    have hne : ps ≠ [] := fun h => hps (by rw [h]; rfl)
    have hpoly := from_boundary_order he.qhull (rounded_coefs_3D (Gx := Gx) (parts := ps) hu hu1 hfl hM.layers)
      (rounded_from_3D he.toSoundEnv hM hlen hne h3)
    refine ⟨doms, h3, fun d hd => ⟨_, e1 d hd⟩, fun c => ?_⟩
    unfold stablePartitions3D stableDomains truncateOmegas
    rw [List.mem_map]
    constructor
    · rintro ⟨x, hx, rfl⟩
      obtain ⟨hx, hside⟩ := List.mem_filter.mp hx
      obtain ⟨y, hy, hyx⟩ := List.mem_filterMap.mp hx
      rw [e2, List.map_map] at hy
      obtain ⟨d, hd, rfl⟩ := List.mem_map.mp hy
      have hE := e1 d hd
      cases hg : (est d.2).1 with
      | none => simp only [Function.comp, hg, roundEstimate] at hyx; cases hyx
      | some g =>
        have hE' : est d.2 = (some g, (est d.2).2) := by rw [← hg]
        rw [hE'] at hE
        rcases gammaOmegaEstimate_kind hE with rfl | ⟨γ, rfl⟩
        · simp only [Function.comp, hg, roundEstimate] at hyx
          obtain rfl := Option.some.inj hyx
          exact ⟨d, hd, rfl, _, _, hE, Or.inl rfl⟩
        · simp only [Function.comp, hg, roundEstimate] at hyx
          obtain rfl := Option.some.inj hyx
          exact ⟨d, hd, rfl, _, _, hE, Or.inr ⟨γ, rfl, (side_iff (hpoly d hd) _ _).mp hside⟩⟩
    · rintro ⟨d, hd, rfl, g, ω, hE, hk⟩
      have hE' : est d.2 = (some g, ω) := by
        have := e1 d hd
        rw [hE] at this
        exact (Prod.mk.inj (Except.ok.inj this)).1.symm
      obtain ⟨g', hg'⟩ : ∃ g', roundEstimate fle (some g) = some g' := by cases g <;> exact ⟨_, rfl⟩
      refine ⟨(d.1, d.2, some g', some (.fin (min (fle ω) (ωf - 1 / 1000)))), List.mem_filter.mpr ⟨List.mem_filterMap.mpr
        ⟨(d.1, d.2, some g', fle ω), ?_, rfl⟩, ?_⟩, rfl⟩
      · rw [e2, List.map_map]
        refine List.mem_map.mpr ⟨d, hd, ?_⟩
        simp only [Function.comp, hE', hg']
      · rcases hk with rfl | ⟨γ, rfl, hin⟩
        · cases hg'
          exact side_nan _ _
        · cases hg'
          exact (side_iff (hpoly d hd) _ _).mpr hin

theorem min_shift {a b t : ℝ} : |min b t - min a t| ≤ |b - a| := by
  have := abs_min_sub_min_le_max b t a t
  simpa using this

theorem shift_3D (hM : Multilayer Gi Gx layer) (hv : RoundsWithin v fle) {β : Type} [DecidableEq β] (p q : List β) (γ ω t : ℝ) :
    multilayerModularity Gi Gx layer γ (min ω t) q - multilayerModularity Gi Gx layer γ (min ω t) p ≤
      multilayerModularity Gi Gx layer (fle γ) (min (fle ω) t) q - multilayerModularity Gi Gx layer (fle γ) (min (fle ω) t) p +
        v * (|γ| * total Gi + |ω| * total Gx) := by
  have p1 := withinNullLayered_nonneg Gi layer p
  have q1 := withinNullLayered_nonneg Gi layer q
  have p2 := withinNullLayered_le_total layer hM.layers p
  have q2 := withinNullLayered_le_total layer hM.layers q
  have p3 := Verif.withinAdj_nonneg Gx p
  have q3 := Verif.withinAdj_nonneg Gx q
  have p4 := withinAdj_le Gx p
  have q4 := withinAdj_le Gx q
  have hP : |withinNullLayered Gi layer q - withinNullLayered Gi layer p| ≤ total Gi := abs_le.mpr ⟨by linarith, by linarith⟩
  have hC : |withinAdj Gx p - withinAdj Gx q| ≤ total Gx := abs_le.mpr ⟨by linarith, by linarith⟩
  have e1 : (fle γ - γ) * (withinNullLayered Gi layer q - withinNullLayered Gi layer p) ≤ v * |γ| * total Gi := by
    refine (le_abs_self _).trans ?_
    rw [abs_mul]
    exact mul_le_mul (hv γ) hP (abs_nonneg _) (le_trans (abs_nonneg _) (hv γ))
  have e2 : (min (fle ω) t - min ω t) * (withinAdj Gx p - withinAdj Gx q) ≤ v * |ω| * total Gx := by
    refine (le_abs_self _).trans ?_
    rw [abs_mul]
    exact mul_le_mul (min_shift.trans (hv ω)) hC (abs_nonneg _) (le_trans (abs_nonneg _) (hv ω))
  unfold multilayerModularity
  linarith

theorem slack_at_3D (hu : 0 ≤ u) (hv : RoundsWithin v fle) (Gi Gx : Graph ℝ) (γ ω t : ℝ) :
    slack3D u Gi Gx (fle γ) (min (fle ω) t) ≤
      2 * u * ((1 + (1 + v) * |γ|) * total Gi + (|min ω t| + v * |ω|) * total Gx) := by
  have hT : (0 : ℝ) ≤ total Gi := (Verif.withinAdj_nonneg Gi ([] : List Nat)).trans (withinAdj_le Gi [])
  have hX : (0 : ℝ) ≤ total Gx := (Verif.withinAdj_nonneg Gx ([] : List Nat)).trans (withinAdj_le Gx [])
  have h1 : |fle γ| ≤ (1 + v) * |γ| := by
    have := abs_sub_abs_le_abs_sub (fle γ) γ
    have := hv γ
    linarith
  have h2 : |min (fle ω) t| ≤ |min ω t| + v * |ω| := by
    have := abs_sub_abs_le_abs_sub (min (fle ω) t) (min ω t)
    have := (min_shift (a := ω) (b := fle ω) (t := t)).trans (hv ω)
    linarith
  have a1 := mul_le_mul_of_nonneg_right h1 hT
  have a2 := mul_le_mul_of_nonneg_right h2 hX
  unfold slack3D
  have := mul_le_mul_of_nonneg_left (add_le_add a1 a2) hu
  linarith

/-- **C126 (soundness).** Every returned partition has an undefined resolution estimate or is, at its exact estimates (`ω` cut off at the
window), better than all other candidates up to the margin; the rounded estimates lie in the window. -/
theorem c126_sound (he : SoundPruneEnv env) (hu : 0 ≤ u) (hu1 : u ≤ 1) (hfl : RoundsWithin u fl) (hfle : RoundsWithin v fle)
    (hM : Multilayer Gi Gx layer) (hp : ∀ p ∈ parts, p.length = Gi.vcount)
    (h : pruneToMultilayerRounded fl fle env Gi Gx layer model (.memberships parts) γ₀ γf ω₀ ωf restrict st =
      (some (.ok (out, G')) : Option _)) :
    ∀ c ∈ out, (∃ p, Candidate parts restrict p ∧ sortedTuple p = .ok c) ∧
      ∃ g ω, gammaOmegaEstimate env.test env.fsolve Gi Gx layer c defaultOmegaMax model = .ok ((some g, ω), G') ∧
        (g = .nan ∨ ∃ γ, g = .fin γ ∧ (γ₀ ≤ fle γ ∧ fle γ ≤ γf) ∧ ω₀ ≤ min (fle ω) (ωf - 1 / 1000) ∧
          ∀ q, Candidate parts restrict q → multilayerModularity Gi Gx layer γ (min ω (ωf - 1 / 1000)) q ≤
            multilayerModularity Gi Gx layer γ (min ω (ωf - 1 / 1000)) c + margin3D u v Gi Gx γ ω (ωf - 1 / 1000)) := by
  obtain ⟨ps, ⟨hnd, hps⟩, doms, hch, hest, hout⟩ := roundedPrune3D_facts he hu hu1 hfl hM hp h
  have hlen : ∀ c ∈ ps, c.length = Gi.vcount := by
    intro c hc
    obtain ⟨p, hpc, rfl⟩ := (hps c).mp hc
    rw [canon_length]; exact hp p hpc.1
  intro c hc
  obtain ⟨d, hd, rfl, g, ω, hg, hk⟩ := (hout c).mp hc
  have hne : ps ≠ [] := by
    rintro rfl
    unfold champ3DRounded at hch
    rw [if_pos (by rfl)] at hch
    obtain rfl := Except.ok.inj (Option.some.inj hch)
    simp at hd
  have hcl := rounded_coefs_3D (Gx := Gx) (parts := ps) hu hu1 hfl hM.layers
  have hrun := rounded_from_3D he.toSoundEnv hM hlen hne hch
  obtain ⟨g1, g2⟩ := c123_nearly_optimal_3D he.qhull hcl hrun d hd
  obtain ⟨p, hpc, hpr⟩ := (hps _).mp g1
  refine ⟨⟨p, hpc, by rw [sortedTuple_eq, hpr]⟩, g, ω, hg, ?_⟩
  obtain hn | ⟨γ, hγ, hin⟩ := hk
  · exact Or.inl hn
  obtain ⟨⟨w1, w2⟩, hall⟩ := g2 _ (interior_subset hin)
  refine Or.inr ⟨γ, hγ, w1, w2.1, fun q hq => ?_⟩
  have hb := hall (canon q) ((hps _).mpr ⟨q, hq, rfl⟩)
  have hsh := shift_3D hM hfle d.2 (canon q) γ ω (ωf - 1 / 1000)
  have hsl := slack_at_3D hu hfle Gi Gx γ ω (ωf - 1 / 1000)
  have hcq : ∀ a b, multilayerModularity Gi Gx layer a b (canon q) = multilayerModularity Gi Gx layer a b q :=
    fun a b => multilayer_canon hM (hp q hq.1) a b
  rw [hcq] at hsh
  rw [hcq] at hb
  simp only [hcq] at hsh
  simp only at hb
  unfold margin3D
  linarith

/-- **C126 (completeness).** A candidate that at its exact estimates (`ω` cut off at the window) beats all other candidates by more than the
margin, with the rounded estimates strictly inside the window, is returned. -/
theorem c126_complete (he : SoundPruneEnv env) (hu : 0 ≤ u) (hu1 : u ≤ 1) (hfl : RoundsWithin u fl) (hfle : RoundsWithin v fle)
    (hM : Multilayer Gi Gx layer) (hp : ∀ p ∈ parts, p.length = Gi.vcount)
    (h : pruneToMultilayerRounded fl fle env Gi Gx layer model (.memberships parts) γ₀ γf ω₀ ωf restrict st =
      (some (.ok (out, G')) : Option _)) {p : List α} (hpc : Candidate parts restrict p) {c : List Nat}
    (hc : sortedTuple p = .ok c) {γ ω : ℝ} (hE : HasEstimates env.test env.fsolve Gi Gx layer model p γ ω)
    (hγ : γ₀ < fle γ ∧ fle γ < γf) (hω : ω₀ < min (fle ω) (ωf - 1 / 1000))
    (hbest : ∀ q, Candidate parts restrict q → ¬ SamePartition q p →
      multilayerModularity Gi Gx layer γ (min ω (ωf - 1 / 1000)) q + margin3D u v Gi Gx γ ω (ωf - 1 / 1000) <
        multilayerModularity Gi Gx layer γ (min ω (ωf - 1 / 1000)) p) : c ∈ out := by
  rw [sortedTuple_eq] at hc
  obtain rfl := Except.ok.inj hc
  obtain ⟨ps, ⟨hnd, hps⟩, doms, hch, hest, hout⟩ := roundedPrune3D_facts he hu hu1 hfl hM hp h
  have hlen : ∀ c ∈ ps, c.length = Gi.vcount := by
    intro c hc
    obtain ⟨p, hpc, rfl⟩ := (hps c).mp hc
    rw [canon_length]; exact hp p hpc.1
  have hpm : canon p ∈ ps := (hps _).mpr ⟨p, hpc, rfl⟩
  have hcanon : ∀ q ∈ parts, ∀ a b, multilayerModularity Gi Gx layer a b (canon q) = multilayerModularity Gi Gx layer a b q :=
    fun q hq a b => multilayer_canon hM (hp q hq) a b
  obtain ⟨d, hd, hin, hdc⟩ := clear_optimum_interior he.qhull (rounded_coefs_3D (Gx := Gx) (parts := ps) hu hu1 hfl hM.layers) hnd
    (rounded_from_3D he.toSoundEnv hM hlen (List.ne_nil_of_mem hpm) hch) hpm hγ
    ⟨hω, lt_of_le_of_lt (min_le_right (fle ω) _) (by linarith)⟩ (fun c' hc' hne => by
      obtain ⟨q, hq, rfl⟩ := (hps _).mp hc'
      have hb := hbest q hq (fun hs => hne ((canon_eq_iff q p).mpr hs))
      have hsh := shift_3D hM hfle (canon q) (canon p) γ ω (ωf - 1 / 1000)
      have hsl := slack_at_3D hu hfle Gi Gx γ ω (ωf - 1 / 1000)
      simp only [hcanon q hq.1, hcanon p hpc.1] at hsh ⊢
      unfold margin3D at hb
      linarith)
  obtain ⟨c, G₁, hc, hg⟩ := hE
  rw [sortedTuple_eq] at hc
  obtain rfl := Except.ok.inj hc
  obtain ⟨e, he'⟩ := hest d hd
  rw [hdc, hg] at he'
  refine (hout _).mpr ⟨d, hd, hdc, .fin γ, ω, ?_, Or.inr ⟨γ, rfl, hin⟩⟩
  rw [hg, (Prod.mk.inj (Except.ok.inj he')).2]

/-- **C126 (returns).** With exact linear programming it returns, unless the estimate of some candidate raises. -/
theorem c126_returns (he : SoundPruneEnv env) (hx : ExactEnv env.toChampEnv) (hu : 0 ≤ u) (hu1 : u < 1) (hfl : RoundsWithin u fl)
    (fle : ℝ → ℝ) (hM : Multilayer Gi Gx layer) (hd : Gi.directed = false) (hn : layer ≠ [])
    (hedge : ∀ t ∈ layer, ∃ e ∈ Gi.edges, layer[e.1]? = some t) (hp : ∀ p ∈ parts, p.length = Gi.vcount) (hγ : γ₀ < γf)
    (hω : ω₀ < ωf) (model : String) (restrict : Option Nat) :
    ∃ r, pruneToMultilayerRounded fl fle env Gi Gx layer model (.memberships parts) γ₀ γf ω₀ ωf restrict false =
        (some r : Option _) ∧
      ∀ e, r = .error e → ∃ p c, Candidate parts restrict p ∧ sortedTuple p = .ok c ∧
        gammaOmegaEstimate env.test env.fsolve Gi Gx layer c defaultOmegaMax model = .error e := by
  have hv : 0 < Gi.vcount := by rw [← hM.layers]; exact List.length_pos_of_ne_nil hn
  have hcan : ∀ c ∈ env.setOrder (parts.map canon), canon c = c ∧ c.length = Gi.vcount := by
    intro c hc
    rw [he.setMem] at hc
    obtain ⟨p, hpp, rfl⟩ := List.mem_map.mp hc
    exact ⟨canon_idem p, by rw [canon_length]; exact hp p hpp⟩
  obtain ⟨ps, h2⟩ : ∃ ps, restrictParts env.setOrder restrict (env.setOrder (parts.map canon)) = .ok ps := by
    cases restrict with
    | none => exact ⟨_, rfl⟩
    | some K =>
      refine ⟨_, restrictParts_ok (fun c hc => (hcan c hc).1) (fun c hc hn => ?_)⟩
      have := (hcan c hc).2
      rw [hn] at this
      simp at this
      omega
  have h1 := canonicalParts_ok env.setOrder parts
  have hcand := candidates_ok he h1 h2
  have hlen : ∀ c ∈ ps, c.length = Gi.vcount := by
    intro c hc
    obtain ⟨p, hpc, rfl⟩ := (hcand.2 c).mp hc
    rw [canon_length]; exact hp p hpc.1
  unfold pruneToMultilayerRounded
  rw [if_neg (by decide), h1, run_ofPy_bind, h2, run_ofPy_bind]
  by_cases hne : ps.length = 0
  · rw [if_pos hne]
    exact ⟨.ok ([], Gi), rfl, fun e h => by cases h⟩
  · have hne' : ps ≠ [] := fun h => hne (by rw [h]; rfl)
    obtain ⟨doms, hch⟩ := c123_rounded_returns_3D hx hu1 hfl hM hd hn hedge hlen hne' hγ hω
    have hmem := fun d hdm => c123_nearly_optimal_3D he.qhull (rounded_coefs_3D (Gx := Gx) (parts := ps) hu hu1.le hfl hM.layers)
      (rounded_from_3D he.toSoundEnv hM hlen hne' hch) d hdm
    refine ⟨(domainsToEstimates env.test env.fsolve Gx layer model Gi doms).map fun r =>
      (stablePartitions3D (truncateOmegas ωf (r.1.map fun e => (e.1, e.2.1, roundEstimate fle e.2.2.1, fle e.2.2.2))), r.2), ?_,
      fun e h => ?_⟩
    · rw [if_neg hne, hch]
      refine (run_ofPy_bind doms _).trans ?_
      cases hde : domainsToEstimates env.test env.fsolve Gx layer model Gi doms <;> rfl
    · cases hde : domainsToEstimates env.test env.fsolve Gx layer model Gi doms with
      | ok r => rw [hde] at h; cases h
      | error e' =>
        rw [hde] at h
        cases h
        obtain ⟨d, hdm, hE⟩ := domainsToEstimates_error hde
        obtain ⟨p, hpc, hpr⟩ := (hcand.2 _).mp (hmem d hdm).1
        exact ⟨p, d.2, hpc, by rw [sortedTuple_eq, hpr], hE⟩

/-! ### A concrete case -/

/-- two layers of a path, numbers rounded to three digits: the partition with estimates about `(1, 1000)` is returned -/
example : ∃ out G', pruneToMultilayerRounded (fun x => x * (999 / 1000)) (fun x => x * (999 / 1000)) pruneEnv gIntraR gInterR
      [0, 0, 0, 1, 1, 1] "temporal" (.memberships [[0, 0, 1, 0, 0, 1]]) 0 2 0 2 none false =
      (some (.ok (out, G')) : Option _) ∧ [0, 0, 1, 0, 0, 1] ∈ out := by
  have hA : withinAdj gIntraR [0, 0, 1, 0, 0, 1] = 4 := by
    simp [withinAdj, gIntraR, adj, Finset.sum_range_succ]; norm_num
  have hX : withinAdj gInterR [0, 0, 1, 0, 0, 1] = 3 := by
    simp [withinAdj, gInterR, adj, Finset.sum_range_succ]; norm_num
  have hP : withinNullLayered gIntraR [0, 0, 0, 1, 1, 1] [0, 0, 1, 0, 0, 1] = 5 := by
    simp [withinNullLayered, gIntraR, adj, rowSum, colSum, layerTotal, Finset.sum_range_succ]; norm_num
  have hec : 2 * (gIntraR.ecount : ℝ) = 8 := by norm_num [gIntraR, Graph.ecount]
  have hd : ([0, 0, 1, 0, 0, 1] : List Nat).dedup.length = 2 := by decide
  have hE : HasEstimates pruneEnv.test pruneEnv.fsolve gIntraR gInterR [0, 0, 0, 1, 1, 1] "temporal" [0, 0, 1, 0, 0, 1]
      (logMean (4 / 5) ((8 - 4) / (8 - 5))) 1000 := by
    rw [c69_has_estimates gIntraR_temporal (fun h => by cases h) rfl, hA, hP, hX, hec, hd]
    refine ⟨by norm_num, by norm_num, by norm_num, by norm_num, rfl, ?_⟩
    unfold temporalCoupling copying
    norm_num
  have hp : ∀ p ∈ ([[0, 0, 1, 0, 0, 1]] : List (List Nat)), p.length = gIntraR.vcount := by decide
  obtain ⟨hn, hedge⟩ := TemporalNetwork_edges gIntraR_temporal
  obtain ⟨r, h, herr⟩ := c126_returns (γ₀ := 0) (γf := 2) (ω₀ := 0) (ωf := 2) pruneEnv_sound exactEnv_exact (by norm_num) (by norm_num)
    chop_rounds (fun x => x * (999 / 1000)) gIntraR_multilayer rfl hn hedge hp (by norm_num) (by norm_num) "temporal" none
  cases r with
  | error e =>
    exfalso
    obtain ⟨p, c, ⟨hpm, -⟩, hc, hErr⟩ := herr e rfl
    obtain rfl := List.mem_singleton.mp hpm
    have hf := (c69_fails_iff gIntraR_temporal (fun h => by cases h) rfl hc).mp ⟨e, hErr⟩
    have := hf.2.1
    rw [hd, hX] at this
    unfold copying at this
    norm_num at this
  | ok r =>
    refine ⟨r.1, r.2, h, ?_⟩
    obtain ⟨b1, b2⟩ := logMean_between (a := 4 / 5) (b := (8 - 4) / (8 - 5)) (by norm_num) (by norm_num) (by norm_num)
    generalize logMean (4 / 5) ((8 - 4) / (8 - 5)) = γ at *
    norm_num at b1 b2
    refine c126_complete (u := 1 / 1000) (v := 1 / 1000) pruneEnv_sound (by norm_num) (by norm_num) chop_rounds chop_rounds
      gIntraR_multilayer hp h ⟨by simp, by simp⟩ (by decide) hE ⟨by linarith, by linarith⟩ (by norm_num) ?_
    rintro q ⟨hq, -⟩ hne
    obtain rfl := List.mem_singleton.mp hq
    exact absurd ⟨rfl, fun _ _ _ _ => Iff.rfl⟩ hne

end Verif.Props
