import Verif.Proofs.Snap
import Verif.Props.NonMonotone

/-!
# Property C87: bounds on gamma estimates, and the figure of the SNAP networks
-/

namespace Verif.Props
open Verif Verif.Spec Finset Real

variable {G : Graph ℝ} {ws : List ℝ} {c : List Nat} {K : Nat} {θin θout : ℝ}

/-- **C87 (between communities).** Positive weights: the estimated `θ_out` never exceeds 2, for any graph and any partition
into `K ≥ 2` communities. -/
theorem c87_theta_out (hG : G.WF) (hw : G.weight = some ws) (hpos : ∀ w ∈ ws, 0 < w)
    (hc : c.length = G.vcount) (hK : Contiguous c K) (h2 : 2 ≤ K)
    (hr : estimateSinglelayerSBM G c none = .ok (θin, θout)) : θout ≤ 2 := by
  have hends : EndsIn (G.edges.zip ws) c.length := by
    intro e he
    rw [hc]
    exact hG.1 e.1 (List.of_mem_zip he).1
  have hlen := hG.2 ws hw
  have hzpos : ∀ e ∈ G.edges.zip ws, 0 ≤ e.2 := fun e he => (hpos _ (List.of_mem_zip he).2).le
  have hws : ws.sum = wTotal (G.edges.zip ws) := by
    unfold wTotal
    congr 1
    exact (List.map_snd_zip (by omega)).symm
  have hb := cut_bound hzpos hends
  obtain ⟨m, I, S, hm, hI0, hIm, hge, hS0, hSm, h1, h3, -⟩ := singlelayer_numbers hG hw hpos hc hK h2 hr
  have hpl := partLen_contiguous hK
  rw [estimateSinglelayerSBM_eq hG hc hw, hpl, if_pos (show 1 < K by omega)] at hr
  split at hr
  · cases hr
  rename_i h0
  split at hr
  · cases hr
  split at hr
  · cases hr
  rename_i h5
  injection hr with hr
  have e2 := (congrArg Prod.snd hr).symm
  simp only at e2
  have hm' : 0 < ws.sum := by
    have : 0 ≤ ws.sum := List.sum_nonneg fun w hw' => (hpos w hw').le
    exact lt_of_le_of_ne this fun h => h0 (by rw [← h]; ring)
  rw [← hws] at hb
  have hSle : strengthSq (G.edges.zip ws) c ≤ (2 * ws.sum) ^ 2 := by
    rw [hws, ← sum_wStrength hends (n := K) (by omega)]
    unfold strengthSq
    rw [hpl]
    exact sum_sq_le_sq_sum_of_nonneg fun r _ => wStrength_nonneg hzpos c r
  have hd : 0 < 2 * ws.sum - strengthSq (G.edges.zip ws) c / (2 * ws.sum) := by
    refine lt_of_le_of_ne ?_ (Ne.symm h5)
    rw [sub_nonneg, div_le_iff₀ (by linarith)]
    linarith
  rw [e2, div_le_iff₀ hd]
  have : (2 * ws.sum - strengthSq (G.edges.zip ws) c / (2 * ws.sum)) * (2 * ws.sum) =
      (2 * ws.sum) ^ 2 - strengthSq (G.edges.zip ws) c := by field_simp
  nlinarith

/-- **C87 (size of an estimate).** Positive weights, `K ≥ 2` communities: a gamma estimate that is a number is positive and
below `max(2, K/2)`, below 2 if `θ_in < θ_out`, and below 15 for up to 70 communities (the assertion of the SNAP
experiment). -/
theorem c87_estimate_size (hG : G.WF) (hw : G.weight = some ws) (hpos : ∀ w ∈ ws, 0 < w)
    (hc : c.length = G.vcount) (hK : Contiguous c K) (h2 : 2 ≤ K)
    (hr : estimateSinglelayerSBM G c none = .ok (θin, θout)) {g : ℝ} (hg : gammaFromParameters θin θout = some (.fin g)) :
    0 < g ∧ g < max 2 ((K : ℝ) / 2) ∧ (θin < θout → g < 2) ∧ (K ≤ 70 → g < 15) := by
  have ht := c87_theta_out hG hw hpos hc hK h2 hr
  obtain ⟨hin, hout, hne, hgm⟩ := ((c27_degenerate_estimates θin θout).2.2.1 g).mp hg
  have hbet : 0 < g ∧ (θin < θout → g < 2) := by
    rcases lt_or_gt_of_ne hne with h | h
    · have := logMean_between hin hout hne
      rw [← hgm] at this
      simp only [min_eq_left h.le, max_eq_right h.le] at this
      exact ⟨by linarith [this.1], fun _ => by linarith [this.2]⟩
    · have := logMean_between hin hout hne
      rw [← hgm] at this
      simp only [min_eq_right h.le, max_eq_left h.le] at this
      exact ⟨by linarith [this.1], fun h' => absurd h' (by linarith)⟩
  rcases lt_or_gt_of_ne hne with h | h
  · have := hbet.2 h
    exact ⟨hbet.1, lt_max_of_lt_left this, hbet.2, fun _ => by linarith⟩
  · obtain ⟨-, hlt, -⟩ := c71_maximum_gamma hG hw hpos hc hK h2 hr h hg
    refine ⟨hbet.1, lt_max_of_lt_right hlt, hbet.2, fun h70 => ?_⟩
    obtain ⟨hin0, hinK, hout0, hline, -, -⟩ := c71_possible_parameters hG hw hpos hc hK h2 hr
    have hKr : (2 : ℝ) ≤ K := by exact_mod_cast h2
    have hK70 : (K : ℝ) ≤ 70 := by exact_mod_cast h70
    have hin1 : 1 < θin := by
      obtain ⟨m, I, S, hm, hI0, hIm, hge, hS0, hSm, h1, h3, -⟩ := singlelayer_numbers hG hw hpos hc hK h2 hr
      have hkey : θin * S + θout * (2 * m - S) = 2 * m := by rw [h1, h3]; ring
      by_contra h'
      nlinarith [not_lt.mp h']
    have hl := hline hin1.le
    have hinK' : θin < K := by
      by_contra h'
      have : possibleOmega K θin ≤ 0 := div_nonpos_of_nonpos_of_nonneg (by linarith [not_lt.mp h']) (by linarith)
      linarith
    rw [hgm]
    exact logMean_lt_15 hout hin1 (by linarith) (hl.trans (line_mono h2 h70 hin1.le))

/-! ### the columns of the figure -/

/-- what one partition contributes -/
theorem boxplot_step {test : Graph ℝ → Bool} (hG : G.WF) (hu : G.weight = none) (hs : SaneTest test G)
    (hv : 0 < G.vcount) (hiso : ∀ v < G.vcount, ∃ e ∈ G.edges, e.1 = v ∨ e.2 = v)
    (hc : c.length = G.vcount) (hK : Contiguous c K) :
    numCommunities (c.map Int.ofNat) = .ok K ∧ c.dedup.length = K ∧
    ((gammaEstimate test G c = .ok (none, withOnes G)) ∨ (gammaEstimate test G c = .ok (some .nan, withOnes G)) ∨
      ∃ g, gammaEstimate test G c = .ok (some (.fin g), withOnes G) ∧ (2 ≤ K → 0 < g ∧ g < max 2 ((K : ℝ) / 2)) ∧
        (2 ≤ K → K ≤ 70 → g < 15)) := by
  have hne : c ≠ [] := by rintro rfl; simp at hc; omega
  have hnum : numCommunities (c.map Int.ofNat) = .ok K := by
    rw [numCommunities_ok_iff (by simp) (by simpa using hne)]
    intro k
    constructor
    · intro hk
      obtain ⟨x, hx, rfl⟩ := List.mem_map.mp hk
      exact ⟨by simp, Int.ofNat_lt.mpr ((hK x).mp hx)⟩
    · rintro ⟨h0, h1⟩
      obtain ⟨n, rfl⟩ := Int.eq_ofNat_of_zero_le h0
      exact List.mem_map.mpr ⟨n, (hK n).mpr (by exact_mod_cast h1), rfl⟩
  have hcard : c.dedup.length = K := by
    have hp : c.dedup.Perm (List.range K) := by
      rw [List.perm_ext_iff_of_nodup (List.nodup_dedup c) List.nodup_range]
      intro k
      rw [List.mem_dedup, List.mem_range, hK k]
    rw [hp.length_eq, List.length_range]
  refine ⟨hnum, hcard, ?_⟩
  have hwf : (withOnes G).WF := by
    refine ⟨hG.1, fun ws h => ?_⟩
    cases h
    simp [withOnes]
  have hpos : ∀ w ∈ List.replicate G.edges.length (1 : ℝ), 0 < w := fun w hw => by
    rw [List.eq_of_mem_replicate hw]; exact one_pos
  obtain ⟨⟨a, b⟩, hr⟩ := c25_no_isolated_vertices (G := withOnes G) hwf rfl hpos hc hK hv hiso
  have hval : gammaEstimate test G c = .ok (gammaFromParameters a b, withOnes G) := by
    unfold gammaEstimate
    rw [ensure_false (sane_false hs hu) (wf_pos hG), Py.ok_bind]
    have : leidenPartWithMembership (withOnes G) c = .ok c := by
      unfold leidenPartWithMembership; rw [if_pos (show c.length = (withOnes G).vcount from hc)]
    rw [this, Py.ok_bind, hr]
    rfl
  rw [hval]
  obtain ⟨-, -, -, hp, hn⟩ := c27_degenerate_estimates a b
  cases hg : gammaFromParameters a b with
  | none => exact Or.inl rfl
  | some x =>
    cases x with
    | nan => exact Or.inr (Or.inl rfl)
    | pinf => exact absurd hg hp
    | ninf => exact absurd hg hn
    | fin g =>
      refine Or.inr (Or.inr ⟨g, rfl, fun h2 => ?_, fun h2 h70 => ?_⟩)
      · obtain ⟨p1, p2, -⟩ := c87_estimate_size hwf rfl hpos hc hK h2 hr hg
        exact ⟨p1, p2⟩
      · exact (c87_estimate_size hwf rfl hpos hc hK h2 hr hg).2.2.2 h70

theorem boxplotEntry_withOnes {test : Graph ℝ → Bool} (hG : G.WF) (hu : G.weight = none) (hs : SaneTest test G)
    (p : List Nat) : gammaEstimate test (withOnes G) p = gammaEstimate test G p :=
  ((c56_gamma_estimate hG hs hu p).1).symm

/-- the loop over the partitions of a graph, with the graph in either state -/
theorem boxplotGraph_spec {test : Graph ℝ → Bool} (hG : G.WF) (hu : G.weight = none) (hs : SaneTest test G)
    (hv : 0 < G.vcount) (hiso : ∀ v < G.vcount, ∃ e ∈ G.edges, e.1 = v ∨ e.2 = v) {H : Graph ℝ}
    (hH : H = G ∨ H = withOnes G) {ps : List (List Nat)}
    (hps : ∀ p ∈ ps, p.length = G.vcount ∧ ∃ K, Contiguous p K) :
    ((∃ p ∈ ps, NanEstimate test G p ∧ 2 ≤ p.dedup.length ∧ p.dedup.length ≤ 70) →
      boxplotGraph test H ps = .error .assertionError) ∧
    ((¬ ∃ p ∈ ps, NanEstimate test G p ∧ 2 ≤ p.dedup.length ∧ p.dedup.length ≤ 70) →
      boxplotGraph test H ps = .ok ((ps.filterMap (boxplotEntry test G)).map fun x => (x.1, .fin x.2))) := by
  induction ps generalizing H with
  | nil => simp [boxplotGraph]
  | cons p ps ih =>
    obtain ⟨hpl, K, hK⟩ := hps p (by simp)
    have hps' : ∀ q ∈ ps, q.length = G.vcount ∧ ∃ K, Contiguous q K := fun q hq => hps q (List.mem_cons_of_mem _ hq)
    obtain ⟨hn, hk, hcases⟩ := boxplot_step hG hu hs hv hiso hpl hK
    have hHe : gammaEstimate test H p = gammaEstimate test G p := by
      rcases hH with rfl | rfl
      · rfl
      · exact boxplotEntry_withOnes hG hu hs p
    have ih := ih (H := withOnes G) (Or.inr rfl) hps'
    rw [boxplotGraph, hn, Py.ok_bind, hHe]
    rcases hcases with h | h | ⟨g, h, -, h15⟩
    · -- no estimate
      have hnan : ¬ NanEstimate test G p := by
        rintro ⟨G', hG'⟩
        rw [h] at hG'
        cases hG'
      have he : boxplotEntry test G p = none := by unfold boxplotEntry; rw [h]
      rw [h, Py.ok_bind]
      simp only [List.mem_cons, exists_eq_or_imp, List.filterMap_cons, he, hnan, false_and, false_or]
      exact ih
    · -- NaN
      have hnan : NanEstimate test G p := ⟨_, h⟩
      have he : boxplotEntry test G p = none := by unfold boxplotEntry; rw [h]
      rw [h, Py.ok_bind]
      simp only [List.mem_cons, exists_eq_or_imp, List.filterMap_cons, he, hnan, true_and, hk]
      by_cases hr : 2 ≤ K ∧ K < snapKMax
      · rw [if_pos hr]
        refine ⟨fun _ => rfl, fun hno => ?_⟩
        exact absurd (Or.inl ⟨hr.1, by have := hr.2; unfold snapKMax at this; omega⟩) hno
      · rw [if_neg hr]
        have : ¬ (2 ≤ K ∧ K ≤ 70) := fun h' => hr ⟨h'.1, by unfold snapKMax; omega⟩
        simp only [this, false_or]
        exact ih
    · have hnan : ¬ NanEstimate test G p := by
        rintro ⟨G', hG'⟩
        rw [h] at hG'
        cases hG'
      rw [h, Py.ok_bind]
      simp only [List.mem_cons, exists_eq_or_imp, List.filterMap_cons, hnan, false_and, false_or]
      by_cases hr : 2 ≤ K ∧ K < snapKMax
      · have h70 : K ≤ 70 := by have := hr.2; unfold snapKMax at this; omega
        have he : boxplotEntry test G p = some (K, g) := by
          unfold boxplotEntry; rw [h]; simp only [hk]; rw [if_pos ⟨hr.1, h70⟩]
        have hb : below15 (.fin g) = true := by unfold below15; exact decide_eq_true (h15 hr.1 h70)
        rw [if_pos hr, if_pos hb, he]
        constructor
        · intro hx; rw [ih.1 hx]; rfl
        · intro hx; rw [ih.2 hx]; rfl
      · have he : boxplotEntry test G p = none := by
          unfold boxplotEntry; rw [h]; simp only [hk]
          rw [if_neg (fun h' => hr ⟨h'.1, by unfold snapKMax; omega⟩)]
        rw [if_neg hr, he]
        exact ih

/-- **C87 (the figure).** Unweighted graphs without isolated vertices, each with partitions labelled `0..K-1` (what the
experiment stores).  `generate_boxplot_results` fails (with the assertion) exactly if some partition into 2 to 70
communities has the estimate NaN (`θ_in = θ_out`); otherwise it collects, in order, the number of communities and the
estimate of every partition into 2 to 70 communities whose estimate is a number. -/
theorem c87_figure {test : Graph ℝ → Bool} {Gs : List (Graph ℝ × List (List Nat))}
    (hGs : ∀ x ∈ Gs, x.1.WF ∧ x.1.weight = none ∧ SaneTest test x.1 ∧ 0 < x.1.vcount ∧
      (∀ v < x.1.vcount, ∃ e ∈ x.1.edges, e.1 = v ∨ e.2 = v) ∧
      ∀ p ∈ x.2, p.length = x.1.vcount ∧ ∃ K, Contiguous p K) :
    ((∃ x ∈ Gs, ∃ p ∈ x.2, NanEstimate test x.1 p ∧ 2 ≤ p.dedup.length ∧ p.dedup.length ≤ 70) →
      boxplotResults test Gs = .error .assertionError) ∧
    ((¬ ∃ x ∈ Gs, ∃ p ∈ x.2, NanEstimate test x.1 p ∧ 2 ≤ p.dedup.length ∧ p.dedup.length ≤ 70) →
      boxplotResults test Gs =
        .ok ((Gs.flatMap fun x => x.2.filterMap (boxplotEntry test x.1)).map fun x => (x.1, .fin x.2))) := by
  have hx : ∀ x ∈ Gs, _ := fun x hx =>
    boxplotGraph_spec (hGs x hx).1 (hGs x hx).2.1 (hGs x hx).2.2.1 (hGs x hx).2.2.2.1 (hGs x hx).2.2.2.2.1
      (H := x.1) (Or.inl rfl) (hGs x hx).2.2.2.2.2
  constructor
  · rintro ⟨x, hxm, hp⟩
    unfold boxplotResults
    rw [mapM_err (err := .assertionError) _ hxm ((hx x hxm).1 hp)]
    · rfl
    · intro y hy
      by_cases h : ∃ p ∈ y.2, NanEstimate test y.1 p ∧ 2 ≤ p.dedup.length ∧ p.dedup.length ≤ 70
      · exact Or.inr ((hx y hy).1 h)
      · exact Or.inl ⟨_, (hx y hy).2 h⟩
  · intro hno
    unfold boxplotResults
    rw [mapM_ok (g := fun x => (x.2.filterMap (boxplotEntry test x.1)).map fun y => (y.1, Fl.fin y.2))
      (fun x hxm => (hx x hxm).2 fun h => hno ⟨x, hxm, h⟩)]
    rw [Py.ok_bind, Py.pure_eq, List.map_flatMap, List.flatMap_def]

/-- **C87 (range of the figure).** In the situation of `c87_figure` every plotted value in column `K` is positive and below
`max(2, K/2)`, and below 15. -/
theorem c87_columns {test : Graph ℝ → Bool} {Gs : List (Graph ℝ × List (List Nat))}
    (hGs : ∀ x ∈ Gs, x.1.WF ∧ x.1.weight = none ∧ SaneTest test x.1 ∧ 0 < x.1.vcount ∧
      (∀ v < x.1.vcount, ∃ e ∈ x.1.edges, e.1 = v ∨ e.2 = v) ∧
      ∀ p ∈ x.2, p.length = x.1.vcount ∧ ∃ K, Contiguous p K)
    {rs : List (Nat × Fl ℝ)} (hr : boxplotResults test Gs = .ok rs) {K : Nat} {v : Fl ℝ} (hv : v ∈ boxplotColumn rs K) :
    2 ≤ K ∧ K ≤ 70 ∧ ∃ g : ℝ, v = .fin g ∧ 0 < g ∧ g < max 2 ((K : ℝ) / 2) ∧ g < 15 := by
  obtain ⟨h1, h2⟩ := c87_figure hGs
  by_cases hno : ∃ x ∈ Gs, ∃ p ∈ x.2, NanEstimate test x.1 p ∧ 2 ≤ p.dedup.length ∧ p.dedup.length ≤ 70
  · rw [h1 hno] at hr; cases hr
  · rw [h2 hno] at hr
    injection hr with hr
    subst hr
    unfold boxplotColumn at hv
    obtain ⟨⟨k, v'⟩, hk, rfl⟩ := List.mem_map.mp hv
    obtain ⟨hk, hkK⟩ := List.mem_filter.mp hk
    obtain ⟨⟨k', g⟩, hg, heq⟩ := List.mem_map.mp hk
    simp only [Prod.mk.injEq] at heq
    simp only [decide_eq_true_eq] at hkK
    obtain ⟨rfl, rfl⟩ := heq
    subst hkK
    obtain ⟨x, hxm, hp⟩ := List.mem_flatMap.mp hg
    obtain ⟨p, hpm, hent⟩ := List.mem_filterMap.mp hp
    obtain ⟨w1, w2, w3, w4, w5, w6⟩ := hGs x hxm
    obtain ⟨hpl, K, hK⟩ := w6 p hpm
    obtain ⟨-, hkk, hcases⟩ := boxplot_step w1 w2 w3 w4 w5 hpl hK
    unfold boxplotEntry at hent
    rcases hcases with h | h | ⟨g', h, hb, h15⟩
    · rw [h] at hent; cases hent
    · rw [h] at hent; cases hent
    · rw [h] at hent
      simp only [hkk] at hent
      split at hent
      · rename_i hr
        injection hent with hent
        injection hent with e1 e2
        subst e1; subst e2
        exact ⟨hr.1, hr.2, g', rfl, (hb hr.1).1, (hb hr.1).2, h15 hr.1 hr.2⟩
      · cases hent

/-! ### the curves of the figure -/

/-- adding the estimates `gs` to the loop state -/
noncomputable def addAll (s : ℝ × Nat × ℝ) (gs : List ℝ) : ℝ × Nat × ℝ := (s.1 + gs.sum, s.2.1 + gs.length, gs.foldl max s.2.2)

theorem addAll_append (s : ℝ × Nat × ℝ) (a b : List ℝ) : addAll s (a ++ b) = addAll (addAll s a) b := by
  unfold addAll
  simp only [List.sum_append, List.length_append, List.foldl_append, add_assoc]

open Classical in
noncomputable def pointEstimate (K : Nat) (x y : ℝ) : Option ℝ :=
  if 0 < y ∧ x ≠ y ∧ x + (K - 1) * y ≤ K then some ((x - y) / (log x - log y)) else none

theorem inner_spec {K : Nat} (h2 : 2 ≤ K) {x : ℝ} (hx : 1 ≤ x) {l : List ℝ} (hs : l.Pairwise (· ≤ ·))
    (h0 : ∀ y ∈ l, 0 ≤ y) (s : ℝ × Nat × ℝ) :
    maxmeanInner K x l s = addAll s (l.filterMap (pointEstimate K x)) := by
  have hKr : (2 : ℝ) ≤ K := by exact_mod_cast h2
  induction l generalizing s with
  | nil => simp [maxmeanInner, addAll]
  | cons y l ih =>
    obtain ⟨hy, hs'⟩ := List.pairwise_cons.mp hs
    have hy0 := h0 y (by simp)
    have ih := ih hs' (fun z hz => h0 z (List.mem_cons_of_mem _ hz))
    rw [maxmeanInner]
    by_cases hb : (K : ℝ) < x + (K - 1) * y
    · rw [if_pos hb]
      have : (y :: l).filterMap (pointEstimate K x) = [] := by
        rw [List.filterMap_eq_nil_iff]
        intro z hz
        unfold pointEstimate
        rw [if_neg]
        rintro ⟨-, -, hc⟩
        have hyz : y ≤ z := by
          rcases List.mem_cons.mp hz with rfl | hz
          · exact le_refl _
          · exact hy z hz
        nlinarith
      rw [this]
      simp [addAll]
    · rw [if_neg hb]
      obtain ⟨d1, d2, d3, d4, d5⟩ := c27_degenerate_estimates x y
      cases hg : gammaFromParameters x y with
      | none =>
        have hn : pointEstimate K x y = none := by
          unfold pointEstimate
          rw [if_neg]
          rintro ⟨p1, -, -⟩
          rcases d1.mp hg with h | h <;> linarith
        simp only [List.filterMap_cons, hn]
        exact ih s
      | some v =>
        cases v with
        | pinf => exact absurd hg d4
        | ninf => exact absurd hg d5
        | nan =>
          have hn : pointEstimate K x y = none := by
            unfold pointEstimate
            rw [if_neg]
            rintro ⟨p1, p2, -⟩
            obtain ⟨-, -, h | h | h⟩ := d2.mp hg
            · exact p2 h
            · linarith
            · linarith
          simp only [List.filterMap_cons, hn]
          exact ih s
        | fin g =>
          obtain ⟨-, q2, q3, q4⟩ := (d3 g).mp hg
          have hn : pointEstimate K x y = some g := by
            unfold pointEstimate
            rw [if_pos ⟨q2, q3, not_lt.mp hb⟩, q4]
            rfl
          simp only [List.filterMap_cons, hn]
          rw [ih]
          unfold addAll
          simp only [List.sum_cons, List.length_cons, List.foldl_cons, add_assoc]
          rw [Nat.add_comm 1]

theorem linspace_sorted {a b : ℝ} (hab : a ≤ b) (n : Nat) : (linspace a b n).Pairwise (· ≤ ·) ∧ ∀ y ∈ linspace a b n, a ≤ y := by
  unfold linspace
  have hst : ∀ i j : Nat, i < n → i ≤ j → a + (i : ℝ) * ((b - a) / ((n : ℝ) - 1)) ≤ a + j * ((b - a) / ((n : ℝ) - 1)) := by
    intro i j hi hij
    have hn : (1 : ℝ) ≤ n := by exact_mod_cast (by omega : 1 ≤ n)
    have hd : 0 ≤ (b - a) / ((n : ℝ) - 1) := div_nonneg (by linarith) (by linarith)
    have : (i : ℝ) ≤ j := by exact_mod_cast hij
    nlinarith
  constructor
  · rw [List.pairwise_map]
    refine List.Pairwise.imp_of_mem (R := fun i j : Nat => i < j) ?_ List.pairwise_lt_range
    intro i j hi hj hij
    exact hst i j (List.mem_range.mp hi) hij.le
  · intro y hy
    obtain ⟨i, hi, rfl⟩ := List.mem_map.mp hy
    have := hst 0 i (by have := List.mem_range.mp hi; omega) (Nat.zero_le _)
    simpa using this

theorem foldl_inner {K : Nat} (h2 : 2 ≤ K) {l : List ℝ} (hs : l.Pairwise (· ≤ ·)) (h0 : ∀ y ∈ l, 0 ≤ y) {xs : List ℝ}
    (hx : ∀ x ∈ xs, 1 ≤ x) (s : ℝ × Nat × ℝ) :
    xs.foldl (fun s x => maxmeanInner K x l s) s = addAll s (xs.flatMap fun x => l.filterMap (pointEstimate K x)) := by
  induction xs generalizing s with
  | nil => simp [addAll]
  | cons x xs ih =>
    rw [List.foldl_cons, inner_spec h2 (hx x (by simp)) hs h0, ih (fun z hz => hx z (List.mem_cons_of_mem _ hz)),
      List.flatMap_cons, addAll_append]

theorem gridEstimates_eq (K n : Nat) : gridEstimates K n =
    (linspace 1 K n).flatMap fun x => (linspace 0 ((K : ℝ) / (K - 1)) n).filterMap (pointEstimate K x) := by
  unfold gridEstimates linspace
  rw [List.flatMap_map]
  congr 1
  funext i
  rw [List.filterMap_map]
  congr 1
  funext j
  simp only [Function.comp, pointEstimate]
  have e1 : (1 : ℝ) + i * (((K : ℝ) - 1) / ((n : ℝ) - 1)) = 1 + (K - 1) * i / (n - 1) := by ring
  have e2 : (0 : ℝ) + j * (((K : ℝ) / (K - 1) - 0) / ((n : ℝ) - 1)) = K / (K - 1) * j / (n - 1) := by ring
  rw [e1, e2]

theorem foldl_max (gs : List ℝ) (m : ℝ) : m ≤ gs.foldl max m ∧ (∀ g ∈ gs, g ≤ gs.foldl max m) ∧
    (gs.foldl max m = m ∨ gs.foldl max m ∈ gs) := by
  induction gs generalizing m with
  | nil => simp
  | cons a gs ih =>
    obtain ⟨h1, h2, h3⟩ := ih (max m a)
    rw [List.foldl_cons]
    refine ⟨(le_max_left _ _).trans h1, ?_, ?_⟩
    · intro g hg
      rcases List.mem_cons.mp hg with rfl | hg
      · exact (le_max_right _ _).trans h1
      · exact h2 g hg
    · rcases h3 with h3 | h3
      · rcases max_choice m a with h | h
        · left; rw [h3, h]
        · right; rw [h3, h]; simp
      · right; exact List.mem_cons_of_mem _ h3

theorem mem_gridEstimates {K n : Nat} {g : ℝ} : g ∈ gridEstimates K n ↔ ∃ i < n, ∃ j < n, ∃ x y : ℝ,
    x = 1 + (K - 1) * i / (n - 1) ∧ y = K / (K - 1) * j / (n - 1) ∧ 0 < y ∧ x ≠ y ∧ x + (K - 1) * y ≤ K ∧
      g = logMean x y := by
  unfold gridEstimates
  simp only [List.mem_flatMap, List.mem_filterMap, List.mem_range]
  constructor
  · rintro ⟨i, hi, j, hj, h⟩
    split at h
    · rename_i hc
      injection h with h
      exact ⟨i, hi, j, hj, _, _, rfl, rfl, hc.1, hc.2.1, hc.2.2, h.symm⟩
    · cases h
  · rintro ⟨i, hi, j, hj, x, y, rfl, rfl, h1, h2, h3, rfl⟩
    exact ⟨i, hi, j, hj, if_pos ⟨h1, h2, h3⟩⟩

/-- in the triangle, estimates are positive and below `K/2` -/
theorem triangle_bound {K : Nat} (h2 : 2 ≤ K) {x y : ℝ} (hx : 1 ≤ x) (hy : 0 < y) (hne : x ≠ y)
    (ht : x + (K - 1) * y ≤ K) : 0 < logMean x y ∧ logMean x y < K / 2 ∧ (K ≤ 70 → logMean x y < 15) := by
  have hKr : (2 : ℝ) ≤ K := by exact_mod_cast h2
  have hyx : y < x := by
    rcases lt_or_gt_of_ne hne with h | h
    · nlinarith
    · exact h
  have hb := logMean_between (by linarith : 0 < x) hy hne
  simp only [min_eq_right hyx.le] at hb
  have hxK : x < K := by nlinarith
  refine ⟨by linarith [hb.1], ?_, ?_⟩
  · refine lt_of_lt_of_le (logMean_lt_arith hy hyx) ?_
    rw [div_le_div_iff_of_pos_right two_pos]
    nlinarith [mul_nonneg (sub_nonneg.mpr hKr) hy.le]
  · intro h70
    have hK70 : (K : ℝ) ≤ 70 := by exact_mod_cast h70
    rcases hx.lt_or_eq with h1 | h1
    · refine logMean_lt_15 hy h1 (by linarith) (le_trans ?_ (line_mono h2 h70 hx))
      unfold possibleOmega
      rw [le_div_iff₀ (by linarith)]
      linarith
    · have := hb.2
      rw [max_eq_left hyx.le] at this
      linarith

theorem gridEstimates_ne {K n : Nat} (h2 : 2 ≤ K) (hn : 4 ≤ n) : gridEstimates K n ≠ [] := by
  have hKr : (2 : ℝ) ≤ K := by exact_mod_cast h2
  have hnr : (4 : ℝ) ≤ n := by exact_mod_cast hn
  have hm : logMean (1 + ((K : ℝ) - 1) * (0 : Nat) / (n - 1)) (K / (K - 1) * (1 : Nat) / (n - 1)) ∈ gridEstimates K n := by
    rw [mem_gridEstimates]
    refine ⟨0, by omega, 1, by omega, _, _, rfl, rfl, ?_, ?_, ?_, rfl⟩
    · have : (0 : ℝ) < n - 1 := by linarith
      have : (0 : ℝ) < K - 1 := by linarith
      positivity
    · simp only [Nat.cast_zero, mul_zero, zero_div, add_zero, Nat.cast_one, mul_one]
      intro h
      rw [div_div, eq_div_iff (by nlinarith)] at h
      nlinarith
    · simp only [Nat.cast_zero, mul_zero, zero_div, add_zero, Nat.cast_one, mul_one]
      have : ((K : ℝ) - 1) * (K / (K - 1) / (n - 1)) = K / (n - 1) := by
        have : (K : ℝ) - 1 ≠ 0 := by linarith
        field_simp
      rw [this]
      have : (K : ℝ) / (n - 1) ≤ K / 3 := div_le_div_of_nonneg_left (by linarith) (by norm_num) (by linarith)
      linarith
  intro h
  rw [h] at hm
  cases hm

/-- **C87 (mean and maximum).** For `K ≥ 2` and at least 4 points per axis, `gamma_maxmean(K, points)` returns the mean and
the maximum of the logarithmic means over the grid points of the triangle of possible parameters; `0 < mean ≤ max < K/2`,
and `max < 15` for `K ≤ 70`. -/
theorem c87_maxmean {K n : Nat} (h2 : 2 ≤ K) (hn : 4 ≤ n) : ∃ mx : ℝ,
    gammaMaxmean K n = .ok ((gridEstimates K n).sum / (gridEstimates K n).length, mx) ∧
    IsGreatest {g | g ∈ gridEstimates K n} mx ∧
    0 < (gridEstimates K n).sum / (gridEstimates K n).length ∧
    (gridEstimates K n).sum / (gridEstimates K n).length ≤ mx ∧ mx < K / 2 ∧ (K ≤ 70 → mx < 15) := by
  have hKr : (2 : ℝ) ≤ K := by exact_mod_cast h2
  have hK1 : (K : ℝ) - 1 ≠ 0 := by linarith
  have hne := gridEstimates_ne h2 hn
  have hlen : 0 < (gridEstimates K n).length := List.length_pos_of_ne_nil hne
  have hlr : (0 : ℝ) < (gridEstimates K n).length := by exact_mod_cast hlen
  obtain ⟨f1, f2, f3⟩ := foldl_max (gridEstimates K n) 0
  have hall : ∀ g ∈ gridEstimates K n, 0 < g ∧ g < K / 2 ∧ (K ≤ 70 → g < 15) := by
    intro g hg
    obtain ⟨i, hi, j, hj, x, y, hx, hy, p1, p2, p3, rfl⟩ := mem_gridEstimates.mp hg
    refine triangle_bound h2 ?_ p1 p2 p3
    rw [hx]
    have : (1 : ℝ) ≤ n := by exact_mod_cast (by omega : 1 ≤ n)
    have : (0 : ℝ) ≤ (K - 1) * i / (n - 1) :=
      div_nonneg (mul_nonneg (by linarith) (Nat.cast_nonneg i)) (by linarith)
    linarith
  have hmem : (gridEstimates K n).foldl max 0 ∈ gridEstimates K n := by
    rcases f3 with h | h
    · obtain ⟨g, hg⟩ := List.exists_mem_of_ne_nil _ hne
      have := f2 g hg
      have := (hall g hg).1
      linarith
    · exact h
  refine ⟨(gridEstimates K n).foldl max 0, ?_, ⟨hmem, fun g hg => f2 g hg⟩, ?_, ?_, (hall _ hmem).2.1, (hall _ hmem).2.2⟩
  · unfold gammaMaxmean
    rw [pyDiv, if_neg hK1, Py.ok_bind]
    have htop : (0 : ℝ) ≤ K / (K - 1) := div_nonneg (by linarith) (by linarith)
    obtain ⟨s1, s2⟩ := linspace_sorted htop n
    obtain ⟨-, s3⟩ := linspace_sorted (show (1 : ℝ) ≤ K by linarith) n
    simp only [foldl_inner h2 s1 s2 s3, ← gridEstimates_eq, addAll, zero_add]
    rw [pyDiv, if_neg hlr.ne']
    rfl
  · refine div_pos ?_ hlr
    exact List.sum_pos _ (fun g hg => (hall g hg).1) hne
  · rw [div_le_iff₀ hlr, mul_comm]
    have := List.sum_le_card_nsmul (gridEstimates K n) ((gridEstimates K n).foldl max 0) f2
    rwa [nsmul_eq_mul] at this

theorem two_maximum {n : Nat} (hn : n = 1000) {mx : ℝ} (hgr : IsGreatest {g | g ∈ gridEstimates 2 n} mx) :
    1 - 1 / 10000 < mx := by
  have hmem : logMean (1000 / 999) (998 / 999) ∈ gridEstimates 2 n := by
    rw [mem_gridEstimates]
    exact ⟨1, by omega, 499, by omega, 1000 / 999, 998 / 999, by rw [hn]; norm_num, by rw [hn]; norm_num, by norm_num,
      by norm_num, by norm_num, rfl⟩
  refine lt_of_lt_of_le ?_ (hgr.2 hmem)
  refine lt_trans ?_ (geom_lt_logMean (a := 1000 / 999) (b := 998 / 999) (by norm_num) (by norm_num))
  rw [lt_sqrt (by norm_num)]
  norm_num

/-- **C87 (the assertion on the maxima).** `find_maximum_gammas` returns, for every `2 ≤ K ≤ 70` at index `K`, the mean and
maximum over 1000 points per axis, with zeros at indices 0 and 1, and the assertion of `generate_SNAP_boxplot` on the maximum for two communities holds
(that maximum is below 1 by less than `10⁻⁴`). -/
theorem c87_maximum_check : ∃ means maxs : List ℝ, findMaximumGammas = .ok (means, maxs) ∧
    means.length = 71 ∧ maxs.length = 71 ∧ means.take 2 = [0, 0] ∧ maxs.take 2 = [0, 0] ∧
    (∀ K, 2 ≤ K → K ≤ 70 → ∃ mean mx, gammaMaxmean K 1000 = .ok (mean, mx) ∧ means[K]? = some mean ∧ maxs[K]? = some mx) ∧
    checkMaximum maxs = .ok () := by
  have hex : ∀ K ∈ List.range' 2 (snapKMax - 2), gammaMaxmean K 1000 =
      .ok (if h : 2 ≤ K then ((gridEstimates K 1000).sum / (gridEstimates K 1000).length,
        (c87_maxmean h (by norm_num : 4 ≤ 1000)).choose)
        else (0, 0)) := by
    intro K hK
    have h2 : 2 ≤ K := by have := List.mem_range'_1.mp hK; omega
    rw [dif_pos h2]
    exact (c87_maxmean h2 (by norm_num : 4 ≤ 1000)).choose_spec.1
  have hm := mapM_ok hex
  refine ⟨_, _, by unfold findMaximumGammas; rw [hm]; rfl,
    by rw [List.length_append, List.length_map, List.length_map, List.length_range']; rfl,
    by rw [List.length_append, List.length_map, List.length_map, List.length_range']; rfl, rfl, rfl, ?_, ?_⟩
  · intro K h2 h70
    have hlt : K - 2 < (List.range' 2 (snapKMax - 2)).length := by rw [List.length_range']; unfold snapKMax; omega
    have hget : (List.range' 2 (snapKMax - 2))[K - 2]? = some K := by
      rw [List.getElem?_range' (by simpa using hlt)]
      congr 1
      omega
    refine ⟨_, _, hex K (List.mem_of_getElem? hget) |>.trans (by rfl), ?_, ?_⟩
    · rw [List.getElem?_append_right (by simpa using h2)]
      simp only [List.length_cons, List.length_nil, List.map_map, List.getElem?_map, hget]
      rfl
    · rw [List.getElem?_append_right (by simpa using h2)]
      simp only [List.length_cons, List.length_nil, List.map_map, List.getElem?_map, hget]
      rfl
  · have h0 : (List.range' 2 (snapKMax - 2)) = 2 :: List.range' 3 68 := by
      rfl
    rw [h0]
    unfold checkMaximum
    simp only [List.map_cons, List.cons_append, List.nil_append, List.drop_succ_cons, List.drop_zero, pyGet,
      List.getElem?_cons_zero, Py.ok_bind]
    obtain ⟨-, hgr, -, -, hlt, -⟩ := (c87_maxmean (le_refl 2) (by norm_num : 4 ≤ 1000)).choose_spec
    rw [dif_pos (le_refl 2)]
    set mx := (c87_maxmean (le_refl 2) (by norm_num : 4 ≤ 1000)).choose
    have hlt : mx < 1 := by norm_num at hlt; exact hlt
    have hge : 1 - 1 / 10000 < mx := two_maximum rfl hgr
    rw [if_pos]
    rw [abs_lt]
    constructor <;> linarith

/-- A cycle of four vertices. -/
def gCycle4 : Graph ℝ := ⟨4, false, [(0, 1), (1, 2), (2, 3), (0, 3)], none⟩

theorem gCycle4_estimate : estimateSinglelayerSBM (withOnes gCycle4) [0, 0, 1, 1] none = .ok (1, 1) := by
  have hwf : (withOnes gCycle4).WF := ⟨by unfold withOnes gCycle4; decide, by intro ws h; cases h; simp [withOnes]⟩
  rw [estimateSinglelayerSBM_eq hwf rfl rfl]
  have hp : partLen [0, 0, 1, 1] = 2 := rfl
  have hs : (List.replicate gCycle4.edges.length (1 : ℝ)).sum = 4 := by norm_num [gCycle4]
  have hi : wInside ((withOnes gCycle4).edges.zip (List.replicate gCycle4.edges.length (1 : ℝ))) [0, 0, 1, 1] = 2 := by
    norm_num [wInside, gCycle4, withOnes, List.replicate]
  have hk : strengthSq ((withOnes gCycle4).edges.zip (List.replicate gCycle4.edges.length (1 : ℝ))) [0, 0, 1, 1] = 32 := by
    norm_num [strengthSq, hp, sum_range_succ, wStrength, gCycle4, withOnes, List.replicate]
  rw [hs, hi, hk, hp]
  norm_num

/-- The assertion of the figure does fail: on a cycle of four vertices cut into two paths the estimate is NaN. -/
example (test : Graph ℝ → Bool) (hs : SaneTest test gCycle4) :
    boxplotResults test [(gCycle4, [[0, 0, 1, 1]])] = .error .assertionError := by
  have hwf : gCycle4.WF := ⟨by unfold gCycle4; decide, by intro ws h; cases h⟩
  refine (c87_figure ?_).1 ⟨(gCycle4, [[0, 0, 1, 1]]), List.mem_singleton_self _, [0, 0, 1, 1], List.mem_singleton_self _, ⟨withOnes gCycle4, ?_⟩, by decide, by decide⟩
  · intro x hx
    rw [List.mem_singleton] at hx
    subst hx
    refine ⟨hwf, rfl, hs, by decide, by decide, ?_⟩
    intro p hp
    rw [List.mem_singleton] at hp
    subst hp
    exact ⟨rfl, 2, fun k => by simp; omega⟩
  · unfold gammaEstimate
    rw [ensure_false (sane_false hs rfl) (wf_pos hwf), Py.ok_bind]
    have : leidenPartWithMembership (withOnes gCycle4) [0, 0, 1, 1] = .ok [0, 0, 1, 1] := rfl
    rw [this, Py.ok_bind, gCycle4_estimate]
    have : gammaFromParameters (1 : ℝ) 1 = some .nan :=
      (c27_degenerate_estimates 1 1).2.1.mpr ⟨by norm_num, by norm_num, Or.inl rfl⟩
    simp only [Py.ok_bind, this]
    rfl

/-- The hypotheses of the theorems are met by two triangles joined by an edge, whose entry is a number: the figure holds
exactly this point. -/
example : ∃ g : ℝ, gammaFromParameters (12 / 7) (2 / 7) = some (.fin g) ∧ 0 < g ∧ g < 2 := by
  obtain ⟨g, hg, -⟩ := c26_logarithmic_mean (a := 12 / 7) (b := 2 / 7) (by norm_num) (by norm_num) (by norm_num)
  obtain ⟨h1, h2, -⟩ := c87_estimate_size gBarbellR_wf rfl (by simp) rfl (K := 2) (fun k => by simp; omega) (le_refl 2)
    gBarbellR_estimate hg
  exact ⟨g, hg, h1, by simpa using h2⟩

end Verif.Props
