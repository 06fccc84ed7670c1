import Verif.Props.DocExample
import Verif.Props.DomainFigures
import Verif.Model.DocPlots

/-!
# Property C114: the documented plots of two-dimensional domains
-/

namespace Verif.Props
open Verif Verif.Spec

section
variable {x : Execution} {Gi Gx : Graph ℝ} {layers : List Nat} {gammas : List (Fl ℝ)} {omegas : List ℝ}
  {heaps : Nat → Nat → Graph ℝ} {W : Window} {n T : Nat}

/-- What the four plots are made of: the domains of the partitions found, with estimates in the temporal model. -/
structure DomainsFound (x : Execution) (Gi Gx : Graph ℝ) (layers : List Nat) (W : Window) (found : List (List Nat))
    (domains : List (List (ℝ × ℝ) × List Nat)) (ds : List (List (ℝ × ℝ) × List Nat × Option (Fl ℝ) × ℝ)) : Prop where
  same : domains = ds.map fun d => (d.1, d.2.1)
  canonical : ∀ d ∈ ds, FirstAppearanceOrder d.2.1 ∧ d.2.1.length = Gi.vcount
  wasFound : ∀ d ∈ ds, ∃ r ∈ found, SamePartition d.2.1 r
  region : ∀ d ∈ ds, ∀ γ ω, (γ, ω) ∈ convexHull ℝ {q | q ∈ d.1} ↔ ((W.γ₀ ≤ γ ∧ γ ≤ W.γf) ∧ W.ω₀ ≤ ω ∧ ω ≤ W.ωf) ∧
    ∀ r ∈ found, multilayerModularity Gi Gx layers γ ω r ≤ multilayerModularity Gi Gx layers γ ω d.2.1
  all : DomainsOf x.prune.test x.prune.fsolve Gi Gx layers "temporal" W (fun c => ∃ r ∈ found, canon r = c) ds

theorem found_length (hx : SoundExecution x (gammas.length * omegas.length)) (hM : Multilayer Gi Gx layers) {found : List (List Nat)}
    (hf : RunsFoundMultilayer x Gi Gx layers gammas omegas found) : ∀ d ∈ found, d.length = Gi.vcount := by
  intro d hd
  obtain ⟨j, hj⟩ := List.getElem?_of_mem hd
  have hlt : j < (gridPoints gammas omegas).length := by
    rw [← hf.1]; exact (List.getElem?_eq_some_iff.mp hj).1
  have := multilayerOutcome_length hx.produces (hf.2 j _ d (List.getElem?_eq_getElem hlt) hj)
  rw [this, (defaulted_shape x.leiden.test Gx).1, hM.vcount]

theorem domainsFound_of (hx : SoundExecution x (gammas.length * omegas.length)) (hM : Multilayer Gi Gx layers) {found : List (List Nat)}
    (hlen : ∀ d ∈ found, d.length = Gi.vcount) {S : Finset (List Nat)} (hS : ∀ c, c ∈ S ↔ ∃ r ∈ found, canon r = c)
    {domains : List (List (ℝ × ℝ) × List Nat)} {ests : List (List (ℝ × ℝ) × List Nat × Option (Fl ℝ) × ℝ)} {G' : Graph ℝ}
    (hch : champ3D x.prune.toChampEnv Gi Gx layers (x.iterate S) W.γ₀ W.γf W.ω₀ W.ωf = (some (.ok domains) : Option _))
    (hest : domainsToEstimates x.prune.test x.prune.fsolve Gx layers "temporal" Gi domains = .ok (ests, G')) :
    DomainsFound x Gi Gx layers W found domains ests := by
  have hmem : ∀ c, c ∈ x.iterate S ↔ ∃ r ∈ found, canon r = c := fun c => (hx.iterate S c).trans (hS c)
  have hl : ∀ c ∈ x.iterate S, c.length = Gi.vcount := by
    intro c hc
    obtain ⟨r, hr, rfl⟩ := (hmem c).mp hc
    rw [canon_length]; exact hlen r hr
  have hD : DomainsOf x.prune.test x.prune.fsolve Gi Gx layers "temporal" W (fun c => ∃ r ∈ found, canon r = c) ests :=
    domainsOf_champ hx.prune hM hmem hl (Run.bind_ok.mpr ⟨_, hch, Run.bind_ok.mpr ⟨_, Run.ofPy_ok.mpr hest, rfl⟩⟩)
  obtain ⟨est, -, e2⟩ := domainsToEstimates_ok hest
  refine ⟨?_, ?_, ?_, ?_, hD⟩
  · rw [e2, List.map_map]
    exact (List.map_id' domains).symm
  · intro d hd
    obtain ⟨r, hr, he⟩ := hD.isCandidate d hd
    rw [← he]
    exact ⟨canon_firstAppearance r, by rw [canon_length]; exact hlen r hr⟩
  · intro d hd
    obtain ⟨r, hr, he⟩ := hD.isCandidate d hd
    exact ⟨r, hr, he ▸ canon_same r⟩
  · intro d hd γ ω
    refine (hD.hull d hd γ ω).trans (and_congr_right fun _ => ⟨fun h r hr => ?_, ?_⟩)
    · rw [← multilayerModularity_canon hM.vcount (hlen r hr)]
      exact h _ ⟨r, hr, rfl⟩
    · rintro h c ⟨r, hr, rfl⟩
      rw [multilayerModularity_canon hM.vcount (hlen r hr)]
      exact h r hr

/-- **C114 (the domains).** If the domains are computed, they are those of the partitions found by the runs of the sweep: each partition was
found by a run, its polygon is the set of points of the window at which no partition found is better, the polygons cover the window, every
partition strictly best somewhere inside has one, and the estimates are those of the temporal model. -/
theorem c114_domains (hx : SoundExecution x (gammas.length * omegas.length)) (hk : HealthyWorkers x Gi heaps) (hM : Multilayer Gi Gx layers)
    {domains : List (List (ℝ × ℝ) × List Nat)} {ds : List (List (ℝ × ℝ) × List Nat × Option (Fl ℝ) × ℝ)}
    (h : docDomains x Gi Gx layers gammas omegas W.γ₀ W.γf W.ω₀ W.ωf = (some (.ok (domains, ds)) : Option _)) :
    ∃ found, RunsFoundMultilayer x Gi Gx layers gammas omegas found ∧ DomainsFound x Gi Gx layers W found domains ds := by
  unfold docDomains at h
  obtain ⟨S, hS, h⟩ := Run.bind_ok.mp h
  obtain ⟨doms, hch, h⟩ := Run.bind_ok.mp h
  obtain ⟨⟨ests, G'⟩, hest, h⟩ := Run.bind_ok.mp h
  rw [Run.ofPy_ok] at hS hest
  obtain ⟨rfl, rfl⟩ := Prod.mk.inj (Except.ok.inj (Option.some.inj h))
  obtain ⟨found, hf, hc⟩ := (c51_multilayer_parallel hk.contents hk.reachable hk.graph Gx layers gammas omegas x.cpu hx.order _).mp hS
  exact ⟨found, hf, domainsFound_of hx hM (found_length hx hM hf) (canonicalSetOf_iff.mp hc) hch hest⟩

/-- **C114 (completion).** On an unweighted temporal network, with exact LP solving, a window with an interior and Leiden returning at every grid
point, the domains are computed unless a partition found is one whose estimate fails (C69). -/
theorem c114_completes (hx : SoundExecution x (gammas.length * omegas.length)) (hex : ExactEnv x.prune.toChampEnv)
    (hk : HealthyWorkers x Gi heaps) (hG : TemporalNetwork Gi Gx layers T n) (hw : CountsAsUnweighted x.leiden.test Gi)
    (hfind : ∀ i, ∀ p ∈ gridPoints gammas omegas, ∃ c,
      multilayerOutcome x.leiden (defaulted x.leiden.test Gi) (defaulted x.leiden.test Gx) layers i p = .ok c)
    (hγ : W.γ₀ < W.γf) (hω : W.ω₀ < W.ωf)
    (hok : ∀ found, RunsFoundMultilayer x Gi Gx layers gammas omegas found → ∀ d ∈ found, ¬ Failing Gi Gx layers n T (canon d)) :
    ∃ domains ds, docDomains x Gi Gx layers gammas omegas W.γ₀ W.γf W.ω₀ W.ωf = (some (.ok (domains, ds)) : Option _) := by
  obtain ⟨S, found, hS, hf, hc, hlen⟩ := multilayer_found_exists hx hk hG.toMultilayer hfind
  have hmem : ∀ c, c ∈ x.iterate S ↔ ∃ r ∈ found, canon r = c := fun c => (hx.iterate S c).trans (hc c)
  have hl : ∀ c ∈ x.iterate S, c.length = Gi.vcount := by
    intro c hc
    obtain ⟨r, hr, rfl⟩ := (hmem c).mp hc
    rw [canon_length]; exact hlen r hr
  obtain ⟨hn, hedge⟩ := TemporalNetwork_edges hG
  have hch : ∃ doms, champ3D x.prune.toChampEnv Gi Gx layers (x.iterate S) W.γ₀ W.γf W.ω₀ W.ωf = (some (.ok doms) : Option _) := by
    by_cases h0 : x.iterate S = []
    · exact ⟨[], by rw [h0]; rfl⟩
    · exact c21_returns hex hG.toMultilayer hG.undirected hn hedge hl h0 hγ hω
  obtain ⟨doms, hch⟩ := hch
  cases hest : domainsToEstimates x.prune.test x.prune.fsolve Gx layers "temporal" Gi doms with
  | ok r =>
    exact ⟨doms, r.1, Run.bind_ok.mpr ⟨S, Run.ofPy_ok.mpr hS, Run.bind_ok.mpr ⟨_, hch, Run.bind_ok.mpr ⟨_, Run.ofPy_ok.mpr hest, rfl⟩⟩⟩⟩
  | error e =>
    exfalso
    obtain ⟨d, hd, hE⟩ := domainsToEstimates_error hest
    obtain ⟨r, hr, hrc⟩ := (hmem _).mp (c21_domains_correct hx.prune.toSoundEnv hG.toMultilayer hl hch d hd).1
    rw [← hrc] at hE
    exact hok found hf r hr ((c69_fails_iff hG (by rw [hx.test]; exact hw) (by rw [canon_length]; exact hlen r hr)
      (by rw [sortedTuple_eq, canon_idem])).mp ⟨e, hE⟩)

end

section
variable {C : Type} [LinearOrder C] {palette : Nat → Nat → C} {shuffle₁ shuffle₂ : List C → List C} {pick₁ pick₂ : Nat → Nat}
  {ami : List Int → List Int → Py ℝ} {truth : List Nat} {W : Window} {Gi Gx : Graph ℝ} {layers : List Nat}
  {x : Execution} {found : List (List Nat)}
  {domains : List (List (ℝ × ℝ) × List Nat)} {ds : List (List (ℝ × ℝ) × List Nat × Option (Fl ℝ) × ℝ)} {p : DocPlots C}

theorem corner_in_window (hF : DomainsFound x Gi Gx layers W found domains ds) {d : List (ℝ × ℝ) × List Nat × Option (Fl ℝ) × ℝ}
    (hd : d ∈ ds) {q : ℝ × ℝ} (hq : q ∈ d.1) : (W.γ₀ ≤ q.1 ∧ q.1 ≤ W.γf) ∧ W.ω₀ ≤ q.2 ∧ q.2 ≤ W.ωf :=
  ((hF.region d hd q.1 q.2).mp (subset_convexHull ℝ _ hq)).1

theorem all_in_view (hF : DomainsFound x Gi Gx layers W found domains ds) {d : List (ℝ × ℝ) × List Nat × Option (Fl ℝ) × ℝ}
    (hd : d ∈ ds) : HasVertexIn (W.ω₀, W.ωf) (W.γ₀, W.γf) d.1 := by
  obtain ⟨q, hq⟩ := List.exists_mem_of_ne_nil _ (polygon_ne hF.all d hd)
  exact ⟨q, hq, corner_in_window hF hd hq⟩

open Classical in
theorem view_filter (hF : DomainsFound x Gi Gx layers W found domains ds) :
    (plotted (estimated ds)).filter (fun d => decide (HasVertexIn (W.ω₀, W.ωf) (W.γ₀, W.γf) d.1)) =
      ds.map fun d => (d.1, d.2.1.map Int.ofNat, d.2.2.1, some (Fl.fin d.2.2.2)) := by
  have : plotted (estimated ds) = ds.map fun d => (d.1, d.2.1.map Int.ofNat, d.2.2.1, some (Fl.fin d.2.2.2)) := by
    unfold plotted estimated
    rw [List.map_map]; rfl
  rw [this]
  refine List.filter_eq_self.mpr fun e he => ?_
  obtain ⟨d, hd, rfl⟩ := List.mem_map.mp he
  simpa using all_in_view hF hd

theorem mean_between {l : List ℝ} {a b : ℝ} (hne : l ≠ []) (h : ∀ v ∈ l, a ≤ v ∧ v ≤ b) : a ≤ l.sum / l.length ∧ l.sum / l.length ≤ b := by
  have hpos : (0 : ℝ) < l.length := by exact_mod_cast List.length_pos_iff.mpr hne
  constructor
  · rw [le_div_iff₀ hpos, mul_comm]
    have := List.card_nsmul_le_sum l a fun v hv => (h v hv).1
    simpa using this
  · rw [div_le_iff₀ hpos, mul_comm]
    have := List.sum_le_card_nsmul l b fun v hv => (h v hv).2
    simpa using this

theorem docPlots_parts (h : docPlots palette shuffle₁ shuffle₂ pick₁ pick₂ ami truth W.γ₀ W.γf W.ω₀ W.ωf domains ds = .ok p) :
    plotDomainsWithEstimates palette shuffle₁ pick₁ (W.ω₀, W.ωf) (W.γ₀, W.γf) true true (plotted (estimated ds)) = .ok p.estimates ∧
    plotDomains palette shuffle₂ pick₂ true domains = .ok p.domains ∧
    plotAmi ami (truth.map Int.ofNat) (W.ω₀, W.ωf) (W.γ₀, W.γf) true (plotted (estimated ds)) = .ok p.scores ∧
    plotNumCommunities (W.ω₀, W.ωf) (W.γ₀, W.γf) true none (plotted (estimated ds)) = .ok p.communities := by
  unfold docPlots at h
  obtain ⟨p1, h1, h⟩ := Py.bind_ok' h
  obtain ⟨p2, h2, h⟩ := Py.bind_ok' h
  obtain ⟨p3, h3, h⟩ := Py.bind_ok' h
  obtain ⟨p4, h4, h⟩ := Py.bind_ok' h
  cases h
  exact ⟨h1, h2, h3, h4⟩

/-- **C114 (every domain is in all four plots).** Since the plots show exactly the window of `CHAMP_3D`, no domain is missing: all four draw the
same polygons, one for each domain in order, with the coupling on the horizontal axis; domains that share a corner have different colours in the first two;
the third has the score of each partition against the ground truth, and 1 as the end of its scale; the fourth has the number of communities of each partition, its scale
ending at the largest. -/
theorem c114_plots (hs₁ : ∀ l, (shuffle₁ l).Perm l) (hs₂ : ∀ l, (shuffle₂ l).Perm l) (hF : DomainsFound x Gi Gx layers W found domains ds)
    (h : docPlots palette shuffle₁ shuffle₂ pick₁ pick₂ ami truth W.γ₀ W.γf W.ω₀ W.ωf domains ds = .ok p) :
    p.estimates.domains.patches = ds.map (fun d => d.1.map Prod.swap) ∧ p.domains.patches = ds.map (fun d => d.1.map Prod.swap) ∧
    p.scores.1 = ds.map (fun d => d.1.map Prod.swap) ∧ p.communities.1 = ds.map (fun d => d.1.map Prod.swap) ∧
    (∀ (i j : Nat) d e, i ≠ j → ds[i]? = some d → ds[j]? = some e → (∃ v, v ∈ d.1 ∧ v ∈ e.1) →
      p.estimates.domains.colours[i]? ≠ p.estimates.domains.colours[j]? ∧ p.domains.colours[i]? ≠ p.domains.colours[j]?) ∧
    (∃ scores, p.scores.2 = scores ++ [1] ∧
      List.Forall₂ (fun d s => ami (d.2.1.map Int.ofNat) (truth.map Int.ofNat) = .ok s) ds scores) ∧
    p.communities.2.1 = ds.map (fun d => d.2.1.dedup.length) ∧
    p.communities.2.2 ∈ p.communities.2.1 ∧ ∀ K ∈ p.communities.2.1, K ≤ p.communities.2.2 := by
  obtain ⟨h1, h2, h3, h4⟩ := docPlots_parts h
  obtain ⟨-, -, hdom⟩ := c66_arrows (by
    intro d hd
    unfold plotted estimated at hd
    rw [List.map_map] at hd
    obtain ⟨d', hd', rfl⟩ := List.mem_map.mp hd
    exact polygon_ne hF.all d' hd') h1
  obtain ⟨hp1, -, -, hc1⟩ := c59_adjacent_domains_differ hs₁ hdom
  obtain ⟨hp2, -, -, hc2⟩ := c59_adjacent_domains_differ hs₂ h2
  obtain ⟨hp3, scores, hsc, hsf⟩ := c67_ami_partial h3
  obtain ⟨hp4, hk, hle, -, hmax⟩ := c67_num_communities_partial h4
  rw [view_filter hF] at hp3 hsf hp4 hk
  rw [List.forall₂_map_left_iff] at hsf hk
  have hform : (plotted (estimated ds)).map (fun d => (d.1, d.2.1)) = ds.map fun d => (d.1, d.2.1.map Int.ofNat) := by
    unfold plotted estimated
    rw [List.map_map, List.map_map]; rfl
  rw [hform] at hp1 hc1
  rw [hF.same] at hp2 hc2
  refine ⟨by rw [hp1, List.map_map]; rfl, by rw [hp2, List.map_map]; rfl, by rw [hp3, List.map_map]; rfl, by rw [hp4, List.map_map]; rfl,
    ?_, ⟨scores, hsc, hsf⟩, ?_, hmax rfl, hle⟩
  · intro i j d e hij hd he hv
    exact ⟨hc1 i j _ _ hij (by rw [List.getElem?_map, hd]; rfl) (by rw [List.getElem?_map, he]; rfl) hv,
      hc2 i j _ _ hij (by rw [List.getElem?_map, hd]; rfl) (by rw [List.getElem?_map, he]; rfl) hv⟩
  · have : List.Forall₂ (fun d K => K = d.2.1.dedup.length) ds p.communities.2.1 := by
      rw [List.forall₂_iff_get] at hk ⊢
      refine ⟨hk.1, fun i hi hi' => ?_⟩
      obtain ⟨k, hk1, -, hk2⟩ := hk.2 i hi hi'
      rw [hk2 rfl]
      have hm := List.get_mem ds ⟨i, hi⟩
      obtain ⟨hne, hcon⟩ := numCommunities_nat.mp hk1
      have := firstAppearance_contiguous (hF.canonical _ hm).1
      have h2 := numCommunities_nat.mpr ⟨hne, this⟩
      rw [hk1] at h2
      exact Except.ok.inj h2
    have h2 : List.Forall₂ (fun a b => a = b) (ds.map fun d => d.2.1.dedup.length) p.communities.2.1 := by
      rw [List.forall₂_map_left_iff]; exact this.imp fun _ _ h => h.symm
    exact (List.forall₂_eq_eq_eq ▸ h2 : _ = _).symm

/-- **C114 (the arrows).** An arrow is drawn for exactly the domains whose gamma estimate is a number and whose estimates lie in the window; it leads
from the mean of the domain's corners to the estimates, at which a point is drawn. -/
theorem c114_arrows (hF : DomainsFound x Gi Gx layers W found domains ds)
    (h : docPlots palette shuffle₁ shuffle₂ pick₁ pick₂ ami truth W.γ₀ W.γf W.ω₀ W.ωf domains ds = .ok p) :
    (∃ arrow : List (ℝ × ℝ) × List Nat × Option (Fl ℝ) × ℝ → Option Arrow, p.estimates.arrows = ds.filterMap arrow ∧
      ∀ d ∈ ds, ∀ a, arrow d = some a ↔ ∃ γ, d.2.2.1 = some (.fin γ) ∧ (W.γ₀ ≤ γ ∧ γ ≤ W.γf) ∧ (W.ω₀ ≤ d.2.2.2 ∧ d.2.2.2 ≤ W.ωf) ∧
        a.tail = (.fin ((d.1.map Prod.snd).sum / d.1.length), .fin ((d.1.map Prod.fst).sum / d.1.length)) ∧
        a.head = (.fin d.2.2.2, .fin γ)) ∧
    p.estimates.points = p.estimates.arrows.map Arrow.head := by
  obtain ⟨h1, -⟩ := docPlots_parts h
  obtain ⟨⟨arrow, ha, hspec⟩, hpts, -⟩ := c66_arrows (by
    intro d hd
    unfold plotted estimated at hd
    rw [List.map_map] at hd
    obtain ⟨d', hd', rfl⟩ := List.mem_map.mp hd
    exact polygon_ne hF.all d' hd') h1
  refine ⟨⟨fun d => arrow (d.1, d.2.1.map Int.ofNat, d.2.2.1, some (.fin d.2.2.2)), ?_, ?_⟩, by simpa using hpts⟩
  · rw [ha, plotted, estimated, List.map_map, List.filterMap_map]; rfl
  · intro d hd a
    have hne := polygon_ne hF.all d hd
    have hmx := mean_between (l := d.1.map Prod.snd) (a := W.ω₀) (b := W.ωf) (by simpa using hne) (by
      intro v hv
      obtain ⟨q, hq, rfl⟩ := List.mem_map.mp hv
      exact (corner_in_window hF hd hq).2)
    have hmy := mean_between (l := d.1.map Prod.fst) (a := W.γ₀) (b := W.γf) (by simpa using hne) (by
      intro v hv
      obtain ⟨q, hq, rfl⟩ := List.mem_map.mp hv
      exact (corner_in_window hF hd hq).1)
    rw [List.length_map] at hmx hmy
    refine (hspec _ (by
      unfold plotted estimated
      rw [List.map_map]
      exact List.mem_map.mpr ⟨d, hd, rfl⟩) a).trans ?_
    unfold ArrowOf
    dsimp only
    rw [max_eq_right hmx.1, min_eq_right hmx.2, max_eq_right hmy.1, min_eq_right hmy.2]
    have hwid : 0 ≤ W.ωf - W.ω₀ := by linarith [hmx.1, hmx.2]
    constructor
    · rintro ⟨g, w, hg, hw, h1, h2, -, h4, h5⟩
      have hw' : d.2.2.2 = w := by simpa using hw
      exact ⟨g, hg, h1, by rw [hw']; exact h2, h4, by rw [hw']; exact h5⟩
    · rintro ⟨g, hg, h1, h2, h4, h5⟩
      exact ⟨g, _, hg, rfl, h1, h2, ⟨by linarith [hmx.1], by linarith [hmx.2]⟩, h4, h5⟩

/-- **C114 (no gaps).** If a partition was found, every point of the plotted window lies in one of the polygons drawn, and it lies in the `i`-th polygon iff
no partition found is better there than the `i`-th. -/
theorem c114_cover (hs₁ : ∀ l, (shuffle₁ l).Perm l) (hs₂ : ∀ l, (shuffle₂ l).Perm l) (hF : DomainsFound x Gi Gx layers W found domains ds)
    (h : docPlots palette shuffle₁ shuffle₂ pick₁ pick₂ ami truth W.γ₀ W.γf W.ω₀ W.ωf domains ds = .ok p) {ω γ : ℝ}
    (hω : W.ω₀ ≤ ω ∧ ω ≤ W.ωf) (hγ : W.γ₀ ≤ γ ∧ γ ≤ W.γf) :
    (found ≠ [] → ∃ patch ∈ p.domains.patches, (ω, γ) ∈ convexHull ℝ {q | q ∈ patch}) ∧
    ∀ (i : Nat) d, ds[i]? = some d → ∃ patch, p.domains.patches[i]? = some patch ∧
      ((ω, γ) ∈ convexHull ℝ {q | q ∈ patch} ↔
        ∀ r ∈ found, multilayerModularity Gi Gx layers γ ω r ≤ multilayerModularity Gi Gx layers γ ω d.2.1) := by
  have hp := (c114_plots hs₁ hs₂ hF h).2.1
  constructor
  · intro hne
    obtain ⟨r, hr⟩ := List.exists_mem_of_ne_nil _ hne
    obtain ⟨d, hd, hopt⟩ := hF.all.cover ⟨_, r, hr, rfl⟩ γ ω ⟨hγ, hω⟩
    refine ⟨d.1.map Prod.swap, by rw [hp]; exact List.mem_map.mpr ⟨d, hd, rfl⟩, ?_⟩
    rw [hull_swap]
    exact (hF.all.hull d hd γ ω).mpr hopt
  · intro i d hd
    refine ⟨d.1.map Prod.swap, by rw [hp, List.getElem?_map, hd]; rfl, ?_⟩
    rw [hull_swap, hF.region d (List.mem_of_getElem? hd)]
    exact ⟨fun h => h.2, fun h => ⟨⟨hγ, hω⟩, h⟩⟩

/-- **C114 (the plots are made).** If a partition was found, the score is defined for labellings of equal length, the ground truth has the length of the
network, and no domain shares corners with as many earlier ones as there are colours, all four plots are made. -/
theorem c114_returns (hF : DomainsFound x Gi Gx layers W found domains ds) (hfo : found ≠ []) (hγ : W.γ₀ ≤ W.γf) (hω : W.ω₀ ≤ W.ωf)
    (hv : 0 < Gi.vcount) (ht : truth.length = Gi.vcount) (hami : ∀ a b : List Int, a.length = b.length → ∃ s, ami a b = .ok s)
    (hfew : ∀ (j : Nat) e, ds[j]? = some e →
      ((List.range j).filter fun i => decide (∃ d, ds[i]? = some d ∧ ∃ v, v ∈ e.1 ∧ v ∈ d.1)).length <
        ((List.range ds.length).map (palette ds.length)).toFinset.card) :
    ∃ p, docPlots palette shuffle₁ shuffle₂ pick₁ pick₂ ami truth W.γ₀ W.γf W.ω₀ W.ωf domains ds = .ok p := by
  have hfew' : ∀ {M : Type} (f : List Nat → List M) (j : Nat) e, (ds.map fun d => (d.1, f d.2.1))[j]? = some e →
      ((List.range j).filter fun i => decide (∃ d, (ds.map fun d => (d.1, f d.2.1))[i]? = some d ∧ ∃ v, v ∈ e.1 ∧ v ∈ d.1)).length <
        ((List.range (ds.map fun d => (d.1, f d.2.1)).length).map (palette (ds.map fun d => (d.1, f d.2.1)).length)).toFinset.card := by
    intro M f j e hj
    rw [List.getElem?_map, Option.map_eq_some_iff] at hj
    obtain ⟨e', he', rfl⟩ := hj
    rw [List.length_map]
    refine lt_of_le_of_lt (le_of_eq ?_) (hfew j e' he')
    congr 1
    refine List.filter_congr fun i _ => ?_
    rw [decide_eq_decide]
    constructor
    · rintro ⟨d, hd, hv⟩
      rw [List.getElem?_map, Option.map_eq_some_iff] at hd
      obtain ⟨d', hd', rfl⟩ := hd
      exact ⟨d', hd', hv⟩
    · rintro ⟨d, hd, hv⟩
      exact ⟨_, by rw [List.getElem?_map, hd]; rfl, hv⟩
  have hform : (plotted (estimated ds)).map (fun d => (d.1, d.2.1)) = ds.map fun d => (d.1, d.2.1.map Int.ofNat) := by
    unfold plotted estimated
    rw [List.map_map, List.map_map]; rfl
  have hpl : ∀ e ∈ plotted (estimated ds), ∃ d ∈ ds, e = (d.1, d.2.1.map Int.ofNat, d.2.2.1, some (Fl.fin d.2.2.2)) := by
    intro e he
    unfold plotted estimated at he
    rw [List.map_map] at he
    obtain ⟨d, hd, rfl⟩ := List.mem_map.mp he
    exact ⟨d, hd, rfl⟩
  obtain ⟨p1, h1⟩ := (c66_returns (palette := palette) (shuffle := shuffle₁) (pick := pick₁) (xlim := (W.ω₀, W.ωf)) (ylim := (W.γ₀, W.γf))
    (points := true) (domains := plotted (estimated ds))).2.mpr (by
      rw [hform]; exact c59_returns (hfew' _))
  obtain ⟨p2, h2⟩ : ∃ p2, plotDomains palette shuffle₂ pick₂ true domains = .ok p2 := by
    rw [hF.same]; exact c59_returns (hfew' id)
  obtain ⟨-, -, hks, -, has⟩ := c67_returns (xlim := (W.ω₀, W.ωf)) (ylim := (W.γ₀, W.γf)) (domains := plotted (estimated ds)) none ami
    (truth.map Int.ofNat)
  obtain ⟨r, hr⟩ := List.exists_mem_of_ne_nil _ hfo
  obtain ⟨d₀, hd₀, -⟩ := hF.all.cover ⟨_, r, hr, rfl⟩ W.γ₀ W.ω₀ ⟨⟨le_rfl, hγ⟩, le_rfl, hω⟩
  obtain ⟨p4, h4⟩ := hks (by
      intro e he _
      obtain ⟨d, hd, rfl⟩ := hpl e he
      refine ⟨_, numCommunities_nat.mpr ⟨fun h0 => ?_, firstAppearance_contiguous (hF.canonical d hd).1⟩⟩
      have := (hF.canonical d hd).2
      rw [h0] at this
      simp at this; omega)
    (Or.inr ⟨_, by
      unfold plotted estimated
      rw [List.map_map]
      exact List.mem_map.mpr ⟨d₀, hd₀, rfl⟩, all_in_view hF hd₀⟩)
  obtain ⟨p3, h3⟩ := has (by
    intro e he _
    obtain ⟨d, hd, rfl⟩ := hpl e he
    exact hami _ _ (by simp [(hF.canonical d hd).2, ht]))
  refine ⟨⟨p1, p2, p3, p4⟩, ?_⟩
  unfold docPlots
  rw [h1, Py.ok_bind, h2, Py.ok_bind, h3, Py.ok_bind, h4]
  rfl

end

theorem block_labels {b k s : Nat} (hk : k < 3) (hs : s < b) :
    (List.replicate b 0 ++ List.replicate b 1 ++ List.replicate b 2)[b * k + s]? = some k := by
  have hk3 : k = 0 ∨ k = 1 ∨ k = 2 := by omega
  rcases hk3 with rfl | rfl | rfl
  · rw [List.append_assoc, List.getElem?_append_left (by simp; omega), List.getElem?_replicate, if_pos (by omega)]
  · rw [List.getElem?_append_left (by simp; omega), List.getElem?_append_right (by simp), List.getElem?_replicate,
      if_pos (by simp; omega)]
  · rw [List.getElem?_append_right (by simp; omega), List.getElem?_replicate, if_pos (by simp; omega)]

theorem truth_labels {b l r : Nat} (hl : l < 3) (hr : r < 3 * b) :
    (docTruth b)[3 * b * l + r]? = some (if l < 2 then r / b else 0) := by
  have hfl : (List.replicate b 0 ++ List.replicate b 1 ++ List.replicate b 2).length = 3 * b := by simp; omega
  have hb : 0 < b := by omega
  have hq : r / b < 3 := Nat.div_lt_of_lt_mul (by linarith)
  have hfirst := block_labels hq (Nat.mod_lt r hb)
  rw [Nat.div_add_mod] at hfirst
  unfold docTruth
  have hl3 : l = 0 ∨ l = 1 ∨ l = 2 := by omega
  rcases hl3 with rfl | rfl | rfl
  · rw [List.append_assoc, List.getElem?_append_left (by rw [hfl]; omega), if_pos (by omega)]
    simpa using hfirst
  · rw [List.getElem?_append_left (by rw [List.length_append, hfl]; omega), List.getElem?_append_right (by rw [hfl]; omega), hfl,
      if_pos (by omega)]
    have : 3 * b * 1 + r - 3 * b = r := by omega
    rw [this]; exact hfirst
  · rw [List.getElem?_append_right (by rw [List.length_append, hfl]; omega), List.getElem?_replicate,
      if_pos (by rw [List.length_append, hfl]; omega), if_neg (by omega)]

/-- **C114 (the ground truth).** The partition scored against is the planted one of the network (`3 b` vertices per layer). -/
theorem c114_truth {b : Nat} (hb : 0 < b) : docLabels (3 * b) 3 3 = .ok (docTruth b) := by
  obtain ⟨comm, h, hlen, h1, h2⟩ := c109_labels (n := 3 * b) (K := 3) (by norm_num) (by omega) 3
  rw [h]
  congr 1
  have hdiv : 3 * b / 3 = b := by omega
  rw [hdiv] at h1
  refine List.ext_getElem? fun v => ?_
  by_cases hv : v < 3 * b * 3
  · have hv1 : v % (3 * b) < 3 * b := Nat.mod_lt _ (by omega)
    have hv2 : v / (3 * b) < 3 := Nat.div_lt_of_lt_mul hv
    have hvd := Nat.div_add_mod v (3 * b)
    have hl : comm[v]? = some (if v / (3 * b) < 2 then v % (3 * b) / b else 0) := by
      split
      · have := (h1 (v / (3 * b)) (by omega) (v % (3 * b)) hv1 (v % (3 * b) / b)).mpr rfl
        unfold LabelAt at this
        rwa [hvd] at this
      · have := (h2 (v / (3 * b)) (by omega) (v % (3 * b)) hv1 0).mpr rfl
        unfold LabelAt at this
        rwa [hvd] at this
    rw [hl]
    have := truth_labels hv2 hv1
    rw [hvd] at this
    exact this.symm
  · rw [List.getElem?_eq_none (by omega), List.getElem?_eq_none (by simp [docTruth]; omega)]

/-! ### A concrete case -/

/-- An execution on four cores whose last batch finishes first and whose optimiser finds `{0,1},{2}` in both layers of the two coupled paths. -/
noncomputable def copiesRun (n : Nat) : Execution where
  leiden := copiesEnv
  cpu := 4
  workers := fun _ => World.fresh
  objs := fun _ => 0
  order := (List.range ((n + poolChunkSize 4 n - 1) / poolChunkSize 4 n)).reverse
  iterate := fun S => S.toList
  prune := pruneEnv

theorem copiesRun_sound (n : Nat) : SoundExecution (copiesRun n) n where
  produces := copiesEnv_produces
  order := List.reverse_perm _
  iterate := fun S c => by simp [copiesRun]
  prune := pruneEnv_sound
  test := rfl

theorem copies_outcome (i : Nat) (p : Fl ℝ × ℝ) :
    multilayerOutcome copiesEnv (defaulted copiesEnv.test gIntraR) (defaulted copiesEnv.test gInterR) [0, 0, 0, 1, 1, 1] i p =
      .ok [0, 0, 1, 0, 0, 1] := by
  have hs := copies_admissible.split
  have hlg : ∃ Gs, splitLayers (defaulted copiesEnv.test gIntraR).vcount (defaulted copiesEnv.test gIntraR).edges
      (defaulted copiesEnv.test gIntraR).weight (defaulted copiesEnv.test gIntraR).directed [0, 0, 0, 1, 1, 1] = .ok Gs ∧
      LayerGraphs World.fresh.cache 0 (defaulted copiesEnv.test gIntraR) [0, 0, 0, 1, 1, 1] Gs := by
    refine ⟨_, hs, ?_⟩
    unfold LayerGraphs splitIntralayer
    rw [hs]
    exact LRU.call_miss (by simp [World.fresh, emptySplitCache, LRU.empty]) _
  obtain ⟨Gs, h1, h2⟩ := hlg
  unfold multilayerOutcome
  rw [h1]
  exact copies_maximise h2 i p

theorem copies_not_failing : ¬ Failing gIntraR gInterR [0, 0, 0, 1, 1, 1] 3 2 (canon [0, 0, 1, 0, 0, 1]) := by
  have hcan : canon [0, 0, 1, 0, 0, 1] = [0, 0, 1, 0, 0, 1] := by decide
  rw [hcan, ← c69_fails_iff (test := pruneEnv.test) (fsolve := pruneEnv.fsolve) gIntraR_temporal (fun h => by cases h) rfl
    (c := [0, 0, 1, 0, 0, 1]) (by decide)]
  rintro ⟨e, he⟩
  obtain ⟨G', hG⟩ := example_estimate
  rw [hG] at he
  cases he

/-- the whole example on the two coupled paths with a 10 × 10 grid: the domains are computed and the four plots made -/
example : ∃ found domains ds p,
    docDomains (copiesRun 100) gIntraR gInterR [0, 0, 0, 1, 1, 1] ((linspace (1 / 2) (3 / 2) 10).map .fin) (linspace 0 2 10)
      (1 / 2) (3 / 2) 0 2 = (some (.ok (domains, ds)) : Option _) ∧
    DomainsFound (copiesRun 100) gIntraR gInterR [0, 0, 0, 1, 1, 1] ⟨1 / 2, 3 / 2, 0, 2⟩ found domains ds ∧ found ≠ [] ∧ ds ≠ [] ∧
    docPlots set1 List.reverse id (fun i => i) (fun _ => 0) (fun _ _ => .ok 1) [0, 0, 1, 0, 0, 1] (1 / 2) (3 / 2) 0 2 domains ds = .ok p := by
  have hl : ((linspace (1 / 2) (3 / 2) 10).map (Fl.fin : ℝ → Fl ℝ)).length * (linspace (0 : ℝ) 2 10).length = 100 := by
    rw [List.length_map, linspace_length, linspace_length]
  have hx : SoundExecution (copiesRun 100) (((linspace (1 / 2) (3 / 2) 10).map (Fl.fin : ℝ → Fl ℝ)).length * (linspace (0 : ℝ) 2 10).length) := by
    rw [hl]; exact copiesRun_sound 100
  have hk : HealthyWorkers (copiesRun 100) gIntraR (fun _ _ => gIntraR) :=
    ⟨fun _ _ => ⟨gIntraR_multilayer.intra, by intro h; cases h⟩, fun _ => .fresh, fun _ => rfl⟩
  have hone : ∀ found, RunsFoundMultilayer (copiesRun 100) gIntraR gInterR [0, 0, 0, 1, 1, 1] ((linspace (1 / 2) (3 / 2) 10).map .fin)
      (linspace 0 2 10) found → ∀ d ∈ found, d = [0, 0, 1, 0, 0, 1] := by
    intro found hf d hd
    obtain ⟨j, hj⟩ := List.getElem?_of_mem hd
    have hlt : j < (gridPoints ((linspace (1 / 2) (3 / 2) 10).map Fl.fin) (linspace 0 2 10)).length := by
      rw [← hf.1]; exact (List.getElem?_eq_some_iff.mp hj).1
    have := hf.2 j _ d (List.getElem?_eq_getElem hlt) hj
    exact (Except.ok.inj ((copies_outcome _ _).symm.trans this)).symm
  obtain ⟨domains, ds, h⟩ := c114_completes (W := ⟨1 / 2, 3 / 2, 0, 2⟩) hx exactEnv_exact hk gIntraR_temporal (fun h => by cases h)
    (fun i p _ => ⟨_, copies_outcome i p⟩) (by norm_num) (by norm_num)
    (fun found hf d hd => by rw [hone found hf d hd]; exact copies_not_failing)
  obtain ⟨found, hf, hF⟩ := c114_domains (W := ⟨1 / 2, 3 / 2, 0, 2⟩) hx hk gIntraR_multilayer h
  have hfo : found ≠ [] := by
    refine List.ne_nil_of_length_pos ?_
    rw [hf.1, (c51_grid _ _).1, hl]; norm_num
  have h1 : ds.length ≤ 1 := by
    by_contra hgt
    have h0 : 0 < ds.length := by omega
    have h1 : 1 < ds.length := by omega
    have hd := List.pairwise_iff_getElem.mp hF.all.distinct 0 1 h0 h1 (by omega)
    obtain ⟨a, ha, e0⟩ := hF.all.isCandidate _ (List.getElem_mem h0)
    obtain ⟨b, hb, e1⟩ := hF.all.isCandidate _ (List.getElem_mem h1)
    rw [hone found hf a ha] at e0
    rw [hone found hf b hb] at e1
    exact hd fun _ _ => by rw [← e0, ← e1]
  obtain ⟨r, hr⟩ := List.exists_mem_of_ne_nil _ hfo
  obtain ⟨d, hd, -⟩ := hF.all.cover ⟨_, r, hr, rfl⟩ 1 1 (by norm_num)
  obtain ⟨p, hp⟩ := c114_returns (palette := set1) (shuffle₁ := List.reverse) (shuffle₂ := id) (pick₁ := fun i => i) (pick₂ := fun _ => 0)
    (ami := fun _ _ => .ok 1) (truth := [0, 0, 1, 0, 0, 1]) hF hfo (by norm_num) (by norm_num) (by decide) rfl (fun _ _ _ => ⟨1, rfl⟩) (by
      intro j e hj
      have hjl := (List.getElem?_eq_some_iff.mp hj).1
      have hj0 : j = 0 := by omega
      subst hj0
      have hl : ds.length = 1 := by omega
      rw [hl]
      change 0 < ((List.range 1).map (set1 1)).toFinset.card
      decide)
  exact ⟨found, domains, ds, p, h, hF, hfo, List.ne_nil_of_mem hd, hp⟩

/-- the documented ground truth -/
example : docTruth 10 = (List.replicate 10 0 ++ List.replicate 10 1 ++ List.replicate 10 2) ++
    (List.replicate 10 0 ++ List.replicate 10 1 ++ List.replicate 10 2) ++ List.replicate 30 0 := by decide

end Verif.Props
