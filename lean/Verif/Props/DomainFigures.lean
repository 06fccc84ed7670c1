import Verif.Props.Truncation
import Verif.Props.Plotting
import Verif.Props.Lazega
import Verif.Props.Precomputed
import Verif.Model.DomainFigures

/-!
# Property C113: the figures of domains with estimates (5.3 to 5.9)
-/

namespace Verif.Props
open Verif Verif.Spec

/-- `(γ, ω)` is in the window and `c` is best there among the candidates. -/
def OptimalIn (Gi Gx : Graph ℝ) (layers : List Nat) (W : Window) (cand : List Nat → Prop) (c : List Nat) (γ ω : ℝ) : Prop :=
  ((W.γ₀ ≤ γ ∧ γ ≤ W.γf) ∧ W.ω₀ ≤ ω ∧ ω ≤ W.ωf) ∧
    ∀ c', cand c' → multilayerModularity Gi Gx layers γ ω c' ≤ multilayerModularity Gi Gx layers γ ω c

/-- The partitions of `parts` with `K` communities; `None` and 0 stand for any number. -/
def Restricted (parts : List (List Nat)) (restrict : Option Nat) (c : List Nat) : Prop :=
  c ∈ parts ∧ ∀ K, restrict = some K → K ≠ 0 → c.dedup.length = K

/-- What a list of domains with estimates has to be. -/
structure DomainsOf (test : Graph ℝ → Bool) (fsolve : (ℝ → ℝ) → ℝ → ℝ) (Gi Gx : Graph ℝ) (layers : List Nat) (model : String) (W : Window)
    (cand : List Nat → Prop) (ds : List (List (ℝ × ℝ) × List Nat × Option (Fl ℝ) × ℝ)) : Prop where
  isCandidate : ∀ d ∈ ds, cand d.2.1
  polygon : ∀ d ∈ ds, 3 ≤ d.1.length ∧ d.1.Nodup ∧ Clockwise d.1
  hull : ∀ d ∈ ds, ∀ γ ω, (γ, ω) ∈ convexHull ℝ {q | q ∈ d.1} ↔ OptimalIn Gi Gx layers W cand d.2.1 γ ω
  interior : ∀ d ∈ ds, ∀ γ ω, (γ, ω) ∈ interior (convexHull ℝ {q | q ∈ d.1}) ↔
    BestInside Gi Gx layers cand W d.2.1 γ ω
  nonempty : ∀ d ∈ ds, ∃ γ ω, BestInside Gi Gx layers cand W d.2.1 γ ω
  distinct : ds.Pairwise fun d e => ¬ SameMultilayer Gi Gx layers d.2.1 e.2.1
  cover : (∃ c, cand c) → ∀ γ ω, ((W.γ₀ ≤ γ ∧ γ ≤ W.γf) ∧ W.ω₀ ≤ ω ∧ ω ≤ W.ωf) → ∃ d ∈ ds, OptimalIn Gi Gx layers W cand d.2.1 γ ω
  strict : ∀ c γ ω, cand c → BestInside Gi Gx layers cand W c γ ω → ∃ d ∈ ds, SameMultilayer Gi Gx layers d.2.1 c
  estimates : ∀ d ∈ ds, ∃ G', gammaOmegaEstimate test fsolve Gi Gx layers d.2.1 defaultOmegaMax model = .ok ((d.2.2.1, d.2.2.2), G')

section
variable {env : PruneEnv} {Gi Gx : Graph ℝ} {layers : List Nat} {parts : List (List Nat)}

theorem domainsOf_champ (he : SoundPruneEnv env) (hM : Multilayer Gi Gx layers) {kept : List (List Nat)} {cand : List Nat → Prop}
    (hc : ∀ c, c ∈ kept ↔ cand c) (hlen : ∀ c ∈ kept, c.length = Gi.vcount) {model : String} {W : Window}
    {ds : List (List (ℝ × ℝ) × List Nat × Option (Fl ℝ) × ℝ)}
    (h : (do
      let domains ← champ3D env.toChampEnv Gi Gx layers kept W.γ₀ W.γf W.ω₀ W.ωf
      let ests ← Run.ofPy (domainsToEstimates env.test env.fsolve Gx layers model Gi domains)
      return ests.1 : Run _) = some (.ok ds)) :
    DomainsOf env.test env.fsolve Gi Gx layers model W cand ds := by
  rw [Run.bind_ok] at h
  obtain ⟨doms, hch, h⟩ := h
  rw [Run.bind_ok] at h
  obtain ⟨⟨ests, G₁⟩, h4, h⟩ := h
  rw [Run.ofPy_ok] at h4
  obtain rfl := Except.ok.inj (Option.some.inj h)
  obtain ⟨est, e1, e2⟩ := domainsToEstimates_ok h4
  have hs := he.toSoundEnv
  have hcor := c21_domains_correct hs hM hlen hch
  have hdis := c22_domains_disjoint hs hM hlen hch
  have hint : ∀ d ∈ doms, ∀ γ ω, (γ, ω) ∈ interior (convexHull ℝ {q | q ∈ d.1}) ↔
      BestInside Gi Gx layers cand W d.2 γ ω := by
    intro d hd γ ω
    rw [domain_interior hs hM hlen hch hd γ ω]
    exact and_congr Iff.rfl ⟨fun h c hcc => h c ((hc c).mpr hcc), fun h c hcc => h c ((hc c).mp hcc)⟩
  have hmem : ∀ d ∈ ests, ∃ d' ∈ doms, d' = (d.1, d.2.1) ∧ d.2.2 = est d'.2 := by
    intro d hd
    rw [e2] at hd
    obtain ⟨d', hd', rfl⟩ := List.mem_map.mp hd
    exact ⟨d', hd', rfl, rfl⟩
  have hback : ∀ d ∈ doms, ∃ d' ∈ ests, d = (d'.1, d'.2.1) := by
    intro d hd
    rw [e2]
    exact ⟨_, List.mem_map.mpr ⟨d, hd, rfl⟩, rfl⟩
  constructor
  · intro d hd
    obtain ⟨d', hd', rfl, -⟩ := hmem d hd
    exact (hc _).mp (hcor _ hd').1
  · intro d hd
    obtain ⟨d', hd', rfl, -⟩ := hmem d hd
    obtain ⟨a, b, c, -⟩ := c23_boundary_order hs hM hlen hch _ hd'
    exact ⟨a, b, c⟩
  · intro d hd γ ω
    obtain ⟨d', hd', rfl, -⟩ := hmem d hd
    refine ((hcor _ hd').2.2 (γ, ω)).trans (and_congr Iff.rfl ?_)
    exact ⟨fun h c hcc => h c ((hc c).mpr hcc), fun h c hcc => h c ((hc c).mp hcc)⟩
  · intro d hd γ ω
    obtain ⟨d', hd', rfl, -⟩ := hmem d hd
    exact hint _ hd' γ ω
  · intro d hd
    obtain ⟨d', hd', rfl, -⟩ := hmem d hd
    obtain ⟨⟨a, b⟩, hab⟩ := hdis.2.2.2 _ hd'
    exact ⟨a, b, (hint _ hd' a b).mp hab⟩
  · rw [e2, List.pairwise_map]
    exact hdis.2.1.imp fun ⟨a, b, hne⟩ hsame => hne (hsame a b)
  · rintro ⟨c, hcc⟩ γ ω hw
    obtain ⟨d, hd, -, hopt⟩ := c22_domains_cover hs hM hlen (List.ne_nil_of_mem ((hc c).mpr hcc)) hch hw.1 hw.2
    obtain ⟨d', hd', rfl⟩ := hback d hd
    exact ⟨d', hd', hw, fun c' hc' => hopt c' ((hc c').mpr hc')⟩
  · rintro c γ ω hcc ⟨⟨⟨w1, w2⟩, w3, w4⟩, hb⟩
    obtain ⟨d, hd, -, hsm⟩ := c22_strictly_optimal_returned hs hM hlen hch ((hc c).mpr hcc) ⟨w1.le, w2.le⟩ ⟨w3.le, w4.le⟩
      (fun c' hc' ⟨γ', ω', hne⟩ => hb c' ((hc c').mp hc') fun hsame => hne (hsame γ' ω'))
    obtain ⟨d', hd', rfl⟩ := hback d hd
    exact ⟨d', hd', hsm⟩
  · intro d hd
    obtain ⟨d', hd', rfl, hest⟩ := hmem d hd
    exact ⟨G₁, by rw [e1 _ hd', ← hest]⟩

theorem easyParts_mem (he : SoundPruneEnv env) {restrict : Option Nat} {kept : List (List Nat)}
    (hfa : ∀ c ∈ parts, canon c = c) (h : easyParts env.setOrder restrict parts = .ok kept) (c : List Nat) :
    c ∈ kept ↔ Restricted parts restrict c := by
  have hany : ∀ r, r = none ∨ r = some 0 → (c ∈ env.setOrder (env.setOrder parts) ↔ Restricted parts r c) := by
    intro r hr
    rw [he.setMem, he.setMem]
    refine ⟨fun h => ⟨h, fun K hK h0 => ?_⟩, fun h => h.1⟩
    rcases hr with rfl | rfl
    · cases hK
    · exact absurd (Option.some.inj hK).symm h0
  rcases restrict with _ | _ | K
  · obtain rfl := Except.ok.inj h
    exact hany _ (Or.inl rfl)
  · obtain rfl := Except.ok.inj h
    exact hany _ (Or.inr rfl)
  · change restrictParts env.setOrder (some (K + 1)) (env.setOrder parts) = .ok kept at h
    rw [restrictParts_ok (fun c hc => hfa c ((he.setMem _ _).mp hc)) (restrictParts_nonempty h)] at h
    obtain rfl := Except.ok.inj h
    rw [he.setMem, List.mem_filter, he.setMem, decide_eq_true_iff]
    refine and_congr Iff.rfl ⟨fun h K' hK' _ => ?_, fun h => h _ rfl (by simp)⟩
    rw [h]; exact Option.some.inj hK'

/-- **C113 (easy regime).** `generate_domains_with_estimates(restrict_communities)`: if it returns, the list holds, for the partitions
found (in their canonical labelling) with the wanted number of communities – any number, if `restrict_communities` is `None` or 0 – one
domain for each partition that is strictly best somewhere inside `[0, 2]²`, up to equal modularity; each domain is the set of points at
which its partition is best, they cover the window, and the estimates are `gamma_omega_estimate` of the partition in the temporal model. -/
theorem c113_easy_domains (he : SoundPruneEnv env) (hM : Multilayer Gi Gx layers) (hlen : ∀ c ∈ parts, c.length = Gi.vcount)
    (hfa : ∀ c ∈ parts, canon c = c) {restrict : Option Nat} {ds : List (List (ℝ × ℝ) × List Nat × Option (Fl ℝ) × ℝ)}
    (h : easyDomains env Gi Gx layers restrict parts = (some (.ok ds) : Option _)) :
    DomainsOf env.test env.fsolve Gi Gx layers "temporal" ⟨0, 2, 0, 2⟩ (Restricted parts restrict) ds := by
  unfold easyDomains at h
  rw [Run.bind_ok] at h
  obtain ⟨kept, hk, h⟩ := h
  rw [Run.ofPy_ok] at hk
  have hmem := easyParts_mem he hfa hk
  exact domainsOf_champ he hM hmem (fun c hc => hlen c ((hmem c).mp hc).1) h

/-- **C113 (Lazega).** The same for the domains of figures 5.7 and 5.8: all partitions found, the window `[0, 2] × [0, 3]` and the
multiplex model. -/
theorem c113_lazega_domains (he : SoundPruneEnv env) (hM : Multilayer Gi Gx layers) (hlen : ∀ c ∈ parts, c.length = Gi.vcount)
    {ds : List (List (ℝ × ℝ) × List Nat × Option (Fl ℝ) × ℝ)}
    (h : lazegaDomains env Gi Gx layers parts = (some (.ok ds) : Option _)) :
    DomainsOf env.test env.fsolve Gi Gx layers "multiplex" ⟨0, 2, 0, 3⟩ (fun c => c ∈ parts) ds :=
  domainsOf_champ he hM (fun c => he.setMem parts c) (fun c hc => hlen c ((he.setMem _ _).mp hc)) h

/-- **C113 (figure 5.6 and figure 5.4).** A domain of a partition with `K` communities among all partitions lies within the domain, among
the partitions with `K` communities, of a partition of the same modularity. -/
theorem c113_restricted_contains {test : Graph ℝ → Bool} {fsolve : (ℝ → ℝ) → ℝ → ℝ} {model : String} {W : Window}
    {K : Nat} {ds dsK : List (List (ℝ × ℝ) × List Nat × Option (Fl ℝ) × ℝ)}
    (hall : DomainsOf test fsolve Gi Gx layers model W (Restricted parts none) ds)
    (hK : DomainsOf test fsolve Gi Gx layers model W (Restricted parts (some K)) dsK) :
    ∀ d ∈ ds, d.2.1.dedup.length = K → ∃ e ∈ dsK, SameMultilayer Gi Gx layers e.2.1 d.2.1 ∧
      convexHull ℝ {q | q ∈ d.1} ⊆ convexHull ℝ {q | q ∈ e.1} := by
  intro d hd hdK
  have hsub : ∀ c, Restricted parts (some K) c → Restricted parts none c := fun c hc => ⟨hc.1, fun K' hK' => by cases hK'⟩
  obtain ⟨γ, ω, hw, hb⟩ := hall.nonempty d hd
  obtain ⟨e, he, hsame⟩ := hK.strict d.2.1 γ ω
    ⟨(hall.isCandidate d hd).1, fun K' hK' _ => by rw [hdK]; exact Option.some.inj hK'⟩
    ⟨hw, fun q hq hne => hb q (hsub q hq) hne⟩
  refine ⟨e, he, hsame, fun q hq => ?_⟩
  obtain ⟨a, b⟩ := q
  obtain ⟨hwin, hopt⟩ := (hall.hull d hd a b).mp hq
  refine (hK.hull e he a b).mpr ⟨hwin, fun c hc => ?_⟩
  rw [hsame a b]
  exact hopt c (hsub c hc)

theorem hull_swap (l : List (ℝ × ℝ)) (x y : ℝ) :
    (x, y) ∈ convexHull ℝ {q | q ∈ l.map Prod.swap} ↔ (y, x) ∈ convexHull ℝ {q | q ∈ l} := by
  let f : (ℝ × ℝ) →ₗ[ℝ] (ℝ × ℝ) := (LinearMap.snd ℝ ℝ ℝ).prod (LinearMap.fst ℝ ℝ ℝ)
  have hf : ∀ p, f p = Prod.swap p := fun p => rfl
  have himg : {q | q ∈ l.map Prod.swap} = f '' {q | q ∈ l} := by
    ext q
    simp only [Set.mem_ofPred_eq, List.mem_map, Set.mem_image, hf]
  rw [himg, ← LinearMap.image_convexHull]
  constructor
  · rintro ⟨p, hp, hpq⟩
    rw [hf] at hpq
    have : p = (y, x) := by rw [← Prod.swap_swap p, hpq]; rfl
    rwa [← this]
  · intro h
    exact ⟨_, h, rfl⟩

variable {test : Graph ℝ → Bool} {fsolve : (ℝ → ℝ) → ℝ → ℝ} {model : String} {W : Window} {cand : List Nat → Prop}
  {ds : List (List (ℝ × ℝ) × List Nat × Option (Fl ℝ) × ℝ)}
  {C : Type} [LinearOrder C] {palette : Nat → Nat → C} {shuffle : List C → List C} {pick : Nat → Nat}

/-- What figure 5.4, 5.6 or 5.8 shows: the polygons of the domains `ds` with coupling on the horizontal and resolution on the vertical
axis, in order, and the arrows to their estimates. -/
structure Shows (xlim ylim : ℝ × ℝ) (Gi Gx : Graph ℝ) (layers : List Nat) (W : Window) (cand : List Nat → Prop)
    (ds : List (List (ℝ × ℝ) × List Nat × Option (Fl ℝ) × Option (Fl ℝ))) (plot : EstimatePlot C) : Prop where
  polygons : plot.domains.patches.length = ds.length
  region : ∀ (i : Nat) d patch, ds[i]? = some d → plot.domains.patches[i]? = some patch → ∀ x y,
    (x, y) ∈ convexHull ℝ {q | q ∈ patch} ↔ OptimalIn Gi Gx layers W cand d.2.1 y x
  arrows : ∃ arrow : List (ℝ × ℝ) × List Nat × Option (Fl ℝ) × Option (Fl ℝ) → Option Arrow, plot.arrows = ds.filterMap arrow ∧
    ∀ d ∈ ds, ∀ a, arrow d = some a ↔ ArrowOf xlim ylim d.1 d.2.2.1 d.2.2.2 a

theorem shows_of (hsh : ∀ l, (shuffle l).Perm l) {xlim ylim : ℝ × ℝ} {points : Bool} {es : List (DomainEstimate Nat)} {plot : EstimatePlot C}
    (hpoly : ∀ d ∈ es, d.1 ≠ [])
    (hhull : ∀ d ∈ es, ∀ γ ω, (γ, ω) ∈ convexHull ℝ {q | q ∈ d.1} ↔ OptimalIn Gi Gx layers W cand d.2.1 γ ω)
    (h : plotDomainsWithEstimates palette shuffle pick xlim ylim points true (plotted es) = .ok plot) :
    Shows xlim ylim Gi Gx layers W cand es plot := by
  obtain ⟨⟨arrow, ha, hspec⟩, -, hdom⟩ := c66_arrows (by
    intro d hd
    obtain ⟨d', hd', rfl⟩ := List.mem_map.mp hd
    exact hpoly d' hd') h
  obtain ⟨hpat, -⟩ := c59_adjacent_domains_differ hsh hdom
  have hpat' : plot.domains.patches = es.map fun d => d.1.map Prod.swap := by
    rw [hpat]; simp [plotted, Function.comp_def]
  refine ⟨by rw [hpat', List.length_map], ?_, ?_⟩
  · intro i d patch hd hp x y
    rw [hpat', List.getElem?_map, hd] at hp
    obtain rfl := Option.some.inj hp
    dsimp only
    rw [hull_swap]
    exact hhull d (List.mem_of_getElem? hd) y x
  · refine ⟨fun d => arrow (d.1, d.2.1.map Int.ofNat, d.2.2), ?_, ?_⟩
    · rw [ha, plotted, List.filterMap_map]; rfl
    · intro d hd a
      exact hspec _ (List.mem_map.mpr ⟨d, hd, rfl⟩) a

theorem shows_iff {xlim ylim : ℝ × ℝ} {es : List (DomainEstimate Nat)} {plot : EstimatePlot C}
    (hS : Shows xlim ylim Gi Gx layers W cand es plot) (x y : ℝ) :
    (∃ patch ∈ plot.domains.patches, (x, y) ∈ convexHull ℝ {q | q ∈ patch}) ↔ ∃ e ∈ es, OptimalIn Gi Gx layers W cand e.2.1 y x := by
  constructor
  · rintro ⟨patch, hp, hq⟩
    obtain ⟨i, hi⟩ := List.mem_iff_getElem?.mp hp
    have hi' := (List.getElem?_eq_some_iff.mp hi).1
    rw [hS.polygons] at hi'
    exact ⟨_, List.getElem_mem hi', (hS.region i _ _ (List.getElem?_eq_getElem hi') hi x y).mp hq⟩
  · rintro ⟨e, he, hopt⟩
    obtain ⟨i, hi⟩ := List.mem_iff_getElem?.mp he
    have hi' : i < plot.domains.patches.length := by
      rw [hS.polygons]; exact (List.getElem?_eq_some_iff.mp hi).1
    exact ⟨_, List.getElem_mem hi', (hS.region i _ _ hi (List.getElem?_eq_getElem hi') x y).mpr hopt⟩

theorem polygon_ne (hD : DomainsOf test fsolve Gi Gx layers model W cand ds) : ∀ d ∈ ds, d.1 ≠ [] := by
  rintro d hd h0
  have := (hD.polygon d hd).1
  rw [h0] at this
  simp at this

/-- **C113 (figures 5.4 and 5.6).** If the plot is drawn, its polygons are, in order, the regions of the domains – a point of the plane
belongs to polygon `i` iff it lies in the window and partition `i` is best for the coupling on the horizontal and the resolution on the
vertical axis – and its arrows those of `ArrowOf` for the windows of the figure. -/
theorem c113_easy_figure (hsh : ∀ l, (shuffle l).Perm l) (hD : DomainsOf test fsolve Gi Gx layers model W cand ds) {plot : EstimatePlot C}
    (h : easyFigure palette shuffle pick ds = .ok plot) :
    Shows (4 / 10, 16 / 10) (6 / 10, 145 / 100) Gi Gx layers W cand (ds.map fun d => (d.1, d.2.1, d.2.2.1, some (.fin d.2.2.2))) plot := by
  refine shows_of hsh ?_ ?_ h
  · intro d hd
    obtain ⟨d', hd', rfl⟩ := List.mem_map.mp hd
    exact polygon_ne hD d' hd'
  · intro d hd
    obtain ⟨d', hd', rfl⟩ := List.mem_map.mp hd
    exact hD.hull d' hd'

/-- **C113.** The figure has no gap: with at least one candidate, every point of `[0.4, 1.6] × [0.6, 1.45]` lies in a polygon drawn. -/
theorem c113_easy_no_gap (hsh : ∀ l, (shuffle l).Perm l) (hD : DomainsOf test fsolve Gi Gx layers model ⟨0, 2, 0, 2⟩ cand ds) {plot : EstimatePlot C}
    (h : easyFigure palette shuffle pick ds = .ok plot) (hc : ∃ c, cand c) {x y : ℝ} (hx : 4 / 10 ≤ x ∧ x ≤ 16 / 10)
    (hy : 6 / 10 ≤ y ∧ y ≤ 145 / 100) : ∃ patch ∈ plot.domains.patches, (x, y) ∈ convexHull ℝ {q | q ∈ patch} := by
  have hS := c113_easy_figure hsh hD h
  obtain ⟨d, hd, hopt⟩ := hD.cover hc y x ⟨⟨by linarith [hy.1], by linarith [hy.2]⟩, by linarith [hx.1], by linarith [hx.2]⟩
  exact (shows_iff hS x y).mpr ⟨_, List.mem_map.mpr ⟨d, hd, rfl⟩, hopt⟩

/-- The domains with a gamma estimate, their omega estimate cut off below 3. -/
theorem truncate_mem {slack : ℝ} {e : DomainEstimate Nat} : e ∈ lazegaTruncate slack ds ↔
    ∃ d ∈ ds, ∃ g, d.2.2.1 = some g ∧ e = (d.1, d.2.1, some g, some (.fin (min d.2.2.2 (3 - slack)))) := by
  unfold lazegaTruncate
  rw [List.mem_filterMap]
  refine exists_congr fun d => and_congr Iff.rfl ?_
  cases hg : d.2.2.1 with
  | none => simp
  | some g => simp [eq_comm]

/-- **C113 (figure 5.8, left).** The polygons are the regions of the domains that have a gamma estimate; omega estimates from 2.999 on are drawn at
2.999. -/
theorem c113_lazega_figure (hsh : ∀ l, (shuffle l).Perm l) (hD : DomainsOf test fsolve Gi Gx layers model W cand ds) {plot : EstimatePlot C}
    (h : lazegaFigure palette shuffle pick ds = .ok plot) :
    Shows (4 / 10, 3) (8 / 10, 1275 / 1000) Gi Gx layers W cand
      (ds.filterMap fun d => d.2.2.1.map fun g => (d.1, d.2.1, some g, some (.fin (min d.2.2.2 (2999 / 1000))))) plot := by
  have he : lazegaTruncate (1 / 1000) ds =
      ds.filterMap fun d => d.2.2.1.map fun g => (d.1, d.2.1, some g, some (Fl.fin (min d.2.2.2 (2999 / 1000)))) := by
    unfold lazegaTruncate
    congr 1
    funext d
    have : (3 - 1 / 1000 : ℝ) = 2999 / 1000 := by norm_num
    cases d.2.2.1 with
    | none => rfl
    | some g => simp only [this, Option.map_some]
  rw [← he]
  refine shows_of hsh ?_ ?_ h
  · intro e hm
    obtain ⟨d, hd, g, -, rfl⟩ := truncate_mem.mp hm
    exact polygon_ne hD d hd
  · intro e hm
    obtain ⟨d, hd, g, -, rfl⟩ := truncate_mem.mp hm
    exact hD.hull d hd

theorem no_other_domain (hD : DomainsOf test fsolve Gi Gx layers model W cand ds) {d e : List (ℝ × ℝ) × List Nat × Option (Fl ℝ) × ℝ} (hd : d ∈ ds) (hed : e ∈ ds)
    (hne : d ≠ e) {γ ω : ℝ} (hb : BestInside Gi Gx layers cand W d.2.1 γ ω)
    (hopt : OptimalIn Gi Gx layers W cand e.2.1 γ ω) : False := by
  have hdist : ¬ SameMultilayer Gi Gx layers e.2.1 d.2.1 := by
    intro hsame
    obtain ⟨i, hi⟩ := List.mem_iff_getElem.mp hd
    obtain ⟨j, hj⟩ := List.mem_iff_getElem.mp hed
    obtain ⟨hi, rfl⟩ := hi
    obtain ⟨hj, rfl⟩ := hj
    have hpw := List.pairwise_iff_getElem.mp hD.distinct
    rcases Nat.lt_trichotomy i j with hij | rfl | hij
    · exact hpw i j hi hj hij fun a b => (hsame a b).symm
    · exact hne rfl
    · exact hpw j i hj hi hij hsame
  exact absurd (hopt.2 d.2.1 (hD.isCandidate d hd)) (not_le.mpr (hb.2 e.2.1 (hD.isCandidate e hed) hdist))

/-- **C113 (the gap of figure 5.8).** A point of the plane lies in a polygon of the figure iff it is in the window and some partition
with a gamma estimate is best there.  In particular the inside of the domain of a partition whose gamma estimate is `None` stays blank. -/
theorem c113_lazega_gap (hsh : ∀ l, (shuffle l).Perm l) (hD : DomainsOf test fsolve Gi Gx layers model W cand ds) {plot : EstimatePlot C}
    (h : lazegaFigure palette shuffle pick ds = .ok plot) :
    (∀ x y, (∃ patch ∈ plot.domains.patches, (x, y) ∈ convexHull ℝ {q | q ∈ patch}) ↔
      ∃ d ∈ ds, d.2.2.1 ≠ none ∧ OptimalIn Gi Gx layers W cand d.2.1 y x) ∧
    ∀ d ∈ ds, d.2.2.1 = none → ∀ γ ω, BestInside Gi Gx layers cand W d.2.1 γ ω →
      ∀ patch ∈ plot.domains.patches, (ω, γ) ∉ convexHull ℝ {q | q ∈ patch} := by
  have hS := c113_lazega_figure hsh hD h
  have hiff : ∀ x y, (∃ patch ∈ plot.domains.patches, (x, y) ∈ convexHull ℝ {q | q ∈ patch}) ↔
      ∃ d ∈ ds, d.2.2.1 ≠ none ∧ OptimalIn Gi Gx layers W cand d.2.1 y x := by
    intro x y
    rw [shows_iff hS x y]
    constructor
    · rintro ⟨e, he, hopt⟩
      obtain ⟨d, hd, hde⟩ := List.mem_filterMap.mp he
      obtain ⟨g, hg, hge⟩ := Option.map_eq_some_iff.mp hde
      rw [← hge] at hopt
      exact ⟨d, hd, by rw [hg]; simp, hopt⟩
    · rintro ⟨d, hd, hg, hopt⟩
      obtain ⟨g, hg⟩ := Option.ne_none_iff_exists'.mp hg
      exact ⟨_, List.mem_filterMap.mpr ⟨d, hd, Option.map_eq_some_iff.mpr ⟨g, hg, rfl⟩⟩, hopt⟩
  refine ⟨hiff, fun d hd hnone γ ω hb patch hp hq => ?_⟩
  obtain ⟨e, hed, hg, hopt⟩ := (hiff ω γ).mp ⟨patch, hp, hq⟩
  exact no_other_domain hD hd hed (fun hde => hg (hde ▸ hnone)) hb hopt

/-- **C113 (which estimates are missing).** If no edge joins two communities – in particular for one community – and no edge two layers,
the gamma estimate is `None` in both models whenever there is one. -/
theorem c113_no_estimate (hG : Gi.WF) (hsane : SaneTest test Gi) (hl : layers.length = Gi.vcount)
    (hx : ∀ e ∈ Gi.edges, layers[e.1]? = layers[e.2]?) {c : List Nat} (hc : ∀ e ∈ Gi.edges, c[e.1]? = c[e.2]?) {ωmax : ℝ}
    {g : Option (Fl ℝ)} {ω : ℝ} {G' : Graph ℝ} (h : gammaOmegaEstimate test fsolve Gi Gx layers c ωmax model = .ok ((g, ω), G')) :
    g = none := by
  simp only [gammaOmegaEstimate_def] at h
  obtain ⟨T, h1, h⟩ := Py.bind_ok' h
  obtain ⟨m, h2, h⟩ := Py.bind_ok' h
  obtain ⟨G₁, h3, h⟩ := Py.bind_ok' h
  obtain ⟨⟨a, b, p, K⟩, h4, h⟩ := Py.bind_ok' h
  obtain ⟨u, h5, h⟩ := Py.bind_ok' h
  obtain ⟨w, h6, h⟩ := Py.bind_ok' h
  obtain ⟨h7, -⟩ := Prod.mk.inj (Except.ok.inj h)
  obtain ⟨h8, -⟩ := Prod.mk.inj h7
  rw [← h8]
  refine (c27_degenerate_estimates a b).1.mpr (Or.inr ?_)
  unfold leidenPartWithMembership at h2
  split at h2
  · rename_i hlen
    obtain rfl := Except.ok.inj h2
    rw [ensureWeight_ecount] at h3
    obtain rfl := Except.ok.inj h3
    obtain ⟨⟨l₀, hl₀, hT⟩, hbelow⟩ := countLayers_layerCount h1
    obtain ⟨ws, hws⟩ := defaulted_weight hsane
    have hE : (defaulted test Gi).edges = Gi.edges := by unfold defaulted; split <;> rfl
    have hV : (defaulted test Gi).vcount = Gi.vcount := by unfold defaulted; split <;> rfl
    have hwf : (defaulted test Gi).WF := defaulted_wf hG
    rw [estimateMultilayerSBM_eq fsolve hwf (by rw [hV]; exact hl) (by rw [hV]; exact hlen) hws model (T := T)
      hbelow (by omega)] at h4
    obtain ⟨⟨θin, θout⟩, ht, h4⟩ := Py.bind_ok' h4
    obtain ⟨pf, -, h4⟩ := Py.bind_ok' h4
    obtain ⟨pers, -, h4⟩ := Py.bind_ok' h4
    have hb : θout = b := congrArg (fun r => r.2.1) (Except.ok.inj h4)
    rw [← hb]
    have hMI : ∀ t, layerMIn ((defaulted test Gi).edges.zip ws) layers c t = layerM ((defaulted test Gi).edges.zip ws) layers t := by
      intro t
      unfold layerMIn layerM wInside wTotal
      rw [hE, List.filter_eq_self.mpr (fun e he => decide_eq_true (hx e.1 (List.of_mem_zip he).1))]
      congr 1
      refine List.map_congr_left fun e he => ?_
      have he' : e ∈ Gi.edges.zip ws := (List.mem_filter.mp he).1
      rw [if_pos (hc e.1 (List.of_mem_zip he').1)]
    unfold thetas at ht
    split at ht
    · cases ht
    · split at ht
      · cases ht
      · have := congrArg Prod.snd (Except.ok.inj ht)
        simp only [hMI, sub_self, Finset.sum_const_zero, zero_div, ite_self] at this
        exact this.symm
  · cases h2

open Classical in
/-- **C113 (scores and numbers of communities).** The figure with scores draws the domains that have a corner in
`[0.4, 1.6] × [0.6, 1.45]`, each with the score of its partition against the planted one, and the colour scale reaches 1; the figure with
numbers of communities draws the same domains with the numbers, the scale ending at the largest one shown.  Figure 5.7 draws the domains
with a gamma estimate and a corner in `[0.4, 3] × [0.8, 1.275]`, numbers above 5 counting as 5. -/
theorem c113_values (ds : List (List (ℝ × ℝ) × List Nat × Option (Fl ℝ) × ℝ)) :
    (∀ ami truth polys values, easyAmi ami truth ds = .ok (polys, values) →
      polys = (ds.filter fun d => decide (HasVertexIn (4 / 10, 16 / 10) (6 / 10, 145 / 100) d.1)).map (fun d => d.1.map Prod.swap) ∧
      ∃ scores, values = scores ++ [1] ∧ List.Forall₂ (fun d s => ami (d.2.1.map Int.ofNat) (truth.map Int.ofNat) = .ok s)
        (ds.filter fun d => decide (HasVertexIn (4 / 10, 16 / 10) (6 / 10, 145 / 100) d.1)) scores) ∧
    (∀ polys values most, easyKs ds = .ok (polys, values, most) →
      polys = (ds.filter fun d => decide (HasVertexIn (4 / 10, 16 / 10) (6 / 10, 145 / 100) d.1)).map (fun d => d.1.map Prod.swap) ∧
      List.Forall₂ (fun d K => numCommunities (d.2.1.map Int.ofNat) = .ok K)
        (ds.filter fun d => decide (HasVertexIn (4 / 10, 16 / 10) (6 / 10, 145 / 100) d.1)) values ∧
      (∀ K ∈ values, K ≤ most) ∧ most ∈ values) ∧
    ∀ polys values most, lazegaKs ds = .ok (polys, values, most) →
      polys = (ds.filter fun d => decide (d.2.2.1 ≠ none ∧ HasVertexIn (4 / 10, 3) (8 / 10, 1275 / 1000) d.1)).map
        (fun d => d.1.map Prod.swap) ∧
      List.Forall₂ (fun d K => ∃ k, numCommunities (d.2.1.map Int.ofNat) = .ok k ∧ K = min k 5)
        (ds.filter fun d => decide (d.2.2.1 ≠ none ∧ HasVertexIn (4 / 10, 3) (8 / 10, 1275 / 1000) d.1)) values ∧ most = 5 := by
  have hfil : ∀ xlim ylim : ℝ × ℝ, (plotted (estimated ds)).filter (fun d => decide (HasVertexIn xlim ylim d.1)) =
      (ds.filter fun d => decide (HasVertexIn xlim ylim d.1)).map fun d => (d.1, d.2.1.map Int.ofNat, d.2.2.1, some (Fl.fin d.2.2.2)) := by
    intro xlim ylim
    unfold plotted estimated
    rw [List.map_map, List.filter_map]
    rfl
  have hfil' : ∀ xlim ylim : ℝ × ℝ, (plotted (lazegaTruncate (1 / 1000) ds)).filter (fun d => decide (HasVertexIn xlim ylim d.1)) =
      (ds.filter fun d => decide (d.2.2.1 ≠ none ∧ HasVertexIn xlim ylim d.1)).map fun d =>
        (d.1, d.2.1.map Int.ofNat, d.2.2.1, some (Fl.fin (min d.2.2.2 (3 - 1 / 1000)))) := by
    intro xlim ylim
    clear hfil
    induction ds with
    | nil => rfl
    | cons d ds ih =>
      obtain ⟨poly, m, g, ω⟩ := d
      cases g with
      | none =>
        rw [List.filter_cons_of_neg (by simp)]
        exact ih
      | some g =>
        change ((poly, m.map Int.ofNat, some g, some (Fl.fin (min ω (3 - 1 / 1000)))) :: plotted (lazegaTruncate (1 / 1000) ds)).filter _ = _
        by_cases hv : HasVertexIn xlim ylim poly
        · rw [List.filter_cons_of_pos (by simpa using hv), List.filter_cons_of_pos (by simpa using hv), List.map_cons, ih]
        · rw [List.filter_cons_of_neg (by simpa using hv), List.filter_cons_of_neg (by simpa using hv)]
          exact ih
  refine ⟨fun ami truth polys values h => ?_, fun polys values most h => ?_, fun polys values most h => ?_⟩
  · obtain ⟨h1, scores, h2, h3⟩ := c67_ami_partial h
    rw [hfil, List.map_map] at h1
    rw [hfil, List.forall₂_map_left_iff] at h3
    exact ⟨h1, scores, h2, h3⟩
  · obtain ⟨h1, h2, h3, -, h5⟩ := c67_num_communities_partial h
    rw [hfil, List.map_map] at h1
    rw [hfil, List.forall₂_map_left_iff] at h2
    exact ⟨h1, h2.imp fun d K ⟨k, hk, _, hK⟩ => by rw [hK rfl]; exact hk, h3, h5 rfl⟩
  · obtain ⟨h1, h2, -, h4, -⟩ := c67_num_communities_partial h
    rw [hfil', List.map_map] at h1
    rw [hfil', List.forall₂_map_left_iff] at h2
    exact ⟨h1, h2.imp fun d K ⟨k, hk, hK, _⟩ => ⟨k, hk, hK 5 rfl⟩, h4 5 rfl⟩

/-- **C113 (markers of figure 5.8).** `ds` being the domains of the partitions with `K` communities: a marker is drawn at
`(min omega 2.99, gamma)` for each domain whose gamma estimate is a number if that point is inside the domain, and at `(…, nan)` for each
domain whose gamma estimate is NaN; no others. -/
theorem c113_markers (hD : DomainsOf test fsolve Gi Gx layers model W cand ds) (m : Option (Fl ℝ) × Option (Fl ℝ)) :
    m ∈ lazegaMarkers ds ↔ ∃ d ∈ ds,
      (∃ γ, d.2.2.1 = some (.fin γ) ∧ m = (some (.fin (min d.2.2.2 (299 / 100))), some (.fin γ)) ∧
        BestInside Gi Gx layers cand W d.2.1 γ (min d.2.2.2 (299 / 100))) ∨
      d.2.2.1 = some .nan ∧ m = (some (.fin (min d.2.2.2 (299 / 100))), some .nan) := by
  have h299 : (3 - 1 / 100 : ℝ) = 299 / 100 := by norm_num
  unfold lazegaMarkers
  rw [List.mem_map]
  have hst : ∀ e : DomainEstimate Nat, e ∈ stableDomains (lazegaTruncate (1 / 100) ds) ↔
      e ∈ lazegaTruncate (1 / 100) ds ∧ stablePartitions3D [e] = [e.2.1] := by
    intro e
    obtain ⟨poly, m, g, o⟩ := e
    unfold stablePartitions3D stableDomains
    rw [List.mem_filter, List.filter_cons]
    cases g with
    | none => simp
    | some g =>
      cases o with
      | none => simp
      | some o => by_cases hb : sameSideOfAllEdges poly g o = true <;> simp [hb]
  constructor
  · rintro ⟨e, he, rfl⟩
    obtain ⟨he, hs⟩ := (hst e).mp he
    obtain ⟨d, hd, g, hg, rfl⟩ := truncate_mem.mp he
    obtain ⟨G', hest⟩ := hD.estimates d hd
    rw [hg] at hest
    refine ⟨d, hd, ?_⟩
    dsimp only at hs ⊢
    rw [h299] at hs ⊢
    rcases gammaOmegaEstimate_kind hest with rfl | ⟨γ, rfl⟩
    · exact Or.inr ⟨hg, rfl⟩
    · refine Or.inl ⟨γ, hg, rfl, (hD.interior d hd _ _).mp ?_⟩
      by_contra hn
      obtain ⟨p1, p2, p3⟩ := hD.polygon d hd
      rw [(c36_point_in_polygon ⟨p1, p2, Or.inl p3⟩ _ _ _).2 hn] at hs
      cases hs
  · rintro ⟨d, hd, ⟨γ, hg, rfl, hb⟩ | ⟨hg, rfl⟩⟩
    · refine ⟨_, (hst _).mpr ⟨truncate_mem.mpr ⟨d, hd, _, hg, rfl⟩, ?_⟩, by rw [h299]⟩
      obtain ⟨p1, p2, p3⟩ := hD.polygon d hd
      rw [h299]
      exact (c36_point_in_polygon ⟨p1, p2, Or.inl p3⟩ _ _ _).1 ((hD.interior d hd _ _).mpr hb)
    · refine ⟨_, (hst _).mpr ⟨truncate_mem.mpr ⟨d, hd, _, hg, rfl⟩, ?_⟩, by rw [h299]⟩
      exact c37_nan_is_stable _ _ _ _ (Or.inl rfl)

theorem mem_stableDomains {es : List (DomainEstimate Nat)} {e : DomainEstimate Nat} : e ∈ stableDomains es ↔
    e ∈ es ∧ stablePartitions3D [e] = [e.2.1] := by
  obtain ⟨poly, m, g, o⟩ := e
  unfold stablePartitions3D stableDomains
  rw [List.mem_filter, List.filter_cons]
  cases g with
  | none => simp
  | some g =>
    cases o with
    | none => simp
    | some o => by_cases hb : sameSideOfAllEdges poly g o = true <;> simp [hb]

/-- The gamma estimate of the domain is a number and the point of its estimates, omega at most `top`, is inside the domain; or the gamma
estimate is NaN. -/
def CountsAsStable (Gi Gx : Graph ℝ) (layers : List Nat) (cand : List Nat → Prop) (W : Window) (top : ℝ)
    (d : List (ℝ × ℝ) × List Nat × Option (Fl ℝ) × ℝ) : Prop :=
  (∃ γ, d.2.2.1 = some (.fin γ) ∧ BestInside Gi Gx layers cand W d.2.1 γ (min d.2.2.2 top)) ∨ d.2.2.1 = some .nan

theorem stable_one (hD : DomainsOf test fsolve Gi Gx layers model W cand ds) {d : List (ℝ × ℝ) × List Nat × Option (Fl ℝ) × ℝ} (hd : d ∈ ds)
    {g : Fl ℝ} (hg : d.2.2.1 = some g) (top : ℝ) :
    stablePartitions3D [((d.1, d.2.1, some g, some (.fin (min d.2.2.2 top))) : DomainEstimate Nat)] = [d.2.1] ↔
      CountsAsStable Gi Gx layers cand W top d := by
  obtain ⟨G', hest⟩ := hD.estimates d hd
  rw [hg] at hest
  obtain ⟨p1, p2, p3⟩ := hD.polygon d hd
  unfold CountsAsStable
  rw [hg]
  rcases gammaOmegaEstimate_kind hest with rfl | ⟨γ, rfl⟩
  · exact ⟨fun _ => Or.inr rfl, fun _ => c37_nan_is_stable _ _ _ _ (Or.inl rfl)⟩
  · constructor
    · intro hs
      refine Or.inl ⟨γ, rfl, (hD.interior d hd _ _).mp ?_⟩
      by_contra hn
      rw [(c36_point_in_polygon ⟨p1, p2, Or.inl p3⟩ _ _ _).2 hn] at hs
      cases hs
    · rintro (⟨γ', he, hb⟩ | h)
      · obtain rfl : γ = γ' := Fl.fin.inj (Option.some.inj he)
        exact (c36_point_in_polygon ⟨p1, p2, Or.inl p3⟩ _ _ _).1 ((hD.interior d hd _ _).mpr hb)
      · cases h

open Classical in
theorem stable_truncated (hD : DomainsOf test fsolve Gi Gx layers model W cand ds) :
    stableDomains (lazegaTruncate (1 / 1000) ds) =
      (ds.filter fun d => decide (CountsAsStable Gi Gx layers cand W (2999 / 1000) d)).map fun d =>
        ((d.1, d.2.1, d.2.2.1, some (.fin (min d.2.2.2 (2999 / 1000)))) : DomainEstimate Nat) := by
  have h299 : (3 - 1 / 1000 : ℝ) = 2999 / 1000 := by norm_num
  have hone : ∀ d ∈ ds, ∀ g, d.2.2.1 = some g →
      (stablePartitions3D [((d.1, d.2.1, some g, some (.fin (min d.2.2.2 (2999 / 1000)))) : DomainEstimate Nat)] = [d.2.1] ↔
        CountsAsStable Gi Gx layers cand W (2999 / 1000) d) := fun d hd g hg => stable_one hD hd hg _
  clear hD
  induction ds with
  | nil => rfl
  | cons d ds ih =>
    have ih := ih fun e he => hone e (List.mem_cons_of_mem _ he)
    have h1 := hone d List.mem_cons_self
    obtain ⟨poly, m, g, ω⟩ := d
    cases g with
    | none =>
      have hn : ¬ CountsAsStable Gi Gx layers cand W (2999 / 1000) (poly, m, none, ω) := by
        rintro (⟨_, h, _⟩ | h) <;> cases h
      rw [List.filter_cons_of_neg (by simpa using hn)]
      exact ih
    | some g =>
      have h1 := h1 g rfl
      change stableDomains ((poly, m, some g, some (Fl.fin (min ω (3 - 1 / 1000)))) :: lazegaTruncate (1 / 1000) ds) = _
      rw [h299]
      have hc : ∀ (e : DomainEstimate Nat) es, stableDomains (e :: es) = (if stablePartitions3D [e] = [e.2.1] then [e] else []) ++ stableDomains es := by
        intro e es
        obtain ⟨poly, m, g, o⟩ := e
        unfold stablePartitions3D stableDomains
        rw [List.filter_cons, List.filter_cons]
        cases g with
        | none => simp
        | some g =>
          cases o with
          | none => simp
          | some o => by_cases hb : sameSideOfAllEdges poly g o = true <;> simp [hb]
      rw [hc, ih]
      by_cases hs : CountsAsStable Gi Gx layers cand W (2999 / 1000) (poly, m, some g, ω)
      · rw [if_pos (h1.mpr hs), List.filter_cons_of_pos (by simpa using hs)]
        rfl
      · rw [if_neg (fun h => hs (h1.mp h)), List.filter_cons_of_neg (by simpa using hs)]
        rfl

open Classical in
/-- **C113 (figures of the stable domains).** The right half of figure 5.8 and figure 5.9 show exactly the domains whose gamma estimate is
a number with the point `(gamma, min omega 2.999)` inside the domain, and those whose gamma estimate is NaN; dots at the estimates are
drawn in figure 5.9 only. -/
theorem c113_stable_figures (hsh : ∀ l, (shuffle l).Perm l) (hD : DomainsOf test fsolve Gi Gx layers model W cand ds) :
    (∀ plot, lazegaStableFigure palette shuffle pick ds = .ok plot →
      Shows (4 / 10, 3) (8 / 10, 1275 / 1000) Gi Gx layers W cand
        ((ds.filter fun d => decide (CountsAsStable Gi Gx layers cand W (2999 / 1000) d)).map fun d =>
          (d.1, d.2.1, d.2.2.1, some (.fin (min d.2.2.2 (2999 / 1000))))) plot ∧ plot.points = []) ∧
    ∀ plot, lazegaRestrictedFigure palette shuffle pick ds = .ok plot →
      Shows (4 / 10, 3) (4 / 10, 14 / 10) Gi Gx layers W cand
        ((ds.filter fun d => decide (CountsAsStable Gi Gx layers cand W (2999 / 1000) d)).map fun d =>
          (d.1, d.2.1, d.2.2.1, some (.fin (min d.2.2.2 (2999 / 1000))))) plot ∧ plot.points = plot.arrows.map Arrow.head := by
  have hpoly : ∀ e ∈ (ds.filter fun d => decide (CountsAsStable Gi Gx layers cand W (2999 / 1000) d)).map fun d =>
      ((d.1, d.2.1, d.2.2.1, some (.fin (min d.2.2.2 (2999 / 1000)))) : DomainEstimate Nat), ∃ d ∈ ds, e.1 = d.1 ∧ e.2.1 = d.2.1 := by
    intro e he
    obtain ⟨d, hd, rfl⟩ := List.mem_map.mp he
    exact ⟨d, (List.mem_filter.mp hd).1, rfl, rfl⟩
  have hne : ∀ e ∈ (ds.filter fun d => decide (CountsAsStable Gi Gx layers cand W (2999 / 1000) d)).map fun d =>
      ((d.1, d.2.1, d.2.2.1, some (.fin (min d.2.2.2 (2999 / 1000)))) : DomainEstimate Nat), e.1 ≠ [] := by
    intro e he
    obtain ⟨d, hd, h1, -⟩ := hpoly e he
    rw [h1]; exact polygon_ne hD d hd
  have hhull : ∀ e ∈ (ds.filter fun d => decide (CountsAsStable Gi Gx layers cand W (2999 / 1000) d)).map fun d =>
      ((d.1, d.2.1, d.2.2.1, some (.fin (min d.2.2.2 (2999 / 1000)))) : DomainEstimate Nat),
      ∀ γ ω, (γ, ω) ∈ convexHull ℝ {q | q ∈ e.1} ↔ OptimalIn Gi Gx layers W cand e.2.1 γ ω := by
    intro e he
    obtain ⟨d, hd, h1, h2⟩ := hpoly e he
    rw [h1, h2]; exact hD.hull d hd
  constructor
  · intro plot h
    unfold lazegaStableFigure at h
    rw [stable_truncated hD] at h
    refine ⟨shows_of hsh hne hhull h, ?_⟩
    have := (c66_arrows (by
      intro d hd
      obtain ⟨d', hd', rfl⟩ := List.mem_map.mp hd
      exact hne d' hd') h).2.1
    simpa using this
  · intro plot h
    unfold lazegaRestrictedFigure at h
    rw [stable_truncated hD] at h
    refine ⟨shows_of hsh hne hhull h, ?_⟩
    have := (c66_arrows (by
      intro d hd
      obtain ⟨d', hd', rfl⟩ := List.mem_map.mp hd
      exact hne d' hd') h).2.1
    simpa using this

/-- **C113 (figures 5.4, 5.6 and 5.8 have dots).** At the head of every arrow there is a dot. -/
theorem c113_dots (hD : DomainsOf test fsolve Gi Gx layers model W cand ds) {plot : EstimatePlot C}
    (h : easyFigure palette shuffle pick ds = .ok plot ∨ lazegaFigure palette shuffle pick ds = .ok plot) :
    plot.points = plot.arrows.map Arrow.head := by
  rcases h with h | h
  · have := (c66_arrows (by
      intro d hd
      obtain ⟨d', hd', rfl⟩ := List.mem_map.mp hd
      obtain ⟨d'', hd'', rfl⟩ := List.mem_map.mp hd'
      exact polygon_ne hD d'' hd'') h).2.1
    simpa using this
  · have := (c66_arrows (by
      intro d hd
      obtain ⟨d', hd', rfl⟩ := List.mem_map.mp hd
      obtain ⟨d'', hd'', g, -, rfl⟩ := truncate_mem.mp hd'
      exact polygon_ne hD d'' hd'') h).2.1
    simpa using this

/-- **C113 (the figures of values are drawn).** With nonempty partitions in canonical labels the figure with numbers of communities is
drawn exactly if some domain has a corner in `[0.4, 1.6] × [0.6, 1.45]`, figure 5.7 always; the figure with scores is drawn whenever the
scores can be computed. -/
theorem c113_values_return (hcan : ∀ d ∈ ds, canon d.2.1 = d.2.1 ∧ d.2.1 ≠ []) :
    ((∃ r, easyKs ds = .ok r) ↔ ∃ d ∈ ds, HasVertexIn (4 / 10, 16 / 10) (6 / 10, 145 / 100) d.1) ∧ (∃ r, lazegaKs ds = .ok r) ∧
    ∀ ami truth, (∀ c c', ∃ s, ami c c' = .ok s) → ∃ r, easyAmi ami truth ds = .ok r := by
  have hnum : ∀ d ∈ ds, ∃ k, numCommunities (d.2.1.map Int.ofNat) = .ok k := fun d hd =>
    ⟨_, numCommunities_of_canon (hcan d hd).1 (hcan d hd).2⟩
  refine ⟨⟨?_, ?_⟩, ?_, ?_⟩
  · rintro ⟨⟨polys, values, most⟩, h⟩
    obtain ⟨-, h2, -, -, h5⟩ := c67_num_communities_partial h
    have hm : values ≠ [] := List.ne_nil_of_mem (h5 rfl)
    by_contra hno
    push Not at hno
    refine hm ?_
    rw [List.filter_eq_nil_iff.mpr] at h2
    · exact List.forall₂_nil_left_iff.mp h2
    · intro d hd
      obtain ⟨d', hd', rfl⟩ := List.mem_map.mp hd
      obtain ⟨d'', hd'', rfl⟩ := List.mem_map.mp hd'
      simpa using hno d'' hd''
  · rintro ⟨d, hd, hv⟩
    refine (c67_returns (domains := plotted (estimated ds)) none (fun _ _ => .ok 0) []).2.2.1 ?_
      (Or.inr ⟨_, List.mem_map.mpr ⟨_, List.mem_map.mpr ⟨d, hd, rfl⟩, rfl⟩, hv⟩)
    intro e he _
    obtain ⟨d', hd', rfl⟩ := List.mem_map.mp he
    obtain ⟨d'', hd'', rfl⟩ := List.mem_map.mp hd'
    exact hnum d'' hd''
  · refine (c67_returns (domains := plotted (lazegaTruncate (1 / 1000) ds)) (some 5) (fun _ _ => .ok 0) []).2.2.1 ?_ (Or.inl (by simp))
    intro e he _
    obtain ⟨d', hd', rfl⟩ := List.mem_map.mp he
    obtain ⟨d'', hd'', g, -, rfl⟩ := truncate_mem.mp hd'
    exact hnum d'' hd''
  · intro ami truth hami
    exact (c67_returns (domains := plotted (estimated ds)) none ami (truth.map Int.ofNat)).2.2.2.2 fun d _ _ => hami _ _

/-- **C113 (they return).** With exact LP solving, an undirected intralayer graph with an edge in every layer and partitions of the right
length in canonical labels, the domains are computed, and an exception is one of `gamma_omega_estimate` for a partition found. -/
theorem c113_easy_returns (he : SoundPruneEnv env) (hexact : ExactEnv env.toChampEnv) (hM : Multilayer Gi Gx layers)
    (hd : Gi.directed = false) (hn : layers ≠ []) (hedge : ∀ t ∈ layers, ∃ e ∈ Gi.edges, layers[e.1]? = some t)
    (hlen : ∀ c ∈ parts, c.length = Gi.vcount) (hfa : ∀ c ∈ parts, canon c = c) (restrict : Option Nat) :
    (∃ ds, easyDomains env Gi Gx layers restrict parts = (some (.ok ds) : Option _)) ∨
    ∃ e, easyDomains env Gi Gx layers restrict parts = (some (.error e) : Option _) ∧
      ∃ c, Restricted parts restrict c ∧ gammaOmegaEstimate env.test env.fsolve Gi Gx layers c defaultOmegaMax "temporal" = .error e := by
  have hpos : 0 < Gi.vcount := by
    rw [← hM.layers]; exact List.length_pos_iff.mpr hn
  have hkept : ∃ kept, easyParts env.setOrder restrict parts = .ok kept := by
    rcases restrict with _ | _ | K
    · exact ⟨_, rfl⟩
    · exact ⟨_, rfl⟩
    · refine ⟨_, restrictParts_ok (fun c hc => hfa c ((he.setMem _ _).mp hc)) fun c hc h0 => ?_⟩
      have := hlen c ((he.setMem _ _).mp hc)
      rw [h0] at this
      simp at this
      omega
  obtain ⟨kept, hk⟩ := hkept
  have hmem := easyParts_mem he hfa hk
  have hlen' : ∀ c ∈ kept, c.length = Gi.vcount := fun c hc => hlen c ((hmem c).mp hc).1
  have hch : ∃ doms, champ3D env.toChampEnv Gi Gx layers kept 0 2 0 2 = (some (.ok doms) : Option _) := by
    by_cases h0 : kept = []
    · exact ⟨[], by rw [h0]; rfl⟩
    · exact c21_returns hexact hM hd hn hedge hlen' h0 (by norm_num) (by norm_num)
  obtain ⟨doms, hch⟩ := hch
  have hrun : easyDomains env Gi Gx layers restrict parts = (do
      let ests ← Run.ofPy (domainsToEstimates env.test env.fsolve Gx layers "temporal" Gi doms)
      return ests.1 : Run _) := by
    unfold easyDomains
    rw [hk]
    change (champ3D env.toChampEnv Gi Gx layers kept 0 2 0 2 >>= _) = _
    rw [hch]
    rfl
  rw [hrun]
  cases hde : domainsToEstimates env.test env.fsolve Gx layers "temporal" Gi doms with
  | ok r => exact Or.inl ⟨r.1, rfl⟩
  | error e =>
    refine Or.inr ⟨e, rfl, ?_⟩
    obtain ⟨d, hdm, hE⟩ := domainsToEstimates_error hde
    exact ⟨d.2, (hmem _).mp (c21_domains_correct he.toSoundEnv hM hlen' hch d hdm).1, hE⟩

/-- **C113 (figure 5.3).** One arrow for every grid point, in order, as in C100, and the estimate of the planted partition in the temporal
model as the point `(omega, gamma)`. -/
theorem c113_iteration_figure {truth : List Nat} {values : List GridValue} {arrows : List (ℝ × ℝ × Fl ℝ × Fl ℝ)} {ω : ℝ}
    {γ : Option (Fl ℝ)} (h : easyIterationFigure test fsolve Gi Gx layers truth values = .ok (arrows, ω, γ)) :
    arrows.length = values.length ∧ (∀ (i : Nat) v, values[i]? = some v → ∃ a, arrows[i]? = some a ∧ a = gridArrow v ∧ a.1 = v.2.1 ∧ a.2.1 = v.1) ∧
    ∃ G', gammaOmegaEstimate test fsolve Gi Gx layers truth defaultOmegaMax "temporal" = .ok ((γ, ω), G') := by
  unfold easyIterationFigure at h
  obtain ⟨⟨⟨γ', ω'⟩, G'⟩, h1, h⟩ := Py.bind_ok' h
  cases h
  refine ⟨List.length_map .., fun i v hv => ⟨gridArrow v, ?_, rfl, rfl, rfl⟩, G', h1⟩
  rw [List.getElem?_map, hv]; rfl

end

/-! ### A concrete case -/

/-- One partition found on the two coupled paths: `{0,1},{2}` in both layers. -/
theorem example_estimate : ∃ G', gammaOmegaEstimate pruneEnv.test pruneEnv.fsolve gIntraR gInterR [0, 0, 0, 1, 1, 1] [0, 0, 1, 0, 0, 1]
    defaultOmegaMax "temporal" = .ok ((some (.fin (logMean (4 / 5) ((8 - 4) / (8 - 5)))), 1000), G') := by
  have hA : withinAdj gIntraR [0, 0, 1, 0, 0, 1] = 4 := by
    simp [withinAdj, gIntraR, adj, Finset.sum_range_succ]; norm_num
  have hX : withinAdj gInterR [0, 0, 1, 0, 0, 1] = 3 := by
    simp [withinAdj, gInterR, adj, Finset.sum_range_succ]; norm_num
  have hP : withinNullLayered gIntraR [0, 0, 0, 1, 1, 1] [0, 0, 1, 0, 0, 1] = 5 := by
    simp [withinNullLayered, gIntraR, adj, rowSum, colSum, layerTotal, Finset.sum_range_succ]; norm_num
  have hec : 2 * (gIntraR.ecount : ℝ) = 8 := by norm_num [gIntraR, Graph.ecount]
  have h : HasEstimates pruneEnv.test pruneEnv.fsolve gIntraR gInterR [0, 0, 0, 1, 1, 1] "temporal" [0, 0, 1, 0, 0, 1]
      (logMean (4 / 5) ((8 - 4) / (8 - 5))) 1000 := by
    rw [c69_has_estimates gIntraR_temporal (fun h => by cases h) rfl, hA, hP, hX, hec]
    have hd : ([0, 0, 1, 0, 0, 1] : List Nat).dedup.length = 2 := by decide
    refine ⟨by norm_num, by norm_num, by norm_num, by norm_num, rfl, ?_⟩
    rw [hd]
    unfold temporalCoupling copying
    norm_num
  obtain ⟨c, G', hc, hE⟩ := h
  have : c = [0, 0, 1, 0, 0, 1] := by
    have h' : sortedTuple ([0, 0, 1, 0, 0, 1] : List Nat) = .ok [0, 0, 1, 0, 0, 1] := by decide
    rw [h'] at hc
    exact (Except.ok.inj hc).symm
  exact ⟨G', this ▸ hE⟩

/-- the domains are computed, and figure 5.4 is drawn -/
example : ∃ ds plot, easyDomains pruneEnv gIntraR gInterR [0, 0, 0, 1, 1, 1] none [[0, 0, 1, 0, 0, 1]] = (some (.ok ds) : Option _) ∧
    DomainsOf pruneEnv.test pruneEnv.fsolve gIntraR gInterR [0, 0, 0, 1, 1, 1] "temporal" ⟨0, 2, 0, 2⟩ (Restricted [[0, 0, 1, 0, 0, 1]] none) ds ∧
    easyFigure set1 List.reverse (fun i => i) ds = .ok plot ∧ ds ≠ [] := by
  have hcan : ∀ c ∈ [[0, 0, 1, 0, 0, 1]], canon c = c := by decide
  have hlen : ∀ c ∈ [[0, 0, 1, 0, 0, 1]], c.length = gIntraR.vcount := by decide
  obtain ⟨ds, h⟩ : ∃ ds, easyDomains pruneEnv gIntraR gInterR [0, 0, 0, 1, 1, 1] none [[0, 0, 1, 0, 0, 1]] = (some (.ok ds) : Option _) := by
    rcases c113_easy_returns (restrict := none) pruneEnv_sound exactEnv_exact gIntraR_multilayer rfl (by simp) (by decide) hlen hcan
      with h | ⟨e, -, c, hc, hE⟩
    · exact h
    · obtain rfl := List.mem_singleton.mp hc.1
      obtain ⟨G', hG⟩ := example_estimate
      rw [hG] at hE
      cases hE
  have hD := c113_easy_domains pruneEnv_sound gIntraR_multilayer hlen hcan h
  have h1 : ds.length ≤ 1 := by
    by_contra hgt
    have h0 : 0 < ds.length := by omega
    have h1 : 1 < ds.length := by omega
    have := List.pairwise_iff_getElem.mp hD.distinct 0 1 h0 h1 (by omega)
    have e0 := List.mem_singleton.mp (hD.isCandidate _ (List.getElem_mem h0)).1
    have e1 := List.mem_singleton.mp (hD.isCandidate _ (List.getElem_mem h1)).1
    exact this fun _ _ => by rw [e0, e1]
  obtain ⟨d, hd, -⟩ := hD.cover ⟨[0, 0, 1, 0, 0, 1], by simp, fun K hK => by cases hK⟩ 1 1 (by norm_num)
  have hplot : ∃ plot, easyFigure set1 List.reverse (fun i => i) ds = .ok plot := by
    unfold easyFigure
    rw [c66_returns.2]
    refine c59_returns fun j e hj => ?_
    have hjl := (List.getElem?_eq_some_iff.mp hj).1
    simp only [plotted, estimated, List.length_map] at hjl
    have hj0 : j = 0 := by omega
    subst hj0
    have hl : ds.length = 1 := by omega
    simp only [plotted, estimated, List.length_map, hl]
    change 0 < ((List.range 1).map (set1 1)).toFinset.card
    decide
  obtain ⟨plot, hp⟩ := hplot
  exact ⟨ds, plot, h, hD, hp, List.ne_nil_of_mem hd⟩

/-- the hypotheses of `c113_values_return`: a domain with a corner in the window, one without -/
example : (∃ r, easyKs [([(1, 1), (2, 1), (2, 2)], [0, 0, 1], none, 1)] = .ok r) ∧
    ¬ ∃ r, easyKs [([(0, 0), (2, 0), (2, 2), (0, 2)], [0, 0, 1], none, 1)] = .ok r := by
  rw [(c113_values_return (by simp; decide)).1, (c113_values_return (by simp; decide)).1]
  constructor
  · exact ⟨_, List.mem_cons_self, (1, 1), by simp, by norm_num⟩
  · rintro ⟨d, hd, q, hq, h⟩
    obtain rfl := List.mem_singleton.mp hd
    simp only [List.mem_cons, List.not_mem_nil, or_false] at hq
    rcases hq with rfl | rfl | rfl | rfl <;> norm_num at h

/-- one community on the two coupled paths: the hypotheses of `c113_no_estimate` -/
example : (∀ e ∈ gIntraR.edges, ([0, 0, 0, 1, 1, 1] : List Nat)[e.1]? = [0, 0, 0, 1, 1, 1][e.2]?) ∧
    ∀ e ∈ gIntraR.edges, ([0, 0, 0, 0, 0, 0] : List Nat)[e.1]? = [0, 0, 0, 0, 0, 0][e.2]? := by decide

end Verif.Props
