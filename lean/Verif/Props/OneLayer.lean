import Mathlib.Analysis.Convex.Strict.Extreme
import Verif.Props.Renumber

/-!
# C81: CHAMP_3D on a single layer without coupling is CHAMP_2D
-/

set_option linter.unusedSectionVars false

namespace Verif.Props
open Verif Verif.Spec

variable {F : Type} [Field F] {α : Type} [DecidableEq α]

theorem adj_edgeless {G : Graph F} (h : G.edges = []) (i j : Nat) : adj G i j = 0 := by
  unfold adj; rw [h]; simp

theorem withinAdj_edgeless {G : Graph F} (h : G.edges = []) (c : List α) : withinAdj G c = 0 := by
  unfold withinAdj
  simp [adj_edgeless h]

theorem withinNullLayered_oneLayer {G : Graph F} {layer : List Nat} {t : Nat} (hl : layer = List.replicate G.vcount t)
    (c : List α) : withinNullLayered G layer c = withinNull G c := by
  have hi : ∀ i, i < G.vcount → layer[i]? = some t := by
    intro i hi
    rw [hl, List.getElem?_replicate, if_pos hi]
  have ht : layerTotal G layer t = total G := by
    unfold layerTotal total
    refine Finset.sum_congr rfl fun i h => Finset.sum_congr rfl fun j _ => ?_
    rw [if_pos (hi i (Finset.mem_range.mp h))]
  unfold withinNullLayered withinNull
  refine Finset.sum_congr rfl fun i h => Finset.sum_congr rfl fun j h' => ?_
  rw [hi i (Finset.mem_range.mp h), hi j (Finset.mem_range.mp h')]
  simp only [and_true, Option.getD_some, ht]

/-- **C81.** With one layer and no coupling, multilayer modularity is modularity, whatever `ω`. -/
theorem c81_modularity {G Gx : Graph ℝ} {layer : List Nat} {t : Nat} (hl : layer = List.replicate G.vcount t)
    (hx : Gx.edges = []) (γ ω : ℝ) (c : List α) : multilayerModularity G Gx layer γ ω c = modularity G γ c := by
  unfold multilayerModularity
  rw [withinAdj_edgeless hx, withinNullLayered_oneLayer hl, modularity_affine]
  ring

/-- the corners of a rectangle are its extreme points -/
theorem rect_extreme {a b c d : ℝ} (hab : a < b) (hcd : c < d) (q : ℝ × ℝ) :
    q ∈ (Set.Icc a b ×ˢ Set.Icc c d).extremePoints ℝ ↔ q ∈ ({(a, c), (a, d), (b, c), (b, d)} : Set (ℝ × ℝ)) := by
  rw [extremePoints_prod]
  rw [Set.extremePoints_Icc hab.le, Set.extremePoints_Icc hcd.le]
  obtain ⟨x, y⟩ := q
  simp only [Set.mem_prod, Set.mem_insert_iff, Set.mem_singleton_iff, Prod.mk.injEq]
  tauto

section
variable {β : Type} [LinearOrder β] {env env' : ChampEnv} {G Gx : Graph ℝ} {layer : List Nat} {t : Nat} {parts : List (List β)} {γ₀ γf ω₀ ωf : ℝ} {st : Bool}
  {ranges : List (ℝ × ℝ × List β)} {doms : List (List (ℝ × ℝ) × List β)}

/-- **C81.** With one layer and no coupling, `CHAMP_3D` returns as many domains as `CHAMP_2D` returns ranges; every range
`[a, b]` reappears as the rectangle `[a, b] × [omega_0, omega_f]`, given by its four corners, with a partition of the same
modularity at every resolution. -/
theorem c81_one_layer (he : SoundEnv env) (he' : SoundEnv env') (hM : Multilayer G Gx layer)
    (hl : layer = List.replicate G.vcount t) (hx : Gx.edges = []) (hp : ∀ c ∈ parts, c.length = G.vcount)
    (hr : champ2D env G parts γ₀ γf st = (some (.ok ranges) : Option _))
    (hd : champ3D env' G Gx layer parts γ₀ γf ω₀ ωf = (some (.ok doms) : Option _)) :
    doms.length = ranges.length ∧
    (∀ r ∈ ranges, ∃ d ∈ doms, (d.1.Perm [(r.1, ω₀), (r.1, ωf), (r.2.1, ω₀), (r.2.1, ωf)]) ∧ Clockwise d.1 ∧
      ∀ γ, modularity G γ d.2 = modularity G γ r.2.2) ∧
    ∀ d ∈ doms, ∃ r ∈ ranges, (d.1.Perm [(r.1, ω₀), (r.1, ωf), (r.2.1, ω₀), (r.2.1, ωf)]) ∧ Clockwise d.1 ∧
      ∀ γ, modularity G γ d.2 = modularity G γ r.2.2 := by
  have hmm : ∀ (γ ω : ℝ) (c : List β), multilayerModularity G Gx layer γ ω c = modularity G γ c := c81_modularity hl hx
  have hG := hM.intra
  -- the shape of a domain of a partition with the modularity of a range
  have shape : ∀ r ∈ ranges, ∀ d ∈ doms, (∀ γ, modularity G γ d.2 = modularity G γ r.2.2) →
      d.1.Perm [(r.1, ω₀), (r.1, ωf), (r.2.1, ω₀), (r.2.1, ωf)] ∧ Clockwise d.1 := by
    intro r hrm d hdm hs
    obtain ⟨r1, r2, r3, -, riff⟩ := c17_ranges_correct he hG hp hr r hrm
    obtain ⟨-, -, diff⟩ := c21_domains_correct he' hM hp hd d hdm
    obtain ⟨h3, hnd, hcw, hext⟩ := c23_boundary_order he' hM hp hd d hdm
    have hhull : convexHull ℝ {q | q ∈ d.1} = Set.Icc r.1 r.2.1 ×ˢ Set.Icc ω₀ ωf := by
      ext q
      rw [diff]
      simp only [hmm, hs]
      rw [Set.mem_prod, Set.mem_Icc, Set.mem_Icc, riff]
      tauto
    obtain ⟨⟨γ, ω⟩, hin⟩ := (c22_domains_disjoint he' hM hp hd).2.2.2 d hdm
    obtain ⟨⟨-, b1, b2⟩, -⟩ := (domain_interior he' hM hp hd hdm γ ω).mp hin
    have hω : ω₀ < ωf := b1.trans b2
    have hsub : (convexHull ℝ {q | q ∈ d.1}).extremePoints ℝ ⊆ {q | q ∈ d.1} := extremePoints_convexHull_subset
    have hmem : ∀ q, q ∈ d.1 ↔ q ∈ [(r.1, ω₀), (r.1, ωf), (r.2.1, ω₀), (r.2.1, ωf)] := by
      intro q
      have hiff := rect_extreme r2 hω q
      rw [← hhull] at hiff
      simp only [Set.mem_insert_iff, Set.mem_singleton_iff] at hiff
      simp only [List.mem_cons, List.not_mem_nil, or_false]
      rw [← hiff]
      exact ⟨fun h => hext q h, fun h => hsub h⟩
    refine ⟨(List.perm_ext_iff_of_nodup hnd ?_).mpr hmem, hcw⟩
    rw [List.nodup_cons, List.nodup_cons, List.nodup_cons]
    simp only [List.mem_cons, Prod.mk.injEq, List.not_mem_nil, or_false, not_or, not_and]
    refine ⟨⟨fun _ => hω.ne, fun h => absurd h r2.ne, fun h => absurd h r2.ne⟩, ⟨fun h => absurd h r2.ne,
      fun h => absurd h r2.ne⟩, fun _ => hω.ne, List.nodup_singleton _⟩
  have fwd : ∀ r ∈ ranges, ∃ d ∈ doms, ∀ γ, modularity G γ d.2 = modularity G γ r.2.2 := by
    intro r hrm
    obtain ⟨r1, r2, r3, r4, riff⟩ := c17_ranges_correct he hG hp hr r hrm
    have hstrict := c20_returned_strictly_optimal he hG hp hr r hrm ((r.1 + r.2.1) / 2) (by linarith) (by linarith)
    have hω : ω₀ < ωf := by
      obtain ⟨⟨-, h⟩, -⟩ := champ3D_facts he' hM hp (List.ne_nil_of_mem r4) hd
      exact h
    obtain ⟨d, hdm, -, hs⟩ := c22_strictly_optimal_returned he' hM hp hd r4 (γ := (r.1 + r.2.1) / 2) (ω := ω₀)
      ⟨by linarith, by linarith⟩ ⟨le_rfl, hω.le⟩ (by
        rintro c hc ⟨γ', ω', hne⟩
        rw [hmm, hmm] at hne ⊢
        exact hstrict c hc ⟨γ', hne⟩)
    exact ⟨d, hdm, fun γ => by have := hs γ 0; rwa [hmm, hmm] at this⟩
  have bwd : ∀ d ∈ doms, ∃ r ∈ ranges, ∀ γ, modularity G γ d.2 = modularity G γ r.2.2 := by
    intro d hdm
    obtain ⟨h1, -, -⟩ := c21_domains_correct he' hM hp hd d hdm
    obtain ⟨⟨γ, ω⟩, hin⟩ := (c22_domains_disjoint he' hM hp hd).2.2.2 d hdm
    obtain ⟨⟨⟨a1, a2⟩, b1, b2⟩, hstrict⟩ := (domain_interior he' hM hp hd hdm γ ω).mp hin
    obtain ⟨r, hrm, -, -, hs⟩ := c20_strictly_optimal_returned he hG hp hr h1 a1.le a2.le (by
      rintro c hc ⟨γ', hne⟩
      have := hstrict c hc (fun hs => hne (by have := hs γ' 0; rwa [hmm, hmm] at this))
      rwa [hmm, hmm] at this)
    exact ⟨r, hrm, fun γ => (hs γ).symm⟩
  refine ⟨le_antisymm ?_ ?_, fun r hrm => ?_, fun d hdm => ?_⟩
  · choose! f hf using bwd
    have hnd : (doms.map f).Nodup := by
      rw [List.Nodup, List.pairwise_map]
      refine (c22_domains_disjoint he' hM hp hd).2.1.imp_of_mem fun {a b} ha hb hne heq => ?_
      obtain ⟨γ, ω, hne⟩ := hne
      rw [hmm, hmm] at hne
      exact hne (by rw [(hf a ha).2, (hf b hb).2, heq])
    have := (hnd.subperm (l₂ := ranges) (fun x hx => by
      obtain ⟨a, ha, rfl⟩ := List.mem_map.mp hx
      exact (hf a ha).1)).length_le
    rwa [List.length_map] at this
  · choose! f hf using fwd
    have hnd : (ranges.map f).Nodup := by
      rw [List.Nodup, List.pairwise_map]
      refine (c20_no_duplicates he hG hp hr).2.imp_of_mem fun {a b} ha hb hne heq => ?_
      obtain ⟨γ, hne⟩ := hne
      exact hne (by rw [← (hf a ha).2, ← (hf b hb).2, heq])
    have := (hnd.subperm (l₂ := doms) (fun x hx => by
      obtain ⟨a, ha, rfl⟩ := List.mem_map.mp hx
      exact (hf a ha).1)).length_le
    rwa [List.length_map] at this
  · obtain ⟨d, hdm, hs⟩ := fwd r hrm
    exact ⟨d, hdm, (shape r hrm d hdm hs).1, (shape r hrm d hdm hs).2, hs⟩
  · obtain ⟨r, hrm, hs⟩ := bwd d hdm
    exact ⟨r, hrm, (shape r hrm d hdm hs).1, (shape r hrm d hdm hs).2, hs⟩

end

section
variable {test : Graph ℝ → Bool} {fsolve : (ℝ → ℝ) → ℝ → ℝ} {Gi Gx : Graph ℝ} {membership : List Nat}

theorem persistence_one_layer {F : Type} [Field F] [LinearOrder F] (model : String) (Gx : Graph F) (layer community : List Nat) (N : Nat)
    (Nt : List Nat) {f : List Nat → Py F}
    (hf : persistenceFunctionFromModel model Gx (some layer) (some N) (some 1) (some Nt) = .ok f) (x : F) :
    f community ≠ .ok x := by
  have hz : ((1 : Nat) : F) - 1 = 0 := by simp
  unfold persistenceFunctionFromModel at hf
  split at hf
  · cases hf
    intro h
    unfold ordinalPersistence at h
    obtain ⟨s, -, h⟩ := Py.bind_ok' h
    rw [hz, mul_zero] at h
    simp [pyDiv] at h
  · split at hf
    · cases hf
      intro h
      unfold multilevelPersistence at h
      obtain ⟨s, -, h⟩ := Py.bind_ok' h
      obtain ⟨s, -, h⟩ := Py.bind_ok' h
      rw [hz] at h
      simp [pyDiv] at h
    · split at hf
      · cases hf
        intro h
        unfold categoricalPersistence at h
        obtain ⟨s, -, h⟩ := Py.bind_ok' h
        rw [hz, mul_zero] at h
        simp [pyDiv] at h
      · cases hf

/-- **C81 (no omega on one layer).** With a single layer `gamma_omega_estimate` never returns: there is no coupling to
estimate, and whatever the graphs, the partition and the model, an exception is raised. -/
theorem c81_no_estimate {n : Nat} (omegaMax : ℝ) (model : String) (x : (Option (Fl ℝ) × ℝ) × Graph ℝ) :
    gammaOmegaEstimate test fsolve Gi Gx (List.replicate n 0) membership omegaMax model ≠ .ok x := by
  intro h
  unfold gammaOmegaEstimate gammaOmegaEstimateWith at h
  obtain ⟨T, hT, h⟩ := Py.bind_ok' h
  obtain rfl : T = 1 := by
    simp only [orCompute, countLayers] at hT
    cases n with
    | zero => simp at hT
    | succ n =>
      rw [List.max?_replicate_of_pos (Nat.succ_pos n)] at hT
      cases hT
      rfl
  obtain ⟨c, -, h⟩ := Py.bind_ok' h
  obtain ⟨G', -, h⟩ := Py.bind_ok' h
  obtain ⟨y, hy, h⟩ := Py.bind_ok' h
  unfold estimateMultilayerSBM at hy
  obtain ⟨T, hT, hy⟩ := Py.bind_ok' hy
  cases hT
  obtain ⟨_, -, hy⟩ := Py.bind_ok' hy
  obtain ⟨_, -, hy⟩ := Py.bind_ok' hy
  obtain ⟨_, -, hy⟩ := Py.bind_ok' hy
  obtain ⟨_, -, hy⟩ := Py.bind_ok' hy
  obtain ⟨_, -, hy⟩ := Py.bind_ok' hy
  obtain ⟨_, -, hy⟩ := Py.bind_ok' hy
  obtain ⟨_, -, hy⟩ := Py.bind_ok' hy
  obtain ⟨_, -, hy⟩ := Py.bind_ok' hy
  obtain ⟨_, -, hy⟩ := Py.bind_ok' hy
  obtain ⟨_, -, hy⟩ := Py.bind_ok' hy
  obtain ⟨_, -, hy⟩ := Py.bind_ok' hy
  obtain ⟨_, -, hy⟩ := Py.bind_ok' hy
  obtain ⟨f, hf, hy⟩ := Py.bind_ok' hy
  obtain ⟨pers, hp, hy⟩ := Py.bind_ok' hy
  exact persistence_one_layer model Gx _ _ _ _ hf _ hp

/-- **C81 (no multilayer pruning on one layer).** With a single layer and at least one candidate
`prune_to_multilayer_stable_partitions` never returns. -/
theorem c81_prune_never_returns {β : Type} [LinearOrder β] {env : PruneEnv} (he : SoundPruneEnv env) {n : Nat}
    (hM : Multilayer Gi Gx (List.replicate n 0)) {model : String} {parts : List (List β)} {p : List β} {restrict : Option Nat}
    (hp : ∀ p ∈ parts, p.length = Gi.vcount) (hc : Candidate parts restrict p) (γ₀ γf ω₀ ωf : ℝ) (st : Bool)
    (x : List (List Nat) × Graph ℝ) :
    pruneToMultilayerStable env Gi Gx (List.replicate n 0) model (.memberships parts) γ₀ γf ω₀ ωf restrict st ≠
      (some (.ok x) : Option _) := by
  obtain ⟨out, G'⟩ := x
  intro h
  obtain ⟨ps, ⟨-, hps⟩, doms, hch, hest, -⟩ := pruneToMultilayerStable_facts he hM hp h
  have hlen : ∀ c ∈ ps, c.length = Gi.vcount := by
    intro c hc
    obtain ⟨p, hpc, rfl⟩ := (hps c).mp hc
    rw [canon_length]; exact hp p hpc.1
  have hne : ps ≠ [] := List.ne_nil_of_mem ((hps _).mpr ⟨p, hc, rfl⟩)
  obtain ⟨⟨h1, h2⟩, -⟩ := champ3D_facts he.toSoundEnv hM hlen hne hch
  obtain ⟨d, hd, -⟩ := c22_domains_cover he.toSoundEnv hM hlen hne hch ⟨le_rfl, h1.le⟩ ⟨le_rfl, h2.le⟩
  obtain ⟨e, hE⟩ := hest d hd
  exact c81_no_estimate _ _ _ hE

end

/-! ### The hypotheses are met -/

/-- Five vertices without any coupling. -/
def gNoCoupling : Graph ℝ := ⟨5, true, [], none⟩

theorem gReal_oneLayer : Multilayer gReal gNoCoupling [0, 0, 0, 0, 0] where
  intra := gReal_wf
  inter := ⟨by decide, by intro ws h; cases h⟩
  vcount := rfl
  layers := rfl
  noCross := Or.inr (by decide)

example : ∃ ranges doms, champ2D exactEnv gReal threeParts 0 3 true = (some (.ok ranges) : Option _) ∧
    champ3D exactEnv gReal gNoCoupling [0, 0, 0, 0, 0] threeParts 0 3 0 2 = (some (.ok doms) : Option _) ∧
    doms.length = ranges.length ∧ ranges ≠ [] := by
  have hp : ∀ c ∈ threeParts, c.length = gReal.vcount := by decide
  obtain ⟨ranges, hr⟩ := c17_returns exactEnv_exact gReal_wf rfl (by decide) hp (by decide) (show (0 : ℝ) < 3 by norm_num) true
  obtain ⟨doms, hd⟩ := c21_returns exactEnv_exact gReal_oneLayer rfl (by decide) (by decide) hp (by decide)
    (show (0 : ℝ) < 3 by norm_num) (show (0 : ℝ) < 2 by norm_num)
  refine ⟨ranges, doms, hr, hd, (c81_one_layer exactEnv_exact.toSoundEnv exactEnv_exact.toSoundEnv gReal_oneLayer (t := 0) rfl
    rfl hp hr hd).1, ?_⟩
  obtain ⟨r, hrm, -⟩ := c18_ranges_cover exactEnv_exact.toSoundEnv gReal_wf hp (by decide) hr (γ := 1) (by norm_num)
    (by norm_num)
  exact List.ne_nil_of_mem hrm

end Verif.Props
