import Verif.Props.Prune3D

/-!
# Property C43: when `prune_to_multilayer_stable_partitions` returns
-/

namespace Verif
open Verif.Spec Verif.Props

variable {α : Type} [LinearOrder α]

theorem run_ofPy_bind {β γ : Type} (a : β) (f : β → Run γ) : ((Run.ofPy (.ok a) : Run β) >>= f) = f a := rfl

theorem domainsToEstimates_error {test : Graph ℝ → Bool} {fsolve : (ℝ → ℝ) → ℝ → ℝ} {Gx : Graph ℝ} {layer : List Nat}
    {model : String} {Gi : Graph ℝ} {doms : List (List (ℝ × ℝ) × List Nat)} {e : PyErr}
    (h : domainsToEstimates test fsolve Gx layer model Gi doms = .error e) :
    ∃ d ∈ doms, gammaOmegaEstimate test fsolve Gi Gx layer d.2 defaultOmegaMax model = .error e := by
  induction doms generalizing Gi with
  | nil => cases h
  | cons r rest ih =>
    unfold domainsToEstimates at h
    cases h1 : gammaOmegaEstimate test fsolve Gi Gx layer r.2 defaultOmegaMax model with
    | error e' =>
      rw [h1, Py.error_bind] at h
      exact ⟨r, by simp, by rw [h1]; exact congrArg Except.error (Except.error.inj h)⟩
    | ok eG =>
      obtain ⟨e₁, G₁⟩ := eG
      rw [h1, Py.ok_bind] at h
      have hth := gammaOmegaEstimate_thread (fsolve := fsolve) (Gx := Gx) (layer := layer) (ωmax := defaultOmegaMax)
        (model := model) (gammaOmegaEstimate_graph h1)
      cases h2 : domainsToEstimates test fsolve Gx layer model G₁ rest with
      | error e' =>
        simp only [h2, Py.error_bind] at h
        obtain rfl : e' = e := Except.error.inj h
        obtain ⟨d, hd, hde⟩ := ih h2
        exact ⟨d, List.mem_cons_of_mem _ hd, by rw [← hth, hde]⟩
      | ok r' => simp only [h2, Py.ok_bind] at h; cases h

/-- What the multilayer pipeline does with exact solvers: some list of dominant candidates is estimated, and the result is
that of the estimation loop. -/
theorem pruneToMultilayer_exact {env : PruneEnv} (he : SoundPruneEnv env) (hx : ExactEnv env.toChampEnv) {Gi Gx : Graph ℝ}
    {layer : List Nat} (hM : Multilayer Gi Gx layer) (hd : Gi.directed = false) (hn : layer ≠ [])
    (hedge : ∀ t ∈ layer, ∃ e ∈ Gi.edges, layer[e.1]? = some t) {parts : List (List α)}
    (hp : ∀ p ∈ parts, p.length = Gi.vcount) {W : Window} (hγ : W.γ₀ < W.γf) (hω : W.ω₀ < W.ωf) (model : String)
    (restrict : Option Nat) :
    ∃ doms : List (List (ℝ × ℝ) × List Nat),
      (∀ d ∈ doms, ∃ p, Candidate parts restrict p ∧ canon p = d.2 ∧
        ∃ γ ω, BestInside Gi Gx layer (Candidate parts restrict) W p γ ω) ∧
      (∀ p γ ω, Candidate parts restrict p → BestInside Gi Gx layer (Candidate parts restrict) W p γ ω →
        ∃ d ∈ doms, ∃ q, Candidate parts restrict q ∧ canon q = d.2 ∧ SameMultilayer Gi Gx layer q p) ∧
      pruneToMultilayerStable env Gi Gx layer model (.memberships parts) W.γ₀ W.γf W.ω₀ W.ωf restrict false =
        (some ((domainsToEstimates env.test env.fsolve Gx layer model Gi doms).map fun r =>
          (stablePartitions3D (truncateOmegas W.ωf r.1), r.2)) : Option _) := by
  have hcan : ∀ c ∈ env.setOrder (parts.map canon), canon c = c ∧ c.length = Gi.vcount ∧ ∃ p ∈ parts, canon p = c := by
    intro c hc
    rw [he.setMem] at hc
    obtain ⟨p, hpp, rfl⟩ := List.mem_map.mp hc
    exact ⟨canon_idem p, by rw [canon_length]; exact hp p hpp, p, hpp, rfl⟩
  have hv : 0 < Gi.vcount := by rw [← hM.layers]; exact List.length_pos_of_ne_nil hn
  obtain ⟨ps, hps⟩ : ∃ ps, restrictParts env.setOrder restrict (env.setOrder (parts.map canon)) = .ok ps := by
    cases restrict with
    | none => exact ⟨_, rfl⟩
    | some K =>
      refine ⟨_, restrictParts_ok (fun c hc => (hcan c hc).1) (fun c hc hn => ?_)⟩
      have := (hcan c hc).2.1
      rw [hn] at this
      simp at this
      omega
  obtain ⟨-, hcand⟩ := candidates_ok he (canonicalParts_ok env.setOrder parts) hps
  have hlen : ∀ c ∈ ps, c.length = Gi.vcount := by
    intro c hc
    obtain ⟨p, hpc, rfl⟩ := (hcand c).mp hc
    rw [canon_length]; exact hp p hpc.1
  have hrun : ∀ r, (ps.length = 0 → r = (some (.ok ([], Gi)) : Option _)) →
      (ps.length ≠ 0 → ∃ doms, champ3D env.toChampEnv Gi Gx layer ps W.γ₀ W.γf W.ω₀ W.ωf = (some (.ok doms) : Option _) ∧
        r = (some ((domainsToEstimates env.test env.fsolve Gx layer model Gi doms).map fun r =>
          (stablePartitions3D (truncateOmegas W.ωf r.1), r.2)) : Option _)) →
      pruneToMultilayerStable env Gi Gx layer model (.memberships parts) W.γ₀ W.γf W.ω₀ W.ωf restrict false = r := by
    intro r h0 h1
    have e1 : canonicalParts env.setOrder (.memberships parts) = .ok (env.setOrder (parts.map canon)) :=
      canonicalParts_ok _ parts
    unfold pruneToMultilayerStable
    rw [if_neg (by decide), e1, run_ofPy_bind, hps, run_ofPy_bind]
    by_cases hz : ps.length = 0
    · rw [h0 hz, if_pos hz]
      rfl
    · obtain ⟨doms, hch, rfl⟩ := h1 hz
      rw [if_neg hz, hch]
      refine (run_ofPy_bind doms _).trans ?_
      cases hde : domainsToEstimates env.test env.fsolve Gx layer model Gi doms <;> rfl
  by_cases hz : ps.length = 0
  · refine ⟨[], by simp, fun p γ ω hpc _ => ?_, hrun _ (fun _ => rfl) (fun h => absurd hz h)⟩
    have := (hcand _).mpr ⟨p, hpc, rfl⟩
    rw [List.length_eq_zero_iff.mp hz] at this
    cases this
  · obtain ⟨doms, hch⟩ := c21_returns hx hM hd hn hedge hlen (fun h => hz (by rw [h]; rfl)) hγ hω
    have hmc : ∀ q, Candidate parts restrict q → ∀ γ ω, multilayerModularity Gi Gx layer γ ω (canon q) =
        multilayerModularity Gi Gx layer γ ω q := fun q hq γ ω => multilayer_canon hM (hp q hq.1) γ ω
    refine ⟨doms, fun d hdm => ?_, fun p γ ω hpc hb => ?_, hrun _ (fun h => absurd h hz) (fun _ => ⟨doms, hch, rfl⟩)⟩
    · obtain ⟨hmem, -, -⟩ := c21_domains_correct he.toSoundEnv hM hlen hch d hdm
      obtain ⟨p, hpc, hpd⟩ := (hcand _).mp hmem
      refine ⟨p, hpc, hpd, ?_⟩
      obtain ⟨⟨a, b⟩, hab⟩ := (c22_domains_disjoint he.toSoundEnv hM hlen hch).2.2.2 d hdm
      obtain ⟨hw, hb⟩ := (domain_interior he.toSoundEnv hM hlen hch hdm a b).mp hab
      refine ⟨a, b, hw, fun q hq hnq => ?_⟩
      rw [← hmc q hq, ← hmc p hpc, hpd]
      refine hb _ ((hcand _).mpr ⟨q, hq, rfl⟩) fun hs => hnq fun γ' ω' => ?_
      rw [← hmc q hq, hs, ← hpd, hmc p hpc]
    · obtain ⟨⟨⟨w1, w2⟩, w3, w4⟩, hb⟩ := hb
      obtain ⟨d, hdm, -, hs⟩ := c22_strictly_optimal_returned he.toSoundEnv hM hlen hch ((hcand _).mpr ⟨p, hpc, rfl⟩)
        (γ := γ) (ω := ω) ⟨w1.le, w2.le⟩ ⟨w3.le, w4.le⟩ (by
          rintro c' hc' ⟨γ', ω', hne⟩
          obtain ⟨q, hq, rfl⟩ := (hcand c').mp hc'
          rw [hmc q hq, hmc p hpc] at hne ⊢
          exact hb q hq fun hs => hne (hs γ' ω'))
      obtain ⟨hmem, -, -⟩ := c21_domains_correct he.toSoundEnv hM hlen hch d hdm
      obtain ⟨q, hq, hqd⟩ := (hcand _).mp hmem
      exact ⟨d, hdm, q, hq, hqd, fun γ' ω' => by rw [← hmc q hq, hqd, hs, hmc p hpc]⟩

end Verif

namespace Verif.Props
open Verif Verif.Spec

variable {α : Type} [LinearOrder α] {env : PruneEnv} {Gi Gx : Graph ℝ} {layer : List Nat} {parts : List (List α)} {W : Window}

/-- **C43 (the pipeline returns).** Exact solvers, an undirected intralayer graph with an edge in every layer, a window
with non-empty interior.  Multilayer pruning terminates; it returns if the parameter estimation succeeds for every
candidate that is strictly best somewhere inside the window, and any exception it raises is raised by the parameter
estimation for such a candidate. -/
theorem c43_returns (he : SoundPruneEnv env) (hx : ExactEnv env.toChampEnv) (hM : Multilayer Gi Gx layer)
    (hd : Gi.directed = false) (hn : layer ≠ []) (hedge : ∀ t ∈ layer, ∃ e ∈ Gi.edges, layer[e.1]? = some t)
    (hp : ∀ p ∈ parts, p.length = Gi.vcount) (hγ : W.γ₀ < W.γf) (hω : W.ω₀ < W.ωf) (model : String)
    (restrict : Option Nat) :
    ∃ r, pruneToMultilayerStable env Gi Gx layer model (.memberships parts) W.γ₀ W.γf W.ω₀ W.ωf restrict false =
        (some r : Option _) ∧
      ∀ e, r = .error e → ∃ p γ ω c, Candidate parts restrict p ∧
        BestInside Gi Gx layer (Candidate parts restrict) W p γ ω ∧ sortedTuple p = .ok c ∧
        gammaOmegaEstimate env.test env.fsolve Gi Gx layer c defaultOmegaMax model = .error e := by
  obtain ⟨doms, h1, -, h3⟩ := pruneToMultilayer_exact he hx hM hd hn hedge hp hγ hω model restrict
  refine ⟨_, h3, fun e h => ?_⟩
  cases hde : domainsToEstimates env.test env.fsolve Gx layer model Gi doms with
  | ok r => rw [hde] at h; cases h
  | error e' =>
    rw [hde] at h
    obtain rfl : e' = e := Except.error.inj h
    obtain ⟨d, hdm, hE⟩ := domainsToEstimates_error hde
    obtain ⟨p, hpc, hpd, γ, ω, hb⟩ := h1 d hdm
    exact ⟨p, γ, ω, canon p, hpc, hb, sortedTuple_eq p, by rw [hpd]; exact hE⟩

/-- **C43 (the pipeline raises).** Conversely, if the parameter estimation raises for a candidate with coefficients of its
own that is strictly best somewhere inside the window, then pruning raises too, whatever the solvers, schedule and set
order: one such partition makes the whole call fail. -/
theorem c43_raises (he : SoundPruneEnv env) (hx : ExactEnv env.toChampEnv) (hM : Multilayer Gi Gx layer)
    (hd : Gi.directed = false) (hn : layer ≠ []) (hedge : ∀ t ∈ layer, ∃ e ∈ Gi.edges, layer[e.1]? = some t)
    (hp : ∀ p ∈ parts, p.length = Gi.vcount) (hγ : W.γ₀ < W.γf) (hω : W.ω₀ < W.ωf) (model : String)
    {restrict : Option Nat} {p : List α} (hpc : Candidate parts restrict p)
    (hdist : ∀ q, Candidate parts restrict q → SameMultilayer Gi Gx layer q p → SamePartition q p) {γ ω : ℝ}
    (hb : BestInside Gi Gx layer (Candidate parts restrict) W p γ ω) {c : List Nat} (hc : sortedTuple p = .ok c) {e : PyErr}
    (hE : gammaOmegaEstimate env.test env.fsolve Gi Gx layer c defaultOmegaMax model = .error e) :
    ∃ e', pruneToMultilayerStable env Gi Gx layer model (.memberships parts) W.γ₀ W.γf W.ω₀ W.ωf restrict false =
      (some (.error e') : Option _) := by
  obtain ⟨doms, h1, h2, h3⟩ := pruneToMultilayer_exact he hx hM hd hn hedge hp hγ hω model restrict
  cases hde : domainsToEstimates env.test env.fsolve Gx layer model Gi doms with
  | error e' => rw [hde] at h3; exact ⟨e', h3⟩
  | ok r =>
    exfalso
    obtain ⟨est, e1, -⟩ := domainsToEstimates_ok (G' := r.2) (ests := r.1) hde
    obtain ⟨d, hdm, q, hq, hqd, hs⟩ := h2 p γ ω hpc hb
    have := e1 d hdm
    rw [sortedTuple_eq] at hc
    obtain rfl := Except.ok.inj hc
    rw [← hqd, (canon_eq_iff q p).mpr (hdist q hq hs), hE] at this
    cases this

end Verif.Props
