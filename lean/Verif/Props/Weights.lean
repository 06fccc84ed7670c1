import Verif.Proofs.History
import Verif.Props.Prune3D
import Verif.Props.History

/-!
# Properties C56, C57: edge weights
-/

namespace Verif.Props
open Verif Verif.Spec

/-- The graph with weight 1 on every edge. -/
def withOnes {F : Type} [One F] (G : Graph F) : Graph F := { G with weight := some (List.replicate G.edges.length 1) }

theorem unitWeights_withOnes {F : Type} [Field F] (G : Graph F) : UnitWeights (withOnes G) := rfl

/-- `ensureWeight` on a graph that igraph says has no weights. -/
theorem ensure_false {F : Type} [One F] {test : Graph F → Bool} {G : Graph F} {n : Nat} (ht : test G = false)
    (hn : 0 < n ∨ G.edges = []) : ensureWeight test n G = .ok (withOnes G) := by
  unfold ensureWeight
  rw [if_neg (by simp [ht])]
  rcases Nat.eq_zero_or_pos n with h0 | hpos
  · have he : G.edges = [] := by rcases hn with h | h; omega; exact h
    unfold Graph.setEsWeight withOnes
    rw [if_neg (by simp [he])]
    simp [he]
  · exact setEsWeight_ones hpos

theorem ensure_ones {F : Type} [One F] {test : Graph F → Bool} {G : Graph F} {n : Nat} (hn : 0 < n ∨ G.edges = []) :
    ensureWeight test n (withOnes G) = .ok (withOnes G) := by
  by_cases ht : test (withOnes G) = true
  · unfold ensureWeight; rw [if_pos ht]
  · rw [ensure_false (G := withOnes G) (by simpa using ht) hn]; rfl

theorem wf_pos {G : Graph ℝ} (hG : G.WF) : 0 < G.vcount ∨ G.edges = [] := by
  rcases Nat.eq_zero_or_pos G.ecount with h | h
  · exact Or.inr (List.length_eq_zero_iff.mp h)
  · exact Or.inl (vcount_pos hG h)

theorem ecount_pos (G : Graph ℝ) : 0 < G.ecount ∨ G.edges = [] := by
  rcases Nat.eq_zero_or_pos G.ecount with h | h
  · exact Or.inr (List.length_eq_zero_iff.mp h)
  · exact Or.inl h

theorem sane_false {test : Graph ℝ → Bool} {G : Graph ℝ} (h : SaneTest test G) (hw : G.weight = none) : test G = false := by
  cases ht : test G with
  | false => rfl
  | true => exact absurd hw (h ht)

/-! ## C56 -/

section C56
variable {test : Graph ℝ → Bool} {G Gi Gx : Graph ℝ}

/-- **C56 (`gamma_estimate`).** A graph without weights is treated exactly as if it had weight 1 on every edge, whatever
igraph answers about the weighted graph; afterwards it has them (although the function supplies one value per *vertex*). -/
theorem c56_gamma_estimate (hG : G.WF) (hsane : SaneTest test G) (hw : G.weight = none) (c : List Nat) :
    gammaEstimate test G c = gammaEstimate test (withOnes G) c ∧
    ∀ e G', gammaEstimate test G c = .ok (e, G') → G' = withOnes G ∧ gammaEstimate test G' c = .ok (e, G') := by
  have h1 : gammaEstimate test G c = gammaEstimate test (withOnes G) c := by
    unfold gammaEstimate
    have : (withOnes G).vcount = G.vcount := rfl
    rw [this, ensure_false (sane_false hsane hw) (wf_pos hG), ensure_ones (wf_pos hG)]
  refine ⟨h1, fun e G' h => ?_⟩
  have hG' : G' = withOnes G := by
    unfold gammaEstimate at h
    rw [ensure_false (sane_false hsane hw) (wf_pos hG), Py.ok_bind] at h
    obtain ⟨x, -, h⟩ := Py.bind_ok' h
    obtain ⟨⟨y, z⟩, -, h⟩ := Py.bind_ok' h
    simp only [Py.pure_eq] at h
    exact (Prod.mk.inj (Except.ok.inj h)).2.symm
  exact ⟨hG', by rw [hG', ← h1, h, hG']⟩

/-- **C56 (`gamma_omega_estimate`).** -/
theorem c56_gamma_omega_estimate (hsane : SaneTest test Gi) (hw : Gi.weight = none) (fsolve : (ℝ → ℝ) → ℝ → ℝ)
    (layers c : List Nat) (ωmax : ℝ) (model : String) :
    gammaOmegaEstimate test fsolve Gi Gx layers c ωmax model =
      gammaOmegaEstimate test fsolve (withOnes Gi) Gx layers c ωmax model ∧
    ∀ e G', gammaOmegaEstimate test fsolve Gi Gx layers c ωmax model = .ok (e, G') →
      G' = withOnes Gi ∧ gammaOmegaEstimate test fsolve G' Gx layers c ωmax model = .ok (e, G') := by
  have h1 : gammaOmegaEstimate test fsolve Gi Gx layers c ωmax model =
      gammaOmegaEstimate test fsolve (withOnes Gi) Gx layers c ωmax model := by
    simp only [gammaOmegaEstimate_def]
    have : (withOnes Gi).ecount = Gi.ecount := rfl
    have h2 : leidenPartWithMembership (withOnes Gi) c = leidenPartWithMembership Gi c := rfl
    rw [this, h2, ensure_false (sane_false hsane hw) (ecount_pos Gi), ensure_ones (ecount_pos Gi)]
  refine ⟨h1, fun e G' h => ?_⟩
  have hG' : G' = withOnes Gi := by
    simp only [gammaOmegaEstimate_def] at h
    obtain ⟨T, -, h⟩ := Py.bind_ok' h
    obtain ⟨x, -, h⟩ := Py.bind_ok' h
    rw [ensure_false (sane_false hsane hw) (ecount_pos Gi), Py.ok_bind] at h
    obtain ⟨y, -, h⟩ := Py.bind_ok' h
    obtain ⟨f, -, h⟩ := Py.bind_ok' h
    obtain ⟨ω, -, h⟩ := Py.bind_ok' h
    rw [Py.pure_eq] at h
    exact (Prod.mk.inj (Except.ok.inj h)).2.symm
  exact ⟨hG', by rw [hG', ← h1, h, hG']⟩

/-- **C56 (limits).** `estimate_singlelayer_SBM_parameters` itself supplies no default: on a graph without weights it
raises `KeyError` if the total weight is not given, and also if it is given and there is an edge. -/
theorem c56_no_default (G : Graph ℝ) (hw : G.weight = none) (c : List Nat) :
    estimateSinglelayerSBM G c none = .error .keyError ∧
      (G.edges ≠ [] → ∀ m, estimateSinglelayerSBM G c (some m) = .error .keyError) := by
  unfold estimateSinglelayerSBM Graph.esWeight Graph.weightedEdges orCompute
  rw [hw]
  refine ⟨rfl, fun he m => ?_⟩
  rw [if_neg he]; rfl

example : estimateSinglelayerSBM (⟨2, false, [(0, 1)], none⟩ : Graph ℝ) [0, 1] (some 1) = .error .keyError :=
  (c56_no_default _ rfl _).2 (by simp) 1

/-- **C56 (`singlelayer_leiden`).** -/
theorem c56_singlelayer_leiden {env : LeidenEnv} (hsane : SaneTest env.test G) (hw : G.weight = none) (γ : Fl ℝ) (w : World) :
    singlelayerLeiden env G γ w = singlelayerLeiden env (withOnes G) γ w ∧
    ∀ c G', (singlelayerLeiden env G γ w).1 = .ok (c, G') → G' = withOnes G := by
  have h0 : ensureWeight env.test G.ecount G = .ok (withOnes G) := ensure_false (sane_false hsane hw) (ecount_pos G)
  refine ⟨?_, ?_⟩
  · unfold singlelayerLeiden
    have : (withOnes G).ecount = G.ecount := rfl
    rw [this, h0, ensure_ones (ecount_pos G)]
  · intro c G' h
    unfold singlelayerLeiden at h
    rw [h0, Prog.lift_ok] at h
    simp only [Prog.bind_eq] at h
    cases ho : env.findPartition w.calls (withOnes G) γ with
    | error e => simp [Prog.optimise, ho] at h
    | ok x =>
      simp [Prog.optimise, ho, Prog.pure_eq] at h
      exact h.2.symm

/-- **C56 (`multilayer_leiden`).** -/
theorem c56_multilayer_leiden {env : LeidenEnv} (hi : SaneTest env.test Gi) (hx : SaneTest env.test Gx)
    (hwi : Gi.weight = none) (hwx : Gx.weight = none) (obj : Nat) (layers : List Nat) (γ : Fl ℝ) (ω : ℝ) (w : World) :
    multilayerLeiden env obj Gi Gx layers γ ω w = multilayerLeiden env obj (withOnes Gi) (withOnes Gx) layers γ ω w ∧
    ∀ c Gi' Gx', (multilayerLeiden env obj Gi Gx layers γ ω w).1 = .ok (c, Gi', Gx') →
      Gi' = withOnes Gi ∧ Gx' = withOnes Gx := by
  have h1 : ensureWeight env.test Gi.ecount Gi = .ok (withOnes Gi) := ensure_false (sane_false hi hwi) (ecount_pos Gi)
  have h2 : ensureWeight env.test Gx.ecount Gx = .ok (withOnes Gx) := ensure_false (sane_false hx hwx) (ecount_pos Gx)
  refine ⟨?_, ?_⟩
  · unfold multilayerLeiden
    have e1 : (withOnes Gi).ecount = Gi.ecount := rfl
    have e2 : (withOnes Gx).ecount = Gx.ecount := rfl
    rw [e1, e2, h1, h2, ensure_ones (ecount_pos Gi), ensure_ones (ecount_pos Gx)]
  · intro c Gi' Gx' h
    unfold multilayerLeiden at h
    rw [h1, h2, Prog.lift_ok, Prog.lift_ok] at h
    simp only [Prog.bind_eq] at h
    split at h
    · split at h
      · simp only [Prog.pure_eq, Except.ok.injEq, Prod.mk.injEq] at h
        exact ⟨h.2.1.symm, h.2.2.symm⟩
      · cases h
    · cases h

/-- **C56 (iterations).** Both iterative estimation functions treat graphs without weights exactly as if they had weight 1
on every edge. -/
theorem c56_iterations {env : LeidenEnv} (hi : SaneTest env.test Gi) (hx : SaneTest env.test Gx)
    (hwi : Gi.weight = none) (hwx : Gx.weight = none) (w : World) :
    (∀ γ tol n verbose method,
      iterateMono env Gi γ tol n verbose method w = iterateMono env (withOnes Gi) γ tol n verbose method w) ∧
    ∀ obj layers γ ω γtol ωtol ωmax n model verbose,
      iterateMulti env obj Gi Gx layers γ ω γtol ωtol ωmax n model verbose w =
        iterateMulti env obj (withOnes Gi) (withOnes Gx) layers γ ω γtol ωtol ωmax n model verbose w := by
  have h1 : ensureWeight env.test Gi.ecount Gi = .ok (withOnes Gi) := ensure_false (sane_false hi hwi) (ecount_pos Gi)
  have h2 : ensureWeight env.test Gx.ecount Gx = .ok (withOnes Gx) := ensure_false (sane_false hx hwx) (ecount_pos Gx)
  have e1 : (withOnes Gi).ecount = Gi.ecount := rfl
  have e2 : (withOnes Gx).ecount = Gx.ecount := rfl
  refine ⟨?_, ?_⟩
  · intros
    unfold iterateMono
    rw [e1, h1, ensure_ones (ecount_pos Gi)]
  · intros
    unfold iterateMulti
    rw [e1, e2, h1, h2, ensure_ones (ecount_pos Gi), ensure_ones (ecount_pos Gx)]

-- a triangle with a pendant vertex and no weights: more vertices than needed, fewer values than edges in other cases
example : (⟨3, false, [(0, 1), (1, 2), (0, 2), (0, 1), (1, 2)], none⟩ : Graph ℝ).WF := by
  refine ⟨by decide, by intro ws h; cases h⟩
example (test : Graph ℚ → Bool) (h : test ⟨3, false, [(0, 1), (1, 2), (0, 2), (0, 1), (1, 2)], none⟩ = false) :
    ensureWeight test 3 ⟨3, false, [(0, 1), (1, 2), (0, 2), (0, 1), (1, 2)], none⟩ =
      .ok ⟨3, false, [(0, 1), (1, 2), (0, 2), (0, 1), (1, 2)], some [1, 1, 1, 1, 1]⟩ :=
  ensure_false h (Or.inl (by omega))

end C56

/-! ## C57 -/

section C57
variable {α : Type} [LinearOrder α] {env : PruneEnv} {G Gi Gx : Graph ℝ} {γ₀ γf ω₀ ωf : ℝ} {out : List (List Nat)}
  {restrict : Option Nat} {st : Bool} {parts : PartsArg α} {layers : List Nat} {model : String}

/-- Same vertices and edges, other weights. -/
def reweighted (G : Graph ℝ) (w : Option (List ℝ)) : Graph ℝ := { G with weight := w }

/-- **C57 (CHAMP).** The weights of no graph influence the coefficients and the CHAMP domains. -/
theorem c57_champ (G Gi Gx : Graph ℝ) (w w' : Option (List ℝ)) (env : ChampEnv) (ps : List (List α)) (γ₀ γf ω₀ ωf : ℝ)
    (st : Bool) (layers : List Nat) :
    champ2D env (reweighted G w) ps γ₀ γf st = champ2D env G ps γ₀ γf st ∧
    champ3D env (reweighted Gi w) (reweighted Gx w') layers ps γ₀ γf ω₀ ωf = champ3D env Gi Gx layers ps γ₀ γf ω₀ ωf :=
  ⟨rfl, rfl⟩

theorem ensure_unweighted {test : Graph ℝ → Bool} {n : Nat} (h : CountsAsUnweighted test G)
    (hn : 0 < n ∨ G.edges = []) : ensureWeight test n G = .ok (withOnes G) := by
  by_cases ht : test G = true
  · have hu : G.weight = some (List.replicate G.edges.length 1) := h ht
    unfold ensureWeight
    rw [if_pos ht]
    unfold withOnes
    rw [← hu]
  · exact ensure_false (by simpa using ht) hn

theorem shape_eq {G₁ G₂ : Graph ℝ} (hs : withOnes G₁ = withOnes G₂) :
    G₁.vcount = G₂.vcount ∧ G₁.edges = G₂.edges ∧ G₂ = reweighted G₁ G₂.weight := by
  unfold withOnes at hs
  simp only [Graph.mk.injEq] at hs
  obtain ⟨h1, h2, h3, -⟩ := hs
  refine ⟨h1, h3, ?_⟩
  unfold reweighted
  rw [h1, h2, h3]

theorem gammaEstimate_unweighted {test : Graph ℝ → Bool} {G₁ G₂ : Graph ℝ} (hG : 0 < G₁.vcount ∨ G₁.edges = [])
    (hs : withOnes G₁ = withOnes G₂) (h₁ : CountsAsUnweighted test G₁) (h₂ : CountsAsUnweighted test G₂) (c : List Nat) :
    gammaEstimate test G₁ c = gammaEstimate test G₂ c := by
  obtain ⟨hv, he, -⟩ := shape_eq hs
  unfold gammaEstimate
  rw [ensure_unweighted h₁ hG, ensure_unweighted h₂ (by rw [← hv, ← he]; exact hG), hs]

theorem estimates_unweighted {test : Graph ℝ → Bool} {G₁ G₂ : Graph ℝ} (hG : 0 < G₁.vcount ∨ G₁.edges = [])
    (hs : withOnes G₁ = withOnes G₂) (h₁ : CountsAsUnweighted test G₁) (h₂ : CountsAsUnweighted test G₂)
    (ranges : List (ℝ × ℝ × List Nat)) :
    (rangesToGammaEstimates test G₁ ranges).map Prod.fst = (rangesToGammaEstimates test G₂ ranges).map Prod.fst := by
  cases ranges with
  | nil => rfl
  | cons r rest =>
    unfold rangesToGammaEstimates
    rw [gammaEstimate_unweighted hG hs h₁ h₂]

/-- **C57 (unit weights, partial).** Two graphs with the same vertices and edges, each of which has unit weights or is said
by igraph to have none: pruning returns the same partitions (or does not return) on both.  Missing: graphs that igraph says
have weights other than 1, for which the claim is false (`c57_weights_matter`). -/
theorem c57_unweighted_partial {G₁ G₂ : Graph ℝ} (hG : G₁.WF) (hs : withOnes G₁ = withOnes G₂)
    (h₁ : CountsAsUnweighted env.test G₁) (h₂ : CountsAsUnweighted env.test G₂) (out : List (List Nat)) :
    (∃ G', pruneToStable env G₁ parts γ₀ γf restrict st = (some (.ok (out, G')) : Option _)) ↔
      ∃ G', pruneToStable env G₂ parts γ₀ γf restrict st = (some (.ok (out, G')) : Option _) := by
  have key : ∀ {G₁ G₂ : Graph ℝ}, (0 < G₁.vcount ∨ G₁.edges = []) → withOnes G₁ = withOnes G₂ → CountsAsUnweighted env.test G₁ →
      CountsAsUnweighted env.test G₂ →
      (∃ G', pruneToStable env G₁ parts γ₀ γf restrict st = (some (.ok (out, G')) : Option _)) →
      ∃ G', pruneToStable env G₂ parts γ₀ γf restrict st = (some (.ok (out, G')) : Option _) := by
    rintro G₁ G₂ hG hs h₁ h₂ ⟨G', h⟩
    obtain ⟨-, -, hw⟩ := shape_eq hs
    unfold pruneToStable at h ⊢
    obtain ⟨ps, k1, h⟩ := Run.bind_ok.mp h
    obtain ⟨ps', k2, h⟩ := Run.bind_ok.mp h
    by_cases hz : ps'.length = 0
    · rw [if_pos hz] at h
      have ho : out = [] := by
        have := Option.some.inj h
        exact (Prod.mk.inj (Except.ok.inj this)).1.symm
      refine ⟨G₂, Run.bind_ok.mpr ⟨ps, k1, Run.bind_ok.mpr ⟨ps', k2, ?_⟩⟩⟩
      rw [if_pos hz, ho]; rfl
    · rw [if_neg hz] at h
      obtain ⟨ranges, k3, h⟩ := Run.bind_ok.mp h
      obtain ⟨est, k4, h⟩ := Run.bind_ok.mp h
      have k4' := Run.ofPy_ok.mp k4
      have := estimates_unweighted hG hs h₁ h₂ ranges
      rw [k4'] at this
      cases hr : rangesToGammaEstimates env.test G₂ ranges with
      | error e => rw [hr] at this; cases this
      | ok est' =>
        rw [hr] at this
        have heq : est.1 = est'.1 := Except.ok.inj this
        have ho := Option.some.inj h
        obtain ⟨ho, -⟩ := Prod.mk.inj (Except.ok.inj ho)
        refine ⟨est'.2, Run.bind_ok.mpr ⟨ps, k1, Run.bind_ok.mpr ⟨ps', k2, ?_⟩⟩⟩
        rw [if_neg hz]
        refine Run.bind_ok.mpr ⟨ranges, by rw [hw]; exact k3, Run.bind_ok.mpr ⟨est', Run.ofPy_ok.mpr hr, ?_⟩⟩
        rw [← ho, heq]; rfl
  obtain ⟨hv, he, -⟩ := shape_eq hs
  exact ⟨key (wf_pos hG) hs h₁ h₂, key (by rw [← hv, ← he]; exact wf_pos hG) hs.symm h₂ h₁⟩

/-- **C57 (multilayer, partial).** The same for multilayer pruning and the intralayer graph; the interlayer graph may have
any weights. -/
theorem c57_multilayer_partial {G₁ G₂ : Graph ℝ} (hs : withOnes G₁ = withOnes G₂) (w : Option (List ℝ))
    (h₁ : CountsAsUnweighted env.test G₁) (h₂ : CountsAsUnweighted env.test G₂) (out : List (List Nat)) :
    (∃ G', pruneToMultilayerStable env G₁ Gx layers model parts γ₀ γf ω₀ ωf restrict st =
      (some (.ok (out, G')) : Option _)) ↔
    ∃ G', pruneToMultilayerStable env G₂ (reweighted Gx w) layers model parts γ₀ γf ω₀ ωf restrict st =
      (some (.ok (out, G')) : Option _) := by
  have key : ∀ {G₁ G₂ Gx : Graph ℝ} (w : Option (List ℝ)), withOnes G₁ = withOnes G₂ → CountsAsUnweighted env.test G₁ →
      CountsAsUnweighted env.test G₂ →
      (∃ G', pruneToMultilayerStable env G₁ Gx layers model parts γ₀ γf ω₀ ωf restrict st =
        (some (.ok (out, G')) : Option _)) →
      ∃ G', pruneToMultilayerStable env G₂ (reweighted Gx w) layers model parts γ₀ γf ω₀ ωf restrict st =
        (some (.ok (out, G')) : Option _) := by
    rintro G₁ G₂ Gx w hs h₁ h₂ ⟨G', h⟩
    obtain ⟨hv, he, hw⟩ := shape_eq hs
    have hest : ∀ c, gammaOmegaEstimate env.test env.fsolve G₂ (reweighted Gx w) layers c defaultOmegaMax model =
        gammaOmegaEstimate env.test env.fsolve G₁ Gx layers c defaultOmegaMax model := by
      intro c
      have e1 : ∀ G : Graph ℝ, gammaOmegaEstimate env.test env.fsolve G (reweighted Gx w) layers c defaultOmegaMax model =
          gammaOmegaEstimate env.test env.fsolve G Gx layers c defaultOmegaMax model := fun _ => rfl
      rw [e1]
      simp only [gammaOmegaEstimate_def]
      have e2 : leidenPartWithMembership G₂ c = leidenPartWithMembership G₁ c := by
        unfold leidenPartWithMembership; rw [hv]
      rw [e2, ensure_unweighted h₁ (ecount_pos G₁), ensure_unweighted h₂ (ecount_pos G₂), hs]
    have hdom : ∀ ds, (domainsToEstimates env.test env.fsolve (reweighted Gx w) layers model G₂ ds).map Prod.fst =
        (domainsToEstimates env.test env.fsolve Gx layers model G₁ ds).map Prod.fst := by
      intro ds
      have e1 : ∀ (ds) (G : Graph ℝ), domainsToEstimates env.test env.fsolve (reweighted Gx w) layers model G ds =
          domainsToEstimates env.test env.fsolve Gx layers model G ds := by
        intro ds
        induction ds with
        | nil => intro G; rfl
        | cons d rest ih =>
          intro G
          have e2 : gammaOmegaEstimate env.test env.fsolve G (reweighted Gx w) layers d.2 defaultOmegaMax model =
            gammaOmegaEstimate env.test env.fsolve G Gx layers d.2 defaultOmegaMax model := rfl
          unfold domainsToEstimates
          rw [e2]
          cases gammaOmegaEstimate env.test env.fsolve G Gx layers d.2 defaultOmegaMax model with
          | error e => rfl
          | ok eG => rw [Py.ok_bind, Py.ok_bind, ih]
      rw [e1]
      cases ds with
      | nil => rfl
      | cons d rest =>
        have e3 := hest d.2
        have e2 : gammaOmegaEstimate env.test env.fsolve G₂ (reweighted Gx w) layers d.2 defaultOmegaMax model =
            gammaOmegaEstimate env.test env.fsolve G₂ Gx layers d.2 defaultOmegaMax model := rfl
        unfold domainsToEstimates
        rw [← e2, e3]
    unfold pruneToMultilayerStable at h ⊢
    cases st with
    | true =>
      simp only [if_true] at h
      cases h
    | false =>
      simp only [Bool.false_eq_true, if_false] at h ⊢
      obtain ⟨ps, k1, h⟩ := Run.bind_ok.mp h
      obtain ⟨ps', k2, h⟩ := Run.bind_ok.mp h
      by_cases hz : ps'.length = 0
      · rw [if_pos hz] at h
        have ho : out = [] := by
          have := Option.some.inj h
          exact (Prod.mk.inj (Except.ok.inj this)).1.symm
        refine ⟨G₂, Run.bind_ok.mpr ⟨ps, k1, Run.bind_ok.mpr ⟨ps', k2, ?_⟩⟩⟩
        rw [if_pos hz, ho]; rfl
      · rw [if_neg hz] at h
        obtain ⟨domains, k3, h⟩ := Run.bind_ok.mp h
        obtain ⟨est, k4, h⟩ := Run.bind_ok.mp h
        have k4' := Run.ofPy_ok.mp k4
        have := hdom domains
        rw [k4'] at this
        cases hr : domainsToEstimates env.test env.fsolve (reweighted Gx w) layers model G₂ domains with
        | error e => rw [hr] at this; cases this
        | ok est' =>
          rw [hr] at this
          have heq : est'.1 = est.1 := Except.ok.inj this
          have ho := Option.some.inj h
          obtain ⟨ho, -⟩ := Prod.mk.inj (Except.ok.inj ho)
          refine ⟨est'.2, Run.bind_ok.mpr ⟨ps, k1, Run.bind_ok.mpr ⟨ps', k2, ?_⟩⟩⟩
          rw [if_neg hz]
          refine Run.bind_ok.mpr ⟨domains, by rw [hw]; exact k3, Run.bind_ok.mpr ⟨est', Run.ofPy_ok.mpr hr, ?_⟩⟩
          rw [← ho, heq]; rfl
  refine ⟨key w hs h₁ h₂, fun h => ?_⟩
  have := key (Gx := reweighted Gx w) Gx.weight hs.symm h₂ h₁ h
  exact this

/-- **C57 (the caller's graph, partial).** After pruning, the caller's graph is unchanged or has weight 1 on every edge; it is
unchanged if igraph says that it has weights.  Missing: if igraph denies them, they are overwritten (`c57_weights_lost`). -/
theorem c57_graph_partial (hG : G.WF) {G' : Graph ℝ}
    (h : pruneToStable env G parts γ₀ γf restrict st = (some (.ok (out, G')) : Option _)) :
    (G' = G ∨ G' = withOnes G) ∧ (env.test G = true → G' = G) ∧ (out ≠ [] → env.test G = false → G' = withOnes G) := by
  unfold pruneToStable at h
  obtain ⟨ps, k1, h⟩ := Run.bind_ok.mp h
  obtain ⟨ps', k2, h⟩ := Run.bind_ok.mp h
  by_cases hz : ps'.length = 0
  · rw [if_pos hz] at h
    obtain ⟨rfl, rfl⟩ := Prod.mk.inj (Except.ok.inj (Option.some.inj h))
    exact ⟨Or.inl rfl, fun _ => rfl, fun h => absurd rfl h⟩
  · rw [if_neg hz] at h
    obtain ⟨ranges, k3, h⟩ := Run.bind_ok.mp h
    obtain ⟨est, k4, h⟩ := Run.bind_ok.mp h
    obtain ⟨rfl, rfl⟩ := Prod.mk.inj (Except.ok.inj (Option.some.inj h))
    have k4' := Run.ofPy_ok.mp k4
    cases hr : ranges with
    | nil =>
      rw [hr] at k4'
      obtain rfl := Except.ok.inj k4'
      exact ⟨Or.inl rfl, fun _ => rfl, fun h => absurd rfl h⟩
    | cons r rest =>
      have := (rangesToGammaEstimates_ok (G' := est.2) (ests := est.1) k4').2.1 (by rw [hr]; simp)
      by_cases ht : env.test G = true
      · unfold ensureWeight at this
        rw [if_pos ht] at this
        have := (Except.ok.inj this).symm
        exact ⟨Or.inl this, fun _ => this, fun _ h => absurd ht (by simp [h])⟩
      · rw [ensure_false (by simpa using ht) (wf_pos hG)] at this
        have := (Except.ok.inj this).symm
        exact ⟨Or.inr this, fun h => absurd h ht, fun _ _ => this⟩

/-! ### The weights do matter -/

/-- Two edges joined by a third one, which is weaker. -/
def gWeak : Graph ℝ := ⟨4, false, [(0, 1), (2, 3), (1, 2)], some [2, 2, 1]⟩

theorem gWeak_wf : gWeak.WF := by
  refine ⟨by decide, ?_⟩
  intro ws h
  rw [← Option.some.inj h]
  rfl

theorem ones_wf {G : Graph ℝ} (hG : G.WF) : (withOnes G).WF := ⟨hG.1, by intro ws h; rw [← Option.some.inj h]; simp [withOnes]⟩

theorem log_two_pos : 0 < Real.log 2 := Real.log_pos (by norm_num)

theorem gWeak_estimate {test : Graph ℝ → Bool} (h : test gWeak = true) :
    gammaEstimate test gWeak [0, 0, 1, 1] = .ok (some (.fin (3 / 5 / Real.log 2)), gWeak) := by
  have hest : estimateSinglelayerSBM gWeak [0, 0, 1, 1] none = .ok (8 / 5, 2 / 5) := by
    rw [estimateSinglelayerSBM_eq gWeak_wf rfl rfl]
    have h1 : strengthSq (gWeak.edges.zip [2, 2, 1]) [0, 0, 1, 1] = (50 : ℝ) := by
      simp [strengthSq, partLen, gWeak, wStrength, Finset.sum_range_succ]; norm_num
    have h2 : wInside (gWeak.edges.zip [2, 2, 1]) [0, 0, 1, 1] = (4 : ℝ) := by
      simp [gWeak, wInside]; norm_num
    have h3 : partLen [0, 0, 1, 1] = 2 := rfl
    rw [h1, h2, h3]
    norm_num
  have hlog : gammaFromParameters (8 / 5) (2 / 5) = some (.fin (3 / 5 / Real.log 2)) := by
    rw [(c27_degenerate_estimates _ _).2.2.1]
    refine ⟨by norm_num, by norm_num, by norm_num, ?_⟩
    unfold logMean
    have : Real.log (8 / 5) - Real.log (2 / 5) = 2 * Real.log 2 := by
      rw [← Real.log_div (by norm_num) (by norm_num), show (8 / 5 : ℝ) / (2 / 5) = 2 ^ 2 by norm_num, Real.log_pow]
      norm_num
    rw [this]
    have := log_two_pos.ne'
    field_simp
    norm_num
  unfold gammaEstimate ensureWeight
  rw [if_pos h, Py.ok_bind]
  unfold leidenPartWithMembership
  rw [if_pos (by rfl), Py.ok_bind, hest, Py.ok_bind]
  simp only [Py.pure_eq]
  rw [hlog]

theorem gOnes_estimate {test : Graph ℝ → Bool} :
    gammaEstimate test (withOnes gWeak) [0, 0, 1, 1] = .ok (some (.fin (2 / 3 / Real.log 2)), withOnes gWeak) := by
  have hest : estimateSinglelayerSBM (withOnes gWeak) [0, 0, 1, 1] none = .ok (4 / 3, 2 / 3) := by
    rw [estimateSinglelayerSBM_eq (ones_wf gWeak_wf) rfl (ws := [1, 1, 1]) rfl]
    have h1 : strengthSq ((withOnes gWeak).edges.zip [1, 1, 1]) [0, 0, 1, 1] = (18 : ℝ) := by
      simp [strengthSq, partLen, gWeak, withOnes, wStrength, Finset.sum_range_succ]; norm_num
    have h2 : wInside ((withOnes gWeak).edges.zip [1, 1, 1]) [0, 0, 1, 1] = (2 : ℝ) := by
      simp [gWeak, withOnes, wInside]; norm_num
    have h3 : partLen [0, 0, 1, 1] = 2 := rfl
    rw [h1, h2, h3]
    norm_num
  have hlog : gammaFromParameters (4 / 3) (2 / 3) = some (.fin (2 / 3 / Real.log 2)) := by
    rw [(c27_degenerate_estimates _ _).2.2.1]
    refine ⟨by norm_num, by norm_num, by norm_num, ?_⟩
    unfold logMean
    have : Real.log (4 / 3) - Real.log (2 / 3) = Real.log 2 := by
      rw [← Real.log_div (by norm_num) (by norm_num)]
      norm_num
    rw [this]
    norm_num
  unfold gammaEstimate
  rw [ensure_ones (G := gWeak) (Or.inl (by decide)), Py.ok_bind]
  unfold leidenPartWithMembership
  rw [if_pos (by rfl), Py.ok_bind, hest, Py.ok_bind]
  simp only [Py.pure_eq]
  rw [hlog]

/-- **C57 (weights matter; finding).** If igraph says that the graph `gWeak` has weights, pruning one partition in the window
from 0 to `0.63 / log 2` returns it, but on the same graph with unit weights it returns nothing; whatever the LP solver,
sampler and scheduler do. -/
theorem c57_weights_matter (he : SoundPruneEnv env) (hx : ExactEnv env.toChampEnv) (ht : env.test gWeak = true) :
    (∃ G', pruneToStable env gWeak (.memberships [[0, 0, 1, 1]]) 0 (63 / 100 / Real.log 2) none st =
      (some (.ok ([[0, 0, 1, 1]], G')) : Option _)) ∧
    ∃ G', pruneToStable env (withOnes gWeak) (.memberships [[0, 0, 1, 1]]) 0 (63 / 100 / Real.log 2) none st =
      (some (.ok ([], G')) : Option _) := by
  have hl := log_two_pos
  have hwin : (0 : ℝ) < 63 / 100 / Real.log 2 := by positivity
  have hcand : ∀ q : List Nat, Candidate [[0, 0, 1, 1]] none q → q = [0, 0, 1, 1] := by
    intro q hq; simpa using hq.1
  have hself : Candidate [[0, 0, 1, 1]] none [0, 0, 1, 1] := ⟨by simp, by simp⟩
  have hsame : ∀ p q : List Nat, Candidate [[0, 0, 1, 1]] none p → Candidate [[0, 0, 1, 1]] none q → ∀ G : Graph ℝ,
      SameModularity G p q → SamePartition p q := by
    intro p q hp hq G _
    rw [hcand p hp, hcand q hq]
    exact ⟨rfl, fun _ _ _ _ => Iff.rfl⟩
  have hst : sortedTuple [0, 0, 1, 1] = .ok [0, 0, 1, 1] := by rw [sortedTuple_eq]; decide
  constructor
  · obtain ⟨out, G', h⟩ := c39_returns (parts := [[0, 0, 1, 1]]) he hx gWeak_wf rfl (by decide) (by decide)
      (fun _ => ⟨[2, 2, 1], rfl, by simp⟩) (by decide) hwin none st
    refine ⟨G', ?_⟩
    have hmem : ∀ c, c ∈ out ↔ c = [0, 0, 1, 1] := by
      intro c
      rw [c39_characterisation he gWeak_wf (by decide) (fun p q hp hq => hsame p q hp hq _) h c]
      constructor
      · rintro ⟨p, hp, hc, -⟩
        rw [hcand p hp, hst] at hc
        exact (Except.ok.inj hc).symm
      · rintro rfl
        refine ⟨_, hself, hst, ⟨63 / 100 / Real.log 2 / 2, by linarith, by linarith, ?_⟩, 3 / 5 / Real.log 2,
          ⟨_, _, hst, gWeak_estimate ht⟩, by positivity, ?_, ?_⟩
        · intro q hq hne
          exact absurd (fun γ => by rw [hcand q hq]) hne
        · exact div_le_div_of_nonneg_right (by norm_num) hl.le
        · intro q hq
          rw [hcand q hq]
    have hnd := (c38_no_duplicates he gWeak_wf (by decide) h).1
    have : out = [[0, 0, 1, 1]] := by
      rw [← List.perm_singleton]
      exact (List.perm_ext_iff_of_nodup hnd (by simp)).mpr fun c => by rw [hmem c]; simp
    rw [h, this]
  · obtain ⟨out, G', h⟩ := c39_returns (parts := [[0, 0, 1, 1]]) he hx (ones_wf gWeak_wf) rfl (by decide) (by decide)
      (fun _ => ⟨[1, 1, 1], rfl, by simp⟩) (by decide) hwin none st
    refine ⟨G', ?_⟩
    have : out = [] := by
      apply List.eq_nil_iff_forall_not_mem.mpr
      intro c hc
      obtain ⟨⟨p, hp, hpc⟩, γ, hg, -, hle, -⟩ := c38_sound he (ones_wf gWeak_wf) (by decide) h c hc
      rw [hcand p hp, hst] at hpc
      obtain rfl := Except.ok.inj hpc
      rw [gOnes_estimate] at hg
      have hγ := (Prod.mk.inj (Except.ok.inj hg)).1
      simp only [Option.some.injEq, Fl.fin.injEq] at hγ
      rw [← hγ, div_le_div_iff_of_pos_right hl] at hle
      norm_num at hle
    rw [h, this]

/-- **C57 (weights are lost; finding).** If igraph denies that `gWeak` has weights, pruning overwrites them with 1. -/
theorem c57_weights_lost (he : SoundPruneEnv env) (hx : ExactEnv env.toChampEnv) (ht : env.test gWeak = false) :
    ∃ G', pruneToStable env gWeak (.memberships [[0, 0, 1, 1]]) 0 (1 / Real.log 2) none st =
      (some (.ok ([[0, 0, 1, 1]], G')) : Option _) ∧ G'.weight = some [1, 1, 1] := by
  have hl := log_two_pos
  have hwin : (0 : ℝ) < 1 / Real.log 2 := by positivity
  have hcand : ∀ q : List Nat, Candidate [[0, 0, 1, 1]] none q → q = [0, 0, 1, 1] := by
    intro q hq; simpa using hq.1
  have hself : Candidate [[0, 0, 1, 1]] none [0, 0, 1, 1] := ⟨by simp, by simp⟩
  have hst : sortedTuple [0, 0, 1, 1] = .ok [0, 0, 1, 1] := by rw [sortedTuple_eq]; decide
  have hest : gammaEstimate env.test gWeak [0, 0, 1, 1] = .ok (some (.fin (2 / 3 / Real.log 2)), withOnes gWeak) := by
    rw [gammaEstimate_unweighted (G₁ := gWeak) (G₂ := withOnes gWeak) (Or.inl (by decide)) rfl (by intro h; rw [ht] at h; cases h)
      (fun _ => unitWeights_withOnes _), gOnes_estimate]
  obtain ⟨out, G', h⟩ := c39_returns (parts := [[0, 0, 1, 1]]) (st := st) (restrict := none) he hx gWeak_wf rfl (by decide)
    (by decide) (by intro h; rw [ht] at h; cases h) (by decide) hwin
  have hmem : ∀ c, c ∈ out ↔ c = [0, 0, 1, 1] := by
    intro c
    rw [c39_characterisation he gWeak_wf (by decide) (by
      intro p q hp hq _
      rw [hcand p hp, hcand q hq]
      exact ⟨rfl, fun _ _ _ _ => Iff.rfl⟩) h c]
    constructor
    · rintro ⟨p, hp, hc, -⟩
      rw [hcand p hp, hst] at hc
      exact (Except.ok.inj hc).symm
    · rintro rfl
      refine ⟨_, hself, hst, ⟨1 / Real.log 2 / 2, by linarith, by linarith, ?_⟩, 2 / 3 / Real.log 2,
        ⟨_, _, hst, hest⟩, by positivity, ?_, ?_⟩
      · intro q hq hne
        exact absurd (fun γ => by rw [hcand q hq]) hne
      · exact div_le_div_of_nonneg_right (by norm_num) hl.le
      · intro q hq
        rw [hcand q hq]
  have hnd := (c38_no_duplicates he gWeak_wf (by decide) h).1
  have hout : out = [[0, 0, 1, 1]] := by
    rw [← List.perm_singleton]
    exact (List.perm_ext_iff_of_nodup hnd (by simp)).mpr fun c => by rw [hmem c]; simp
  refine ⟨G', by rw [h, hout], ?_⟩
  rw [(c57_graph_partial gWeak_wf h).2.2 (by rw [hout]; simp) ht]
  rfl

/-- An environment meeting every contract in which igraph tells the truth about weights. -/
noncomputable def honestEnv : PruneEnv := { pruneEnv with test := fun G => G.weight.isSome }

-- the hypotheses of both findings are met
example : SoundPruneEnv honestEnv ∧ ExactEnv honestEnv.toChampEnv ∧ honestEnv.test gWeak = true :=
  ⟨⟨pruneEnv_sound.toSoundEnv, pruneEnv_sound.setNodup, pruneEnv_sound.setMem⟩, exactEnv_exact, rfl⟩
example : SoundPruneEnv pruneEnv ∧ ExactEnv pruneEnv.toChampEnv ∧ pruneEnv.test gWeak = false :=
  ⟨pruneEnv_sound, exactEnv_exact, rfl⟩

end C57

end Verif.Props
