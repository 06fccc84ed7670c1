import Verif.Proofs.IterateMulti
import Verif.Props.IterateMono

/-!
# Properties C47, C48: `iterative_multilayer_resolution_parameter_estimation`
-/

namespace Verif.Props
open Verif Verif.Spec

variable {env : LeidenEnv} {obj : Nat} {Gi Gx : Graph ℝ} {layers : List Nat} {model : String} {T : Nat} {ws : List ℝ}

/-- An input the algorithm accepts: igraph graphs (with unit weights unless igraph says there are weights), layers
`0..T-1`, an accepted multilayer graph of one of the three models. -/
structure Admissible (env : LeidenEnv) (Gi Gx : Graph ℝ) (layers : List Nat) (model : String) (T : Nat) (ws : List ℝ) :
    Prop where
  intra : Gi.WF
  inter : Gx.WF
  sane : SaneTest env.test Gi
  weights : (defaulted env.test Gi).weight = some ws
  top : T - 1 ∈ layers
  below : ∀ l ∈ layers, l < T
  accepted : Accepted (defaulted env.test Gi) (defaulted env.test Gx) ws layers model T
  known : model = "temporal" ∨ model = "multilevel" ∨ model = "multiplex"

namespace Admissible

theorem prepare (h : Admissible env Gi Gx layers model T ws) :
    ∃ mt N Nt, prepareMultilayer (defaulted env.test Gi) (defaulted env.test Gx) layers model = .ok (T, mt, N, Nt) := by
  obtain ⟨h1, h2⟩ := c49_accepts_iff (defaulted_wf h.intra) (defaulted env.test Gx) model h.weights h.top h.below
  obtain ⟨r, hr⟩ := h1.mpr h.accepted
  have := h2 r hr
  subst this
  exact ⟨_, _, _, hr⟩

theorem vcount (h : Admissible env Gi Gx layers model T ws) : Gx.vcount = Gi.vcount := by
  have := h.accepted.sameSize
  rwa [(defaulted_shape env.test Gi).1, (defaulted_shape env.test Gx).1] at this

theorem count (h : Admissible env Gi Gx layers model T ws) : countLayers layers = .ok T := by
  obtain ⟨T', h1, h2, h3, h4⟩ := countLayers_ok (layers := layers) (by
    rintro rfl; exact absurd h.top (by simp))
  have a := h2 _ h.top
  have b := h.below _ h3
  have c := h.accepted.layers
  rw [h1]
  congr 1
  omega

theorem split (h : Admissible env Gi Gx layers model T ws) :
    splitLayers (defaulted env.test Gi).vcount (defaulted env.test Gi).edges (defaulted env.test Gi).weight
      (defaulted env.test Gi).directed layers = .ok ((List.range T).map (layerGraph (defaulted env.test Gi) ws layers)) :=
  splitLayers_ok (defaulted_wf h.intra) h.weights h.accepted.vector h.count h.below

theorem layerGraphs (h : Admissible env Gi Gx layers model T ws) (cache : LRU SplitKey (List (Graph ℝ))) :
    ∃ Gs, LayerGraphs cache obj (defaulted env.test Gi) layers Gs := by
  unfold LayerGraphs splitIntralayer
  rw [h.split]
  exact LRU.call_ok _ _ _

theorem omega (h : Admissible env Gi Gx layers model T ws) (ωmax : ℝ) :
    ∃ f, omegaFunctionFromModel model ωmax T = .ok f := by
  unfold omegaFunctionFromModel
  rcases h.known with rfl | rfl | rfl
  · exact ⟨_, rfl⟩
  · exact ⟨_, rfl⟩
  · exact ⟨_, rfl⟩

end Admissible

theorem iterateMulti_run (hp : ProducesPartitions env) (h : Admissible env Gi Gx layers model T ws)
    (γ ω γtol ωtol ωmax : ℝ) {n : Nat} (hn : 0 < n) (w : World) (hcap : 0 < w.cache.cap) :
    ∃ r Gs vs k, LayerGraphs w.cache obj (defaulted env.test Gi) layers Gs ∧ r.2.calls = w.calls + k ∧
      Iteration (fun i => multiMaximiser env Gs (defaulted env.test Gx) (w.calls + i))
        (reestimateMulti env (defaulted env.test Gi) (defaulted env.test Gx) layers model ωmax T)
        (WithinBoth γtol ωtol) n (.fin γ, ω) vs k (r.1.map fun x => ((x.1, x.2.1), some x.2.2.1)) ∧
      (∀ x, r.1 = .ok x → x.2.2.2 = (defaulted env.test Gi, defaulted env.test Gx) ∧ r.2.parts = some x.2.2.1) ∧
      ∀ verbose, iterateMulti env obj Gi Gx layers γ ω γtol ωtol ωmax n model verbose w = r := by
  obtain ⟨mt, N, Nt, hprep⟩ := h.prepare
  obtain ⟨Gs, hGs⟩ := h.layerGraphs (obj := obj) w.cache
  obtain ⟨f, hf⟩ := h.omega ωmax
  obtain ⟨hJ, hI, vs, k, hk, hit⟩ := forRange_iteration
    (multiBody_spec hp h.intra h.inter h.sane h.known hprep h.vcount hf γtol ωtol Gs) n
    ⟨defaulted env.test Gi, defaulted env.test Gx, .fin γ, ω, none⟩ w ⟨rfl, rfl⟩ ⟨hGs, hcap⟩
  have hgo : ∀ verbose, iterateMulti env obj Gi Gx layers γ ω γtol ωtol ωmax n model verbose w =
      match forRange (multiBody env obj layers model T N Nt mt f γtol ωtol) n
        ⟨defaulted env.test Gi, defaulted env.test Gx, .fin γ, ω, none⟩ w with
      | (.ok r, w') => (if verbose ∧ r.2 = false ∧ r.1.last = none then Prog.lift (.error .typeError)
          else do
            let parts ← Prog.getParts
            pure (r.1.gamma, r.1.omega, parts, r.1.Gi, r.1.Gx) : Prog _) w'
      | (.error e, w') => (.error e, w') := by
    intro verbose
    unfold iterateMulti
    rw [ensureWeight_ecount, Prog.lift_ok, ensureWeight_ecount, Prog.lift_ok, hprep, Prog.lift_ok]
    simp only
    rw [hf, Prog.lift_ok, Prog.bind_eq]
    rcases forRange (multiBody env obj layers model T N Nt mt f γtol ωtol) n
        ⟨defaulted env.test Gi, defaulted env.test Gx, .fin γ, ω, none⟩ w with ⟨_ | a, w'⟩ <;> rfl
  rcases hr : forRange (multiBody env obj layers model T N Nt mt f γtol ωtol) n
      ⟨defaulted env.test Gi, defaulted env.test Gx, .fin γ, ω, none⟩ w with ⟨e | r, w'⟩
  · rw [hr] at hk hit hgo
    refine ⟨(.error e, w'), Gs, vs, k, hGs, hk, hit, ?_, hgo⟩
    intro x hx
    cases hx
  · rw [hr] at hk hit hgo hJ hI
    obtain ⟨hI1, hI2, -⟩ := hI r rfl
    have hI2 := hI2 (by omega)
    simp only at hI2
    cases hlast : r.1.last with
    | none => rw [hlast] at hI2; exact absurd rfl hI2
    | some l =>
      rw [hlast] at hI2
      obtain ⟨c, hc⟩ := Option.ne_none_iff_exists'.mp hI2
      simp only [Option.bind_some] at hc
      refine ⟨(.ok (r.1.gamma, r.1.omega, c, r.1.Gi, r.1.Gx), w'), Gs, vs, k, hGs, hk, ?_, ?_, ?_⟩
      · simp only [Except.map]
        simp only [if_neg (show ¬ n = 0 by omega), hlast, Option.bind_some, hc] at hit
        exact hit
      · intro x hx
        obtain rfl := Except.ok.inj hx
        exact ⟨Prod.ext hI1.1 hI1.2, hc⟩
      · intro verbose
        rw [hgo]
        simp only
        rw [if_neg (by rintro ⟨-, -, h⟩; rw [hlast] at h; cases h), Prog.bind_eq]
        simp only [Prog.getParts, hc]
        rfl

/-- **C47.** For every behaviour of the optimiser (an arbitrary function of the position in the process's sequence of
optimisations), every accepted multilayer network, start values, tolerances, positive limit `n`, verbosity and process
history, a call performs an `Iteration`: the multiplex problem is optimised at the current `(γ, ω)`, then gamma and omega
are re-estimated from the partition found.  On normal return the parameters are the estimates from the returned partition
and either `n` optimisations were made or both parameters moved less than their tolerances; otherwise the exception is
that of the optimiser or of the re-estimation (impossible `p`, missing gamma, undefined omega).  The layer graphs used are
those in the cache for this graph object, if there are any, and otherwise the actual ones. -/
theorem c47_iteration (hp : ProducesPartitions env) (h : Admissible env Gi Gx layers model T ws)
    (γ ω γtol ωtol ωmax : ℝ) {n : Nat} (hn : 0 < n) (verbose : Bool) (w : World) (hcap : 0 < w.cache.cap) :
    let r := iterateMulti env obj Gi Gx layers γ ω γtol ωtol ωmax n model verbose w
    ∃ Gs vs k, LayerGraphs w.cache obj (defaulted env.test Gi) layers Gs ∧ r.2.calls = w.calls + k ∧ k ≤ n ∧
      Iteration (fun i => multiMaximiser env Gs (defaulted env.test Gx) (w.calls + i))
        (reestimateMulti env (defaulted env.test Gi) (defaulted env.test Gx) layers model ωmax T)
        (WithinBoth γtol ωtol) n (.fin γ, ω) vs k (r.1.map fun x => ((x.1, x.2.1), some x.2.2.1)) ∧
      ∀ x, r.1 = .ok x → x.2.2.2 = (defaulted env.test Gi, defaulted env.test Gx) := by
  obtain ⟨r, Gs, vs, k, h1, h2, h3, h4, h5⟩ := iterateMulti_run (obj := obj) hp h γ ω γtol ωtol ωmax hn w hcap
  rw [h5]
  exact ⟨Gs, vs, k, h1, h2, iteration_calls_le h3, h3, fun x hx => (h4 x hx).1⟩

/-- What a successful re-estimation means: a probability `p`, and the result of `gamma_omega_estimate`. -/
theorem reestimateMulti_ok (h : Admissible env Gi Gx layers model T ws) {ωmax : ℝ} {π π' : Fl ℝ × ℝ} {c : List Nat}
    (hc : c.length = Gi.vcount)
    (hu : reestimateMulti env (defaulted env.test Gi) (defaulted env.test Gx) layers model ωmax T π c = .ok π') :
    (∃ θin θout p K, estimateMultilayerSBM env.fsolve (defaulted env.test Gi) (defaulted env.test Gx) layers c model none
      none none none = .ok (θin, θout, p, K) ∧ 0 ≤ p ∧ p ≤ 1) ∧
    gammaOmegaEstimate env.test env.fsolve (defaulted env.test Gi) (defaulted env.test Gx) layers c ωmax model =
      .ok ((some π'.1, π'.2), defaulted env.test Gi) := by
  unfold reestimateMulti at hu
  obtain ⟨⟨θin, θout, p, K⟩, h1, hu⟩ := Py.bind_ok' hu
  simp only at hu
  split at hu
  · cases hu
  · rename_i hp
    rw [not_not] at hp
    refine ⟨⟨θin, θout, p, K, h1, hp⟩, ?_⟩
    cases hg : gammaFromParameters θin θout with
    | none => rw [hg] at hu; cases hu
    | some g =>
      rw [hg] at hu
      obtain ⟨f, hf, hu⟩ := Py.bind_ok' hu
      obtain ⟨o, ho, hu⟩ := Py.bind_ok' hu
      obtain rfl := Except.ok.inj hu
      simp only [gammaOmegaEstimate_def]
      rw [h.count, Py.ok_bind]
      unfold leidenPartWithMembership
      rw [if_pos (by rw [hc, (defaulted_shape env.test Gi).1]), Py.ok_bind, ecount_defaulted, Py.ok_bind]
      have : estimateMultilayerSBM env.fsolve (defaulted env.test Gi) (defaulted env.test Gx) layers c model none (some T)
          none none = .ok (θin, θout, p, K) := by
        rw [← h1]
        unfold estimateMultilayerSBM
        simp only [orCompute, h.count]
      rw [this, Py.ok_bind]
      simp only
      rw [hf, Py.ok_bind, ho, Py.ok_bind, hg]
      rfl

/-- **C47 (result).** A call that returns gives a partition found by its last optimisation at some parameters `π'`, and its
`gamma_omega_estimate`; fewer than `max_iter` optimisations are made only if both parameters moved less than their
tolerances; the estimated copying probability is a probability. -/
theorem c47_returns_estimates_of_partition (hp : ProducesPartitions env) (h : Admissible env Gi Gx layers model T ws)
    {γ ω γtol ωtol ωmax : ℝ} {n : Nat} (hn : 0 < n) {verbose : Bool} {w w' : World} (hcap : 0 < w.cache.cap)
    {γout : Fl ℝ} {ωout : ℝ} {c : List Nat} {Gi' Gx' : Graph ℝ}
    (hrun : iterateMulti env obj Gi Gx layers γ ω γtol ωtol ωmax n model verbose w =
      (.ok (γout, ωout, c, Gi', Gx'), w')) :
    Gi' = defaulted env.test Gi ∧ Gx' = defaulted env.test Gx ∧ w.calls < w'.calls ∧ w'.calls ≤ w.calls + n ∧
    gammaOmegaEstimate env.test env.fsolve Gi' Gx' layers c ωmax model = .ok ((some γout, ωout), Gi') ∧
    (∃ θin θout p K, estimateMultilayerSBM env.fsolve Gi' Gx' layers c model none none none none = .ok (θin, θout, p, K) ∧
      0 ≤ p ∧ p ≤ 1) ∧
    ∃ Gs π', LayerGraphs w.cache obj Gi' layers Gs ∧ multiMaximiser env Gs Gx' (w'.calls - 1) π' = .ok c ∧
      (w'.calls < w.calls + n → WithinBoth γtol ωtol (γout, ωout) π') := by
  obtain ⟨r, Gs, vs, k, h1, h2, h3, h4, h5⟩ := iterateMulti_run (obj := obj) hp h γ ω γtol ωtol ωmax hn w hcap
  rw [h5] at hrun
  subst hrun
  obtain ⟨hgr, -⟩ := h4 _ rfl
  simp only [Prod.mk.injEq] at hgr
  obtain ⟨rfl, rfl⟩ := hgr
  obtain ⟨hl, hk, hv, π', hlast, hu, hor⟩ := h3
  have hlen : 0 < vs.length := List.length_pos_iff.mpr (by rintro rfl; simp at hlast)
  simp only at h2
  have hfound := hv.found (vs.length - 1) (π', c) (by rw [← List.getLast?_eq_getElem?]; exact hlast)
  simp only at hfound
  have hc : c.length = Gi.vcount := by
    have := hp.2 _ _ _ _ hfound (defaulted env.test Gx) 0 (Or.inr (by simp [multiplexProblem]))
    rw [this, (defaulted_shape env.test Gx).1, h.vcount]
  obtain ⟨e1, e2⟩ := reestimateMulti_ok h hc hu
  refine ⟨rfl, rfl, by omega, by omega, e2, e1, Gs, π', h1, ?_, ?_⟩
  · rw [← hfound]
    congr 1
    omega
  · intro hlt
    rcases hor with hor | hor
    · omega
    · exact hor

/-- **C47 (malformed input).** If the preparation raises (in particular if the consistency check does), so does the call,
before any optimisation and without any effect on the process. -/
theorem c47_malformed (γ ω γtol ωtol ωmax : ℝ) (n : Nat) (verbose : Bool) (w : World) {e : PyErr}
    (he : prepareMultilayer (defaulted env.test Gi) (defaulted env.test Gx) layers model = .error e) :
    iterateMulti env obj Gi Gx layers γ ω γtol ωtol ωmax n model verbose w = (.error e, w) := by
  unfold iterateMulti
  rw [ensureWeight_ecount, Prog.lift_ok, ensureWeight_ecount, Prog.lift_ok, he, Prog.lift_error]

theorem c47_unknown_model_error (hm : ¬ (model = "temporal" ∨ model = "multilevel" ∨ model = "multiplex")) {N : Nat}
    {mt : List ℝ} {Nt : List Nat}
    (hprep : prepareMultilayer (defaulted env.test Gi) (defaulted env.test Gx) layers model = .ok (T, mt, N, Nt))
    (γ ω γtol ωtol ωmax : ℝ) (n : Nat) (verbose : Bool) (w : World) :
    iterateMulti env obj Gi Gx layers γ ω γtol ωtol ωmax n model verbose w =
      (.error (.valueError (msgModel model)), w) := by
  have hf : omegaFunctionFromModel model ωmax T = .error (.valueError (msgModel model)) := by
    unfold omegaFunctionFromModel
    rw [if_neg (by tauto), if_neg (by tauto)]
  unfold iterateMulti
  rw [ensureWeight_ecount, Prog.lift_ok, ensureWeight_ecount, Prog.lift_ok, hprep, Prog.lift_ok]
  simp only
  rw [hf, Prog.lift_error]

/-- **C47 (unknown model).** So does any model name other than the three, even if the consistency check lets it pass. -/
theorem c47_unknown_model (hm : ¬ (model = "temporal" ∨ model = "multilevel" ∨ model = "multiplex"))
    (γ ω γtol ωtol ωmax : ℝ) (n : Nat) (verbose : Bool) (w : World) :
    ∃ e, iterateMulti env obj Gi Gx layers γ ω γtol ωtol ωmax n model verbose w = (.error e, w) := by
  cases hprep : prepareMultilayer (defaulted env.test Gi) (defaulted env.test Gx) layers model with
  | error e => exact ⟨e, c47_malformed γ ω γtol ωtol ωmax n verbose w hprep⟩
  | ok p =>
    obtain ⟨T, mt, N, Nt⟩ := p
    exact ⟨_, c47_unknown_model_error hm hprep γ ω γtol ωtol ωmax n verbose w⟩

end Verif.Props
