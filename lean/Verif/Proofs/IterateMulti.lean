import Verif.Proofs.Leiden
import Verif.Props.Consistency

/-!
# The multilayer iteration
-/

namespace Verif
open Spec Props

theorem ecount_defaulted {F : Type} [One F] (test : Graph F → Bool) (G : Graph F) :
    ensureWeight test (defaulted test G).ecount (defaulted test G) = .ok (defaulted test G) := by
  refine ensureWeight_defaulted test ?_
  unfold Graph.ecount
  rw [(defaulted_shape test G).2.1]
  rcases Nat.eq_zero_or_pos G.edges.length with h | h
  · exact Or.inr (List.length_eq_zero_iff.mp h)
  · exact Or.inl h

/-- One call of `multilayer_leiden` on graphs with their default weights. -/
theorem multilayerLeiden_run (env : LeidenEnv) (obj : Nat) (Gi Gx : Graph ℝ) (layers : List Nat) (γ : Fl ℝ) (ω : ℝ)
    (w : World) {Gs : List (Graph ℝ)} (h : LayerGraphs w.cache obj (defaulted env.test Gi) layers Gs) :
    multilayerLeiden env obj (defaulted env.test Gi) (defaulted env.test Gx) layers γ ω w =
      ((multiMaximiser env Gs (defaulted env.test Gx) w.calls (γ, ω)).map fun c =>
          (c, defaulted env.test Gi, defaulted env.test Gx),
        { w with calls := w.calls + 1, cache := (splitIntralayer w.cache obj (defaulted env.test Gi) layers).1 }) := by
  unfold multilayerLeiden
  rw [ecount_defaulted, Prog.lift_ok, ecount_defaulted, Prog.lift_ok, Prog.bind_eq]
  unfold LayerGraphs at h
  simp only [Prog.split, h]
  rw [Prog.bind_eq]
  simp only [Prog.optimise, multiMaximiser]
  cases env.optimiseMultiplex w.calls (multiplexProblem Gs (defaulted env.test Gx) γ ω).1
    (multiplexProblem Gs (defaulted env.test Gx) γ ω).2 <;> rfl

theorem multiBody_spec {env : LeidenEnv} (hp : ProducesPartitions env) {obj : Nat} {Gi Gx : Graph ℝ} (hi : Gi.WF)
    (hx : Gx.WF) (hs : SaneTest env.test Gi) {layers : List Nat} {model : String}
    (hmodel : model = "temporal" ∨ model = "multilevel" ∨ model = "multiplex") {T N : Nat} {mt : List ℝ} {Nt : List Nat}
    (hprep : prepareMultilayer (defaulted env.test Gi) (defaulted env.test Gx) layers model = .ok (T, mt, N, Nt))
    (hv : Gx.vcount = Gi.vcount) {omegaMax : ℝ} {f : ℝ → ℝ → ℝ → Nat → Py ℝ}
    (hf : omegaFunctionFromModel model omegaMax T = .ok f) (gammaTol omegaTol : ℝ) (Gs : List (Graph ℝ)) :
    BodySpec (multiMaximiser env Gs (defaulted env.test Gx))
      (reestimateMulti env (defaulted env.test Gi) (defaulted env.test Gx) layers model omegaMax T)
      (WithinBoth gammaTol omegaTol)
      (fun s : MultiState => s.Gi = defaulted env.test Gi ∧ s.Gx = defaulted env.test Gx)
      (fun w => LayerGraphs w.cache obj (defaulted env.test Gi) layers Gs ∧ 0 < w.cache.cap)
      (fun s => (s.gamma, s.omega)) (fun s w => s.last.bind fun _ => w.parts)
      (multiBody env obj layers model T N Nt mt f gammaTol omegaTol) := by
  rintro ⟨SGi, SGx, γ, ω, last⟩ w ⟨rfl, rfl⟩ ⟨hL, hcap⟩
  have hL' : LayerGraphs (splitIntralayer w.cache obj (defaulted env.test Gi) layers).1 obj (defaulted env.test Gi) layers Gs ∧
      0 < (splitIntralayer w.cache obj (defaulted env.test Gi) layers).1.cap := by
    obtain ⟨h1, h2⟩ := LRU.call_hit hcap hL (splitLayers (defaulted env.test Gi).vcount (defaulted env.test Gi).edges
      (defaulted env.test Gi).weight (defaulted env.test Gi).directed layers)
    exact ⟨h1, by unfold splitIntralayer; omega⟩
  unfold multiBody
  rw [Prog.bind_eq, multilayerLeiden_run env obj Gi Gx layers γ ω w hL]
  simp only
  cases hm : multiMaximiser env Gs (defaulted env.test Gx) w.calls (γ, ω) with
  | error e => exact ⟨hL', rfl, rfl⟩
  | ok c =>
    have hc : c.length = (defaulted env.test Gi).vcount := by
      have := hp.2 _ _ _ _ hm (defaulted env.test Gx) 0 (Or.inr (by simp [multiplexProblem]))
      rw [this, (defaulted_shape env.test Gx).1, (defaulted_shape env.test Gi).1, hv]
    simp only [Except.map]
    rw [Prog.bind_eq]
    simp only [Prog.setParts]
    rw [Prog.bind_eq]
    simp only [Prog.lift]
    obtain ⟨ws, hws⟩ := defaulted_weight hs
    obtain ⟨θin, θout, p, h1, h2⟩ := c50_no_crash env.fsolve (defaulted_wf (test := env.test) hi)
      (defaulted_wf (test := env.test) hx) hws hmodel hprep hc
    have he : estimateMulti env layers model T N Nt mt (defaulted env.test Gi) (defaulted env.test Gx) c =
        .ok ((θin, θout, p, partLen c), defaulted env.test Gi) := by
      unfold estimateMulti
      rw [ecount_defaulted, Py.ok_bind, h1]; rfl
    have hu : reestimateMulti env (defaulted env.test Gi) (defaulted env.test Gx) layers model omegaMax T (γ, ω) c =
        (if ¬ (0 ≤ p ∧ p ≤ 1) then .error (.valueError (msgImpossibleP env γ ω p))
        else match gammaFromParameters θin θout with
          | none => .error (.valueError (msgDegenerateMulti env γ ω))
          | some gamma => (f θin θout p (partLen c)).map fun o => (gamma, o)) := by
      unfold reestimateMulti
      rw [h2, Py.ok_bind]
      simp only [hf, Py.ok_bind]
      split
      · rfl
      · cases gammaFromParameters θin θout with
        | none => rfl
        | some g => cases f θin θout p (partLen c) <;> rfl
    rw [he, hu]
    simp only
    by_cases hpp : ¬ (0 ≤ p ∧ p ≤ 1)
    · rw [if_pos hpp, if_pos hpp]
      exact ⟨hL', rfl, rfl⟩
    · rw [if_neg hpp, if_neg hpp]
      cases gammaFromParameters θin θout with
      | none => exact ⟨hL', rfl, rfl⟩
      | some g =>
        cases f θin θout p (partLen c) with
        | error e => exact ⟨hL', rfl, rfl⟩
        | ok o =>
          refine ⟨hL', rfl, _, _, rfl, ⟨rfl, rfl⟩, rfl, rfl, ?_⟩
          simp only [Bool.and_eq_true, decide_eq_true_eq, near_iff, WithinBoth]

end Verif
