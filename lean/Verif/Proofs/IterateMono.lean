import Verif.Proofs.Iterate

/-!
# The single-layer iteration
-/

namespace Verif
open Spec Props

theorem ensureWeight_ecount {F : Type} [One F] (test : Graph F → Bool) (G : Graph F) :
    ensureWeight test G.ecount G = .ok (defaulted test G) := by
  unfold ensureWeight defaulted
  split
  · rfl
  · rcases Nat.eq_zero_or_pos G.ecount with h | h
    · have h' : G.edges = [] := List.length_eq_zero_iff.mp h
      unfold Graph.setEsWeight
      rw [if_neg (by rintro ⟨-, h2⟩; exact h2 h')]
      simp [h', h]
    · rw [setEsWeight_ones h]; rfl

theorem ensureWeight_defaulted {F : Type} [One F] (test : Graph F → Bool) {G : Graph F} {n : Nat}
    (hn : 0 < n ∨ G.edges = []) : ensureWeight test n (defaulted test G) = .ok (defaulted test G) := by
  unfold ensureWeight
  by_cases h : test (defaulted test G) = true
  · rw [if_pos h]
  · rw [if_neg h]
    have ht : ¬ test G = true := by
      intro ht
      unfold defaulted at h
      rw [if_pos ht] at h
      exact h ht
    unfold defaulted
    rw [if_neg ht]
    rcases Nat.eq_zero_or_pos n with rfl | hn'
    · have h' : G.edges = [] := by rcases hn with h | h; omega; exact h
      simp [Graph.setEsWeight, h', Graph.ecount]
    · rw [setEsWeight_ones hn']; rfl

theorem defaulted_weight {F : Type} [One F] {test : Graph F → Bool} {G : Graph F} (h : SaneTest test G) :
    ∃ ws, (defaulted test G).weight = some ws := by
  unfold defaulted
  split
  · rename_i ht; exact Option.ne_none_iff_exists'.mp (h ht)
  · exact ⟨_, rfl⟩

theorem defaulted_shape {F : Type} [One F] (test : Graph F → Bool) (G : Graph F) :
    (defaulted test G).vcount = G.vcount ∧ (defaulted test G).edges = G.edges ∧
      (defaulted test G).directed = G.directed := by
  unfold defaulted; split <;> exact ⟨rfl, rfl, rfl⟩

theorem defaulted_wf {F : Type} [One F] {test : Graph F → Bool} {G : Graph F} (h : G.WF) : (defaulted test G).WF := by
  unfold defaulted
  split
  · exact h
  · refine ⟨h.1, ?_⟩
    intro ws hws
    obtain rfl := Option.some.inj hws
    simp [Graph.ecount]

/-- With the graph's own total weight, the SBM estimate is that of `gamma_estimate`. -/
theorem gammaEstimate_defaulted {test : Graph ℝ → Bool} {G : Graph ℝ} (hG : G.WF) {ws : List ℝ}
    (hw : (defaulted test G).weight = some ws) {c : List Nat} (hc : c.length = G.vcount) :
    gammaEstimate test (defaulted test G) c =
      (estimateSinglelayerSBM (defaulted test G) c (some ws.sum)).map
        fun p => (gammaFromParameters p.1 p.2, defaulted test G) := by
  unfold gammaEstimate
  have hn : 0 < (defaulted test G).vcount ∨ G.edges = [] := by
    rw [(defaulted_shape test G).1]
    by_cases h : G.edges = []
    · exact Or.inr h
    · obtain ⟨e, he⟩ := List.exists_mem_of_ne_nil _ h
      have := (hG.1 e he).1
      exact Or.inl (by omega)
  rw [ensureWeight_defaulted test hn, Py.ok_bind]
  unfold leidenPartWithMembership
  rw [if_pos (by rw [(defaulted_shape test G).1, hc]), Py.ok_bind]
  have h2 : estimateSinglelayerSBM (defaulted test G) c none = estimateSinglelayerSBM (defaulted test G) c (some ws.sum) := by
    unfold estimateSinglelayerSBM orCompute Graph.esWeight
    rw [hw]; rfl
  rw [h2]
  cases estimateSinglelayerSBM (defaulted test G) c (some ws.sum) <;> rfl

/-- The maximisation functions of the supported methods. -/
theorem maximizeMono_run {env : LeidenEnv} {method : String}
    (hm : method = "louvain" ∨ method = "leiden" ∨ method = "2-spinglass") :
    ∃ f, maximizeMono env method = .ok f ∧ ∀ (G : Graph ℝ) (γ : Fl ℝ) (w : World),
      f (defaulted env.test G) γ w =
        ((maximiser env method (defaulted env.test G) w.calls γ).map fun c => (c, defaulted env.test G),
         { w with calls := w.calls + 1 }) := by
  unfold maximizeMono
  by_cases h1 : method = "louvain" ∨ method = "leiden"
  · rw [if_pos h1]
    refine ⟨_, rfl, ?_⟩
    intro G γ w
    unfold singlelayerLeiden
    rw [show (defaulted env.test G).ecount = G.ecount from by unfold Graph.ecount; rw [(defaulted_shape env.test G).2.1]]
    rw [ensureWeight_defaulted env.test (by
      rcases Nat.eq_zero_or_pos G.ecount with h | h
      · exact Or.inr (List.length_eq_zero_iff.mp h)
      · exact Or.inl h), Prog.lift_ok, Prog.bind_eq]
    have h2 : method ≠ "2-spinglass" := by rintro rfl; revert h1; decide
    simp only [Prog.optimise, maximiser, if_neg h2]
    cases env.findPartition w.calls (defaulted env.test G) γ <;> rfl
  · have h2 : method = "2-spinglass" := by tauto
    rw [if_neg h1, if_pos h2]
    refine ⟨_, rfl, ?_⟩
    intro G γ w
    rw [Prog.bind_eq]
    simp only [Prog.optimise, maximiser, if_pos h2]
    cases env.spinglass w.calls (defaulted env.test G) γ with
    | error e => rfl
    | ok c =>
      simp only
      unfold leidenPartWithMembership
      split <;> rfl

theorem maximizeMono_unsupported {env : LeidenEnv} {method : String}
    (hm : ¬ (method = "louvain" ∨ method = "leiden" ∨ method = "2-spinglass")) :
    maximizeMono env method = .error (.valueError ("Community detection method " ++ method ++ " not supported")) := by
  unfold maximizeMono
  rw [if_neg (by tauto), if_neg (by tauto)]

theorem maximiser_length {env : LeidenEnv} (hp : ProducesPartitions env) {method : String} {G : Graph ℝ} {i : Nat}
    {γ : Fl ℝ} {c : List Nat} (h : maximiser env method G i γ = .ok c) : c.length = G.vcount := by
  unfold maximiser at h
  split at h
  · split at h
    · split at h
      · obtain rfl := Except.ok.inj h; assumption
      · cases h
    · cases h
  · exact hp.1 _ _ _ _ h

theorem monoBody_spec {env : LeidenEnv} (hp : ProducesPartitions env) {method : String} {G : Graph ℝ} (hG : G.WF)
    {ws : List ℝ} (hw : (defaulted env.test G).weight = some ws) (tol : ℝ) (w₀ : World)
    {f : Graph ℝ → Fl ℝ → Prog (List Nat × Graph ℝ)}
    (hf : ∀ (γ : Fl ℝ) (w : World), f (defaulted env.test G) γ w =
        ((maximiser env method (defaulted env.test G) w.calls γ).map fun c => (c, defaulted env.test G),
         { w with calls := w.calls + 1 })) :
    BodySpec (maximiser env method (defaulted env.test G)) (reestimate env (defaulted env.test G)) (Within tol)
      (fun s : MonoState => s.G = defaulted env.test G ∧ (s.last = none → s.part = none)) (fun w => w.cache = w₀.cache ∧ w.parts = w₀.parts)
      (fun s => s.gamma) (fun s _ => s.part) (monoBody env f ws.sum tol) := by
  intro s w hs hJ
  unfold monoBody
  rw [Prog.bind_eq, hs.1, hf]
  cases hm : maximiser env method (defaulted env.test G) w.calls s.gamma with
  | error e => exact ⟨hJ, rfl, rfl⟩
  | ok c =>
    have hc : c.length = G.vcount := by rw [maximiser_length hp hm, (defaulted_shape env.test G).1]
    simp only [Except.map]
    rw [Prog.bind_eq]
    simp only [Prog.lift]
    unfold reestimate
    rw [gammaEstimate_defaulted hG hw hc]
    cases estimateSinglelayerSBM (defaulted env.test G) c (some ws.sum) with
    | error e => exact ⟨hJ, rfl, rfl⟩
    | ok r =>
      simp only [Except.map]
      cases gammaFromParameters r.1 r.2 with
      | none => exact ⟨hJ, rfl, rfl⟩
      | some g => exact ⟨hJ, rfl, _, _, rfl, ⟨rfl, by simp⟩, rfl, rfl, near_iff tol g s.gamma⟩

end Verif
