import Verif.Proofs.IterateMono

/-!
# Property C46: `iterative_monolayer_resolution_parameter_estimation`

`Spec.Iteration` describes runs; `maximiser env method G i γ` is what the `i`-th optimisation of the process returns on
`G` at `γ` (arbitrary), `reestimate env G γ c` is `gamma_estimate(G, c)` with `None` turned into the "degenerate" error,
`defaulted` adds unit weights if needed.
-/

namespace Verif.Props
open Verif Verif.Spec

variable {env : LeidenEnv} {G : Graph ℝ} {method : String}

/-- The supported methods. -/
def Supported (method : String) : Prop := method = "louvain" ∨ method = "leiden" ∨ method = "2-spinglass"

theorem iterateMono_run (hp : ProducesPartitions env) (hG : G.WF) (hs : SaneTest env.test G) (hm : Supported method)
    (γ tol : ℝ) (n : Nat) (w : World) :
    ∃ r vs k, r.2 = { w with calls := w.calls + k } ∧
      Iteration (fun i => maximiser env method (defaulted env.test G) (w.calls + i))
        (reestimate env (defaulted env.test G)) (Within tol) n (.fin γ) vs k
        (r.1.map fun x => (x.1, x.2.1)) ∧
      (∀ x, r.1 = .ok x → x.2.2 = defaulted env.test G ∧ (n ≠ 0 → x.2.1 ≠ none)) ∧
      ∀ verbose, iterateMono env G γ tol n verbose method w =
        if verbose = true ∧ n = 0 then (.error .typeError, w) else r := by
  obtain ⟨ws, hws⟩ := defaulted_weight hs
  obtain ⟨f, hf, hrun⟩ := maximizeMono_run (env := env) hm
  obtain ⟨hJ, hI, vs, k, hk, hit⟩ := forRange_iteration
    (monoBody_spec hp hG hws tol w (f := f) (fun γ w => hrun G γ w)) n ⟨defaulted env.test G, .fin γ, none, none⟩ w
    ⟨rfl, fun _ => rfl⟩ ⟨rfl, rfl⟩
  have hgo : ∀ verbose, iterateMono env G γ tol n verbose method w =
      match forRange (monoBody env f ws.sum tol) n ⟨defaulted env.test G, .fin γ, none, none⟩ w with
      | (.ok r, w') => (if verbose ∧ r.2 = false ∧ r.1.last = none then Prog.lift (.error .typeError)
          else if verbose ∧ r.1.part = none then Prog.lift (.error .typeError)
          else pure (r.1.gamma, r.1.part, r.1.G) : Prog _) w'
      | (.error e, w') => (.error e, w') := by
    intro verbose
    unfold iterateMono
    rw [ensureWeight_ecount, Prog.lift_ok]
    have : (defaulted env.test G).esWeight = .ok ws := by unfold Graph.esWeight; rw [hws]
    rw [this, Prog.lift_ok, hf, Prog.lift_ok, Prog.bind_eq]
    rcases forRange (monoBody env f ws.sum tol) n ⟨defaulted env.test G, .fin γ, none, none⟩ w with ⟨_ | a, w'⟩ <;> rfl
  refine ⟨(((forRange (monoBody env f ws.sum tol) n ⟨defaulted env.test G, .fin γ, none, none⟩ w).1.map fun r =>
      (r.1.gamma, r.1.part, r.1.G)), (forRange (monoBody env f ws.sum tol) n ⟨defaulted env.test G, .fin γ, none, none⟩ w).2),
    vs, k, ?_, ?_, ?_, ?_⟩
  · cases hr : (forRange (monoBody env f ws.sum tol) n ⟨defaulted env.test G, .fin γ, none, none⟩ w).2 with
    | mk a b c =>
      rw [hr] at hJ hk
      simp only at hJ hk
      rw [hJ.1, hJ.2, hk]
  · simp only at hit
    convert hit using 1
    cases hr : (forRange (monoBody env f ws.sum tol) n ⟨defaulted env.test G, .fin γ, none, none⟩ w).1 with
    | error e => rfl
    | ok r =>
      simp only [Except.map]
      by_cases hn : n = 0
      · obtain ⟨rfl, -⟩ := (hI r hr).2.2 hn
        simp [hn]
      · simp [hn]
  · intro x hx
    cases hr : (forRange (monoBody env f ws.sum tol) n ⟨defaulted env.test G, .fin γ, none, none⟩ w).1 with
    | error e => simp [hr, Except.map] at hx
    | ok r =>
      simp only [hr, Except.map, Except.ok.injEq] at hx
      subst hx
      exact ⟨(hI r hr).1.1, (hI r hr).2.1⟩
  · intro verbose
    rw [hgo]
    rcases hr : forRange (monoBody env f ws.sum tol) n ⟨defaulted env.test G, .fin γ, none, none⟩ w with ⟨_ | r, w'⟩
    · rw [if_neg]
      · rfl
      · rintro ⟨-, rfl⟩
        obtain ⟨h1, -⟩ := Prod.mk.inj hr
        simp at h1
    · simp only [Except.map]
      by_cases hn : n = 0
      · subst hn
        obtain ⟨h1, h2⟩ := Prod.mk.inj hr
        obtain rfl := Except.ok.inj h1
        cases verbose
        · simp; subst h2; rfl
        · simp; subst h2; rfl
      · have h2 : r.1.part ≠ none := (hI r (by rw [hr])).2.1 hn
        have h1 := (hI r (by rw [hr])).1.2
        rw [if_neg (by tauto), if_neg (by tauto), if_neg (by tauto)]
        rfl

/-- **C46.** For every behaviour of the community detection (an arbitrary function of the position in the process's
sequence of optimisations), every start value, tolerance and limit `n`, a non-verbose call performs an `Iteration`:
maximisations and re-estimations alternate, starting at the given gamma; on normal return the gamma is the estimate of
the returned partition, and either `n` maximisations were made or the last move of gamma was below the tolerance;
otherwise the exception is that of the maximisation or of the estimation ("degenerate" when the estimate is `None`).
Nothing else of the process state changes, and the graph ends up with its default weights. -/
theorem c46_iteration (hp : ProducesPartitions env) (hG : G.WF) (hs : SaneTest env.test G) (hm : Supported method)
    (γ tol : ℝ) (n : Nat) (w : World) :
    let r := iterateMono env G γ tol n false method w
    ∃ vs k, r.2 = { w with calls := w.calls + k } ∧
      Iteration (fun i => maximiser env method (defaulted env.test G) (w.calls + i))
        (reestimate env (defaulted env.test G)) (Within tol) n (.fin γ) vs k
        (r.1.map fun x => (x.1, x.2.1)) ∧
      ∀ x, r.1 = .ok x → x.2.2 = defaulted env.test G := by
  obtain ⟨r, vs, k, h1, h2, h3, h4⟩ := iterateMono_run hp hG hs hm γ tol n w
  have h4 := h4 false
  simp only [Bool.false_eq_true, false_and, if_false] at h4
  rw [h4]
  exact ⟨vs, k, h1, h2, fun x hx => (h3 x hx).1⟩

theorem iteration_calls_le {P C : Type} {maximise : Nat → P → Py C} {update : P → C → Py P} {near : P → P → Prop}
    {n k : Nat} {π : P} {vs : List (P × C)} {res : Py (P × Option C)}
    (h : Iteration maximise update near n π vs k res) : k ≤ n := by
  rcases res with e | ⟨π, c | c⟩
  · rcases h.2 with h | h <;> omega
  · exact h.2.2.1 ▸ Nat.zero_le _
  · exact h.2.1 ▸ h.1

/-- **C46 (limit).** Whatever happens, at most `max_iter` maximisations are made. -/
theorem c46_at_most_max_iter (hp : ProducesPartitions env) (hG : G.WF) (hs : SaneTest env.test G)
    (hm : Supported method) (γ tol : ℝ) (n : Nat) (verbose : Bool) (w : World) :
    w.calls ≤ (iterateMono env G γ tol n verbose method w).2.calls ∧
      (iterateMono env G γ tol n verbose method w).2.calls ≤ w.calls + n := by
  obtain ⟨r, vs, k, h1, h2, h3, h4⟩ := iterateMono_run hp hG hs hm γ tol n w
  rw [h4]
  split
  · exact ⟨le_refl _, Nat.le_add_right _ _⟩
  · have := iteration_calls_le h2
    rw [h1]; simpa using this

/-- **C46 (result).** A call that returns after at least one allowed iteration returns a partition `c` found by its last
maximisation at some gamma `γ'`, together with `gamma_estimate` of `c`; fewer than `max_iter` maximisations are made only
if that estimate is within the tolerance of `γ'`. -/
theorem c46_returns_estimate_of_partition (hp : ProducesPartitions env) (hG : G.WF) (hs : SaneTest env.test G)
    (hm : Supported method) {γ tol : ℝ} {n : Nat} (hn : 0 < n) {verbose : Bool} {w w' : World} {γout : Fl ℝ}
    {part : Option (List Nat)} {Gout : Graph ℝ}
    (h : iterateMono env G γ tol n verbose method w = (.ok (γout, part, Gout), w')) :
    Gout = defaulted env.test G ∧ w.calls < w'.calls ∧ ∃ c γ', part = some c ∧
      gammaEstimate env.test Gout c = .ok (some γout, Gout) ∧
      maximiser env method Gout (w'.calls - 1) γ' = .ok c ∧
      (w'.calls < w.calls + n → Within tol γout γ') := by
  obtain ⟨r, vs, k, h1, h2, h3, h4⟩ := iterateMono_run hp hG hs hm γ tol n w
  rw [h4, if_neg (by omega)] at h
  subst h
  obtain ⟨h3a, h3b⟩ := h3 _ rfl
  simp only at h3a
  subst h3a
  cases part with
  | none => exact absurd rfl (h3b (by omega))
  | some c =>
    obtain ⟨hl, hk, hv, γ', hlast, hu, hor⟩ := h2
    have hlen : 0 < vs.length := List.length_pos_iff.mpr (by rintro rfl; simp at hlast)
    have hw : w'.calls = w.calls + k := by simp only at h1; rw [h1]
    refine ⟨rfl, by omega, c, γ', rfl, ?_, ?_, ?_⟩
    · unfold reestimate at hu
      cases hg : gammaEstimate env.test (defaulted env.test G) c with
      | error e => rw [hg] at hu; simp at hu
      | ok x =>
        obtain ⟨o, G₂⟩ := x
        rw [hg] at hu
        cases o with
        | none => simp at hu
        | some g =>
          simp only [Except.ok.injEq] at hu
          subst hu
          have hc : c.length = G.vcount := by
            have := hv.found (vs.length - 1) (γ', c) (by rw [← List.getLast?_eq_getElem?]; exact hlast)
            rw [maximiser_length hp this, (defaulted_shape env.test G).1]
          obtain ⟨ws, hws⟩ := defaulted_weight hs
          rw [gammaEstimate_defaulted hG hws hc] at hg
          cases hsb : estimateSinglelayerSBM (defaulted env.test G) c (some ws.sum) with
          | error e => rw [hsb] at hg; simp [Except.map] at hg
          | ok y =>
            rw [hsb] at hg
            simp only [Except.map, Except.ok.injEq, Prod.mk.injEq] at hg
            rw [hg.2]
    · have := hv.found (vs.length - 1) (γ', c) (by rw [← List.getLast?_eq_getElem?]; exact hlast)
      simp only at this
      rw [← this]
      congr 1
      omega
    · intro hlt
      rcases hor with hor | hor
      · omega
      · exact hor

/-- **C46 (verbosity).** Verbose output changes nothing, except that with `max_iter = 0` it raises `TypeError` (where a
silent call returns the start value and no partition). -/
theorem c46_verbose (hp : ProducesPartitions env) (hG : G.WF) (hs : SaneTest env.test G) (hm : Supported method)
    (γ tol : ℝ) (n : Nat) (w : World) :
    (0 < n → iterateMono env G γ tol n true method w = iterateMono env G γ tol n false method w) ∧
    iterateMono env G γ tol 0 false method w = (.ok (.fin γ, none, defaulted env.test G), w) ∧
    iterateMono env G γ tol 0 true method w = (.error .typeError, w) := by
  obtain ⟨ws, hws⟩ := defaulted_weight hs
  obtain ⟨f, hf, hrun⟩ := maximizeMono_run (env := env) hm
  have h0 : ∀ v, iterateMono env G γ tol 0 v method w =
      if v = true then (.error .typeError, w) else (.ok (.fin γ, none, defaulted env.test G), w) := by
    intro v
    unfold iterateMono
    rw [ensureWeight_ecount, Prog.lift_ok]
    have : (defaulted env.test G).esWeight = .ok ws := by unfold Graph.esWeight; rw [hws]
    rw [this, Prog.lift_ok, hf, Prog.lift_ok]
    cases v <;> rfl
  refine ⟨?_, h0 false, h0 true⟩
  intro hn
  obtain ⟨r, vs, k, -, -, -, h4⟩ := iterateMono_run hp hG hs hm γ tol n w
  rw [h4, h4, if_neg (by omega), if_neg (by omega)]

/-- **C46 (methods).** Any other method name is rejected before any maximisation. -/
theorem c46_unsupported_method (hs : SaneTest env.test G) (hm : ¬ Supported method) (γ tol : ℝ) (n : Nat)
    (verbose : Bool) (w : World) :
    iterateMono env G γ tol n verbose method w =
      (.error (.valueError ("Community detection method " ++ method ++ " not supported")), w) := by
  obtain ⟨ws, hws⟩ := defaulted_weight hs
  unfold iterateMono
  have : (defaulted env.test G).esWeight = .ok ws := by unfold Graph.esWeight; rw [hws]
  rw [ensureWeight_ecount, Prog.lift_ok, this, Prog.lift_ok, maximizeMono_unsupported hm, Prog.lift_error]

theorem reestimate_cases {G : Graph ℝ} {γ : Fl ℝ} {c : List Nat} {e : PyErr} (h : reestimate env G γ c = .error e) :
    gammaEstimate env.test G c = .error e ∨
      (∃ G', gammaEstimate env.test G c = .ok (none, G')) ∧ e = .valueError (msgDegenerate env γ) := by
  unfold reestimate at h
  cases hg : gammaEstimate env.test G c with
  | error e' => rw [hg] at h; exact Or.inl (by simpa using h)
  | ok x =>
    obtain ⟨_ | g, G'⟩ := x
    · rw [hg] at h; exact Or.inr ⟨⟨G', rfl⟩, (Except.error.inj h).symm⟩
    · rw [hg] at h; cases h

/-- **C46 (no spurious errors).** If no maximisation of the call raises and every partition found has an estimate, the call
returns. -/
theorem c46_returns (hp : ProducesPartitions env) (hG : G.WF) (hs : SaneTest env.test G) (hm : Supported method)
    (γ tol : ℝ) (n : Nat) (w : World)
    (hmax : ∀ i < n, ∀ γ', ∃ c, maximiser env method (defaulted env.test G) (w.calls + i) γ' = .ok c ∧
      ∃ g G', gammaEstimate env.test (defaulted env.test G) c = .ok (some g, G')) :
    ∃ x, (iterateMono env G γ tol n false method w).1 = .ok x := by
  obtain ⟨vs, k, -, hit, -⟩ := c46_iteration hp hG hs hm γ tol n w
  cases hr : (iterateMono env G γ tol n false method w).1 with
  | ok x => exact ⟨x, rfl⟩
  | error e =>
    exfalso
    rw [hr] at hit
    obtain ⟨hv, ⟨hl, -, v, hlast, hu⟩ | ⟨hl, -, π, hmx, -⟩⟩ := hit
    · have hlen : 0 < vs.length := List.length_pos_iff.mpr (by rintro rfl; simp at hlast)
      have hf := hv.found (vs.length - 1) v (by rw [← List.getLast?_eq_getElem?]; exact hlast)
      obtain ⟨c, hc, g, G', hg⟩ := hmax (vs.length - 1) (by omega) v.1
      rw [hc] at hf
      obtain rfl := Except.ok.inj hf
      rcases reestimate_cases hu with h | ⟨⟨G'', h⟩, -⟩ <;> rw [hg] at h <;> cases h
    · obtain ⟨c, hc, -⟩ := hmax vs.length hl π
      simp only at hmx
      rw [hc] at hmx
      cases hmx

/-- **C46 (fixed points).** If the community detection keeps finding the same partition, with a real estimate `g`, then two
iterations are enough, whatever the start value and the positive tolerance, and the call returns `g` and that
partition. -/
theorem c46_fixed_point (hp : ProducesPartitions env) (hG : G.WF) (hs : SaneTest env.test G) (hm : Supported method)
    (γ : ℝ) {tol : ℝ} (htol : 0 < tol) {n : Nat} (hn : 2 ≤ n) (w : World) {c : List Nat} {g : ℝ}
    (hmax : ∀ i γ', maximiser env method (defaulted env.test G) i γ' = .ok c)
    (hest : ∃ G', gammaEstimate env.test (defaulted env.test G) c = .ok (some (.fin g), G')) :
    ∃ w', iterateMono env G γ tol n false method w = (.ok (.fin g, some c, defaulted env.test G), w') ∧
      w'.calls ≤ w.calls + 2 := by
  obtain ⟨G', hest⟩ := hest
  obtain ⟨x, hx⟩ := c46_returns hp hG hs hm γ tol n w (fun i _ γ' => ⟨c, hmax _ _, _, _, hest⟩)
  obtain ⟨vs, k, hw, hit, hgr⟩ := c46_iteration hp hG hs hm γ tol n w
  have hgr := hgr x hx
  rw [hx] at hit
  obtain ⟨γo, po, Go⟩ := x
  have hup : ∀ a, reestimate env (defaulted env.test G) a c = .ok (.fin g) := by
    intro a; unfold reestimate; rw [hest]
  cases po with
  | none => have := hit.1; omega
  | some c' =>
    obtain ⟨hl, hk, hv, γ', hlast, hu, hor⟩ := hit
    have hall : ∀ (i : Nat) (v : Fl ℝ × List Nat), vs[i]? = some v → v.2 = c := by
      intro i v hi
      have := hv.found i v hi
      simp only [hmax] at this
      exact (Except.ok.inj this).symm
    obtain rfl : c' = c := hall (vs.length - 1) (γ', c') (by rw [← List.getLast?_eq_getElem?]; exact hlast)
    rw [hup] at hu
    obtain rfl := Except.ok.inj hu
    simp only at hgr
    subst hgr
    refine ⟨_, Prod.ext hx rfl, ?_⟩
    refine le_of_eq_of_le (congrArg World.calls hw) ?_
    simp only [hk]
    by_contra hcon
    have h3 : 2 < vs.length := by omega
    have e1 := (hv.step 0 vs[0] vs[1] (List.getElem?_eq_getElem _) (List.getElem?_eq_getElem _)).1
    have e2 := hv.step 1 vs[1] vs[2] (List.getElem?_eq_getElem _) (List.getElem?_eq_getElem _)
    have hc0 : vs[0].2 = c' := hall 0 _ (List.getElem?_eq_getElem _)
    have hc1 : vs[1].2 = c' := hall 1 _ (List.getElem?_eq_getElem _)
    rw [hc0, hup] at e1
    rw [hc1, hup] at e2
    have a1 := Except.ok.inj e1
    have a2 := Except.ok.inj e2.1
    exact e2.2 ⟨g, g, a2.symm, a1.symm, by simpa using htol⟩

/-! ### Witnesses -/

/-- A community detection that always finds the same two communities on five vertices. -/
noncomputable def twoBlockEnv : LeidenEnv where
  test := fun _ => false
  findPartition := fun _ G _ => .ok (if G.vcount = 5 then [0, 0, 1, 1, 1] else List.replicate G.vcount 0)
  optimiseMultiplex := fun _ _ _ => .error .keyError
  spinglass := fun _ _ _ => .error .keyError
  fsolve := fun _ x => x
  fmt := fun _ => "x"

theorem twoBlockEnv_produces : ProducesPartitions twoBlockEnv := by
  refine ⟨?_, by intro _ _ _ _ h; cases h⟩
  intro i G γ c h
  obtain rfl := Except.ok.inj h
  split
  · rename_i h5; rw [h5]; rfl
  · simp

theorem twoBlockEnv_estimate : ∃ g G', gammaEstimate twoBlockEnv.test (defaulted twoBlockEnv.test gReal) [0, 0, 1, 1, 1] =
    .ok (some (.fin g), G') := by
  obtain ⟨hA, hP, -⟩ := gReal_coefs
  have hec : (gReal.ecount : ℝ) = 5 := by norm_num [gReal, Graph.ecount]
  have hE : HasEstimate twoBlockEnv.test (defaulted twoBlockEnv.test gReal) [7, 7, 2, 2, 2]
      (logMean (6 / (52 / 10)) ((10 - 6) / (10 - 52 / 10))) := by
    rw [hasEstimate_unweighted (defaulted_wf gReal_wf) rfl (by decide) (by intro h; cases h) rfl,
      show withinAdj (defaulted twoBlockEnv.test gReal) [7, 7, 2, 2, 2] = 6 from hA,
      show withinNull (defaulted twoBlockEnv.test gReal) [7, 7, 2, 2, 2] = 52 / 10 from hP,
      show ((defaulted twoBlockEnv.test gReal).ecount : ℝ) = 5 from hec]
    refine ⟨by norm_num, by norm_num, by norm_num, by norm_num, by norm_num⟩
  obtain ⟨c, G', h1, h2⟩ := hE
  have : sortedTuple [7, 7, 2, 2, 2] = .ok [0, 0, 1, 1, 1] := by decide
  rw [this] at h1
  obtain rfl := Except.ok.inj h1
  exact ⟨_, G', h2⟩

example : ∃ g : ℝ, ∃ w', iterateMono twoBlockEnv gReal 1 (1 / 100) 25 false "leiden" World.fresh =
    (.ok (.fin g, some [0, 0, 1, 1, 1], defaulted twoBlockEnv.test gReal), w') := by
  obtain ⟨g, h⟩ := twoBlockEnv_estimate
  obtain ⟨w', hw, -⟩ := c46_fixed_point twoBlockEnv_produces gReal_wf (by intro h; cases h) (Or.inr (Or.inl rfl)) 1
    (tol := 1 / 100) (by norm_num) (n := 25) (by norm_num) World.fresh (fun _ _ => rfl) h
  exact ⟨g, w', hw⟩

end Verif.Props
