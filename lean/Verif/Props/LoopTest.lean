import Verif.Spec.LoopTest
import Verif.Props.FixedPoint
import Verif.Props.Renumber
import Verif.Props.Objective

/-!
# C80: loops in the gamma estimates
-/

set_option linter.unusedSectionVars false

namespace Verif.Props
open Verif Verif.Spec

section
variable {α : Type} [DecidableEq α] {ests : List (RangeEstimate α)}

/-- a float lies in a range iff it is a real number between the ends -/
theorem inRange_iff (e : RangeEstimate α) (g : Fl ℝ) :
    (Fl.le (.fin e.1) g && Fl.le g (.fin e.2.1)) = true ↔ ∃ x : ℝ, g = .fin x ∧ e.1 ≤ x ∧ x ≤ e.2.1 := by
  cases g <;> simp [Fl.le]

theorem gammaToDomain_some {g : Fl ℝ} {m : List α} {est : Option (Fl ℝ)} :
    gammaToDomain ests g = (some m, est) ↔ ∃ e' : RangeEstimate α, e'.2.2.1 = m ∧ e'.2.2.2 = est ∧
      ∃ x : ℝ, g = .fin x ∧ ∃ before after, ests = before ++ e' :: after ∧ (e'.1 ≤ x ∧ x ≤ e'.2.1) ∧
        ∀ y ∈ before, ¬ (y.1 ≤ x ∧ x ≤ y.2.1) := by
  unfold gammaToDomain
  cases h : ests.find? fun e => Fl.le (.fin e.1) g && Fl.le g (.fin e.2.1) with
  | none =>
    rw [List.find?_eq_none] at h
    refine ⟨fun hh => by simp at hh, ?_⟩
    rintro ⟨e', -, -, x, rfl, b, a, rfl, hin, -⟩
    exact absurd ((inRange_iff e' _).mpr ⟨x, rfl, hin⟩) (h e' (by simp))
  | some e =>
    obtain ⟨hin, b, a, hl, hb⟩ := List.find?_eq_some_iff_append.mp h
    obtain ⟨x, rfl, hx⟩ := (inRange_iff e g).mp hin
    have hb' : ∀ y ∈ b, ¬ (y.1 ≤ x ∧ x ≤ y.2.1) := by
      intro y hy hc
      have := hb y hy
      rw [(inRange_iff y (.fin x)).mpr ⟨x, rfl, hc⟩] at this
      simp at this
    simp only [Prod.mk.injEq, Option.some.injEq]
    constructor
    · rintro ⟨h1, h2⟩
      exact ⟨e, h1, h2, x, rfl, b, a, hl, hx, hb'⟩
    · rintro ⟨e', h1, h2, x', hxx, b', a', hl', hx', hb''⟩
      injection hxx with hxx
      subst hxx
      have : ests.find? (fun e => Fl.le (.fin e.1) (.fin x) && Fl.le (.fin x) (.fin e.2.1)) = some e' := by
        rw [List.find?_eq_some_iff_append]
        refine ⟨(inRange_iff e' _).mpr ⟨x, rfl, hx'⟩, b', a', hl', fun y hy => ?_⟩
        cases hh : (Fl.le (.fin y.1) (.fin x) && Fl.le (.fin x) (.fin y.2.1)) with
        | false => rfl
        | true =>
          obtain ⟨z, hz, hzz⟩ := (inRange_iff y _).mp hh
          injection hz with hz
          subst hz
          exact absurd hzz (hb'' y hy)
      rw [h] at this
      injection this with this
      subst this
      exact ⟨h1, h2⟩

/-- the state of the walk starting at an entry -/
def stateOf (e : RangeEstimate α) : Option (List α) × Option (Fl ℝ) := (some e.2.2.1, e.2.2.2)

theorem leads_step {e e' : RangeEstimate α} {g : Fl ℝ} (hg : e.2.2.2 = some g) (h : Leads ests e e') :
    gammaToDomain ests g = stateOf e' := by
  obtain ⟨x, h1, h2⟩ := h
  rw [hg] at h1
  injection h1 with h1
  exact gammaToDomain_some.mpr ⟨e', rfl, rfl, x, h1, h2⟩

theorem runOut_of_walk {walk : Nat → RangeEstimate α}
    (h : ∀ k, Leads ests (walk k) (walk (k + 1)) ∧ (walk (k + 1)).2.2.1 ≠ (walk k).2.2.1) (n k : Nat) :
    updatesRunOut ests n (stateOf (walk k)) = true := by
  induction n generalizing k with
  | zero => rfl
  | succ n ih =>
    obtain ⟨hl, hne⟩ := h k
    obtain ⟨x, hx, -⟩ := id hl
    have := leads_step hx hl
    unfold stateOf
    rw [hx]
    simp only [updatesRunOut]
    rw [this]
    simp only [stateOf, Option.some.injEq]
    rw [if_neg (Ne.symm hne)]
    exact ih (k + 1)

theorem leads_mem {e e' : RangeEstimate α} (h : Leads ests e e') : e' ∈ ests := by
  obtain ⟨g, -, b, a, rfl, -⟩ := h
  simp

/-- **C80 (a loop is always found).** If following the gamma estimates leads back to a range, the script reports a loop. -/
theorem c80_loop_found (h : EstimationLoop ests) : loopDetected ests = true := by
  obtain ⟨walk, period, -, h⟩ := h
  unfold loopDetected
  rw [List.any_eq_true]
  exact ⟨walk 1, leads_mem (h 0).1, runOut_of_walk (fun k => ⟨(h k).1, (h k).2.1⟩) 1000 1⟩

/-- the entries visited while the updates do not break -/
theorem runOut_walk (n : Nat) (e : RangeEstimate α) (h : updatesRunOut ests (n + 1) (stateOf e) = true) :
    ∃ walk : Nat → RangeEstimate α, walk 0 = e ∧
      ∀ k < n, Leads ests (walk k) (walk (k + 1)) ∧ (walk (k + 1)).2.2.1 ≠ (walk k).2.2.1 := by
  induction n generalizing e with
  | zero => exact ⟨fun _ => e, rfl, fun k hk => absurd hk (Nat.not_lt_zero k)⟩
  | succ n ih =>
    unfold stateOf at h
    cases hg : e.2.2.2 with
    | none => rw [hg] at h; simp [updatesRunOut] at h
    | some g =>
      rw [hg] at h
      simp only [updatesRunOut] at h
      rcases hd : gammaToDomain ests g with ⟨m, est⟩
      rw [hd] at h
      simp only at h
      split at h
      · cases h
      · rename_i hne
        cases m with
        | none =>
          exfalso
          have : est = none := by
            unfold gammaToDomain at hd
            split at hd
            · cases hd
            · cases hd; rfl
          subst this
          simp at h
        | some m =>
          obtain ⟨e', h1, h2, x, rfl, hl⟩ := gammaToDomain_some.mp hd
          have hs : stateOf e' = (some m, est) := by unfold stateOf; rw [h1, h2]
          obtain ⟨walk, w0, hw⟩ := ih e' (by rw [hs]; unfold updatesRunOut; exact h)
          refine ⟨fun k => match k with | 0 => e | k + 1 => walk k, rfl, fun k hk => ?_⟩
          match k with
          | 0 =>
            simp only [w0]
            refine ⟨⟨x, hg, hl⟩, fun hc => hne ?_⟩
            rw [← h1, hc]
          | k + 1 => exact hw k (by omega)

/-- **C80 (reported loops are real).** With fewer than 1000 ranges, a reported loop is a genuine one. -/
theorem c80_found_is_real (hn : ests.length < 1000) (h : loopDetected ests = true) : EstimationLoop ests := by
  classical
  unfold loopDetected at h
  rw [List.any_eq_true] at h
  obtain ⟨e, he, h⟩ := h
  obtain ⟨walk, w0, hw⟩ := runOut_walk 999 e h
  have hmem : ∀ k, k < 1000 → walk k ∈ ests := by
    intro k hk
    match k with
    | 0 => rw [w0]; exact he
    | k + 1 => exact leads_mem (hw k (by omega)).1
  obtain ⟨i, hi, j, hj, hij, heq⟩ : ∃ i < 1000, ∃ j < 1000, i ≠ j ∧ walk i = walk j := by
    have := Finset.exists_ne_map_eq_of_card_lt_of_maps_to (s := Finset.range 1000) (t := ests.toFinset) (f := walk)
      (by rw [Finset.card_range]; exact lt_of_le_of_lt (List.toFinset_card_le ests) hn)
      (fun k hk => by
        have : k < 1000 := by simpa using hk
        simpa using hmem k this)
    obtain ⟨i, hi, j, hj, h1, h2⟩ := this
    exact ⟨i, by simpa using hi, j, by simpa using hj, h1, h2⟩
  wlog hlt : i < j generalizing i j
  · exact this j hj i hi hij.symm heq.symm (by omega)
  have hp : i + 1 ≠ j := by
    rintro rfl
    exact (hw i (by omega)).2 (by rw [heq])
  set P := j - i with hP
  have hP2 : 2 ≤ P := by omega
  refine ⟨fun k => walk (i + k % P), P, hP2, fun k => ?_⟩
  have hk : k % P < P := Nat.mod_lt _ (by omega)
  have hnext : walk (i + (k + 1) % P) = walk (i + k % P + 1) := by
    rw [Nat.add_mod, Nat.mod_eq_of_lt (show 1 < P by omega)]
    by_cases hc : k % P + 1 = P
    · rw [hc, Nat.mod_self, Nat.add_zero, show i + k % P + 1 = j by omega, heq]
    · rw [Nat.mod_eq_of_lt (by omega), Nat.add_assoc]
  refine ⟨?_, ?_, by simp⟩
  · simp only [hnext]; exact (hw (i + k % P) (by omega)).1
  · simp only [hnext]; exact (hw (i + k % P) (by omega)).2

theorem break_walk (hinj : ∀ e ∈ ests, ∀ e' ∈ ests, e.2.2.1 = e'.2.2.1 → e = e') (n : Nat) (e : RangeEstimate α)
    (he : e ∈ ests) (h : updatesRunOut ests n (stateOf e) = false) :
    ∃ (walk : Nat → RangeEstimate α) (k : Nat), walk 0 = e ∧ k < n ∧
      (∀ i < k, Leads ests (walk i) (walk (i + 1)) ∧ (walk (i + 1)).2.2.1 ≠ (walk i).2.2.1) ∧ walk k ∈ ests ∧
      (Leads ests (walk k) (walk k) ∨ ∀ g : ℝ, (walk k).2.2.2 = some (.fin g) → ∀ x ∈ ests, ¬ (x.1 ≤ g ∧ g ≤ x.2.1)) := by
  induction n generalizing e with
  | zero => simp [updatesRunOut] at h
  | succ n ih =>
    cases hg : e.2.2.2 with
    | none => exact ⟨fun _ => e, 0, rfl, by omega, by simp, he, .inr fun g h => by rw [hg] at h; cases h⟩
    | some g =>
      unfold stateOf at h
      rw [hg] at h
      simp only [updatesRunOut] at h
      rcases hd : gammaToDomain ests g with ⟨m, est⟩
      rw [hd] at h
      simp only at h
      cases m with
      | none =>
        refine ⟨fun _ => e, 0, rfl, by omega, by simp, he, .inr fun x hx y hy hc => ?_⟩
        rw [hg] at hx
        injection hx with hx
        subst hx
        have hf : ests.find? (fun e => Fl.le (.fin e.1) (.fin x) && Fl.le (.fin x) (.fin e.2.1)) = none := by
          unfold gammaToDomain at hd
          split at hd
          · cases hd
          · assumption
        rw [List.find?_eq_none] at hf
        exact hf y hy ((inRange_iff y _).mpr ⟨x, rfl, hc⟩)
      | some m =>
        obtain ⟨e', h1, h2, x, rfl, hl⟩ := gammaToDomain_some.mp hd
        have hlead : Leads ests e e' := ⟨x, hg, hl⟩
        split at h
        · rename_i heq
          injection heq with heq
          have : e = e' := hinj e he e' (leads_mem hlead) (heq.trans h1.symm)
          subst this
          exact ⟨fun _ => e, 0, rfl, by omega, by simp, he, .inl hlead⟩
        · rename_i hne
          have hs : stateOf e' = (some m, est) := by unfold stateOf; rw [h1, h2]
          obtain ⟨walk, k, w0, hk, hw, hm, hend⟩ := ih e' (leads_mem hlead) (by rw [hs]; exact h)
          refine ⟨fun i => match i with | 0 => e | i + 1 => walk i, k + 1, rfl, by omega, fun i hi => ?_, hm, hend⟩
          match i with
          | 0 =>
            simp only [w0]
            exact ⟨hlead, fun hc => hne (by rw [← h1, hc])⟩
          | i + 1 => exact hw i (by omega)

/-- **C80 (no loop).** If no loop is reported, following the estimates from any range ends at a partition which the pruning
keeps, or at one whose estimate is missing or lies in none of the ranges. -/
theorem c80_no_loop (hinj : ∀ e ∈ ests, ∀ e' ∈ ests, e.2.2.1 = e'.2.2.1 → e = e') (h : loopDetected ests = false)
    (e : RangeEstimate α) (he : e ∈ ests) :
    ∃ (walk : Nat → RangeEstimate α) (k : Nat), walk 0 = e ∧
      (∀ i < k, Leads ests (walk i) (walk (i + 1)) ∧ (walk (i + 1)).2.2.1 ≠ (walk i).2.2.1) ∧
      ((walk k).2.2.1 ∈ stablePartitions2D ests ∨
        ∀ g : ℝ, (walk k).2.2.2 = some (.fin g) → ∀ x ∈ ests, ¬ (x.1 ≤ g ∧ g ≤ x.2.1)) := by
  have h1 : updatesRunOut ests 1000 (stateOf e) = false := by
    by_contra hc
    rw [Bool.not_eq_false] at hc
    have : loopDetected ests = true := by
      unfold loopDetected
      rw [List.any_eq_true]
      exact ⟨e, he, hc⟩
    rw [h] at this
    cases this
  obtain ⟨walk, k, w0, -, hw, hm, hend⟩ := break_walk hinj 1000 e he h1
  refine ⟨walk, k, w0, hw, hend.imp (fun hl => ?_) id⟩
  obtain ⟨g, hg, b, a, -, hin, -⟩ := hl
  rw [c35_single_layer_filter]
  exact List.mem_map.mpr ⟨walk k, List.mem_filter.mpr ⟨hm, by simpa using ⟨g, hg, hin⟩⟩, rfl⟩

end

/-! ### Two partitions sending their estimates to each other -/

section
variable {G : Graph ℝ} {p1 p2 : List Nat} {test : Graph ℝ → Bool}

theorem leidenQuality_eq {quality : Graph ℝ → List Nat → ℝ → ℝ} (hq : LeidenQuality quality) (hG : G.WF) {c : List Nat}
    (hc : c.length = G.vcount) (γ : ℝ) : quality G c γ = modularity G γ c := by
  have hwf : ({ G with weight := some (List.replicate G.ecount (1 : ℝ)) } : Graph ℝ).WF :=
    ⟨hG.1, fun ws h => by cases h; simp [Graph.ecount]⟩
  rw [hq, rbQuality_eq hwf rfl hc, ← modularity_affine]
  exact modularity_weightless _ _ _

/-- **C80 (the test on two partitions).** The script's test succeeds exactly for two partitions that send their estimates to
each other. -/
theorem c80_pair {quality : Graph ℝ → List Nat → ℝ → ℝ} (hq : LeidenQuality quality) (hG : G.WF) (h1 : p1.length = G.vcount)
    (h2 : p2.length = G.vcount) :
    loopPair test quality G p1 p2 = .ok true ↔ ∃ g1 g2, SendEachOther test G p1 p2 g1 g2 := by
  unfold loopPair
  have key : ∀ H : Graph ℝ, ensureWeight test G.vcount G = .ok H → ∀ g c, c.length = G.vcount →
      leidenPartWithMembership H c = .ok c ∧ quality H c g = modularity G g c := by
    intro H hH g c hc
    obtain ⟨hv, hed, hdir⟩ := ensureWeight_vcount hH
    refine ⟨by unfold leidenPartWithMembership; rw [if_pos (hc.trans hv.symm)], ?_⟩
    rw [leidenQuality_eq hq (ensureWeight_wf hG hH) (hc.trans hv.symm)]
    have : H = { G with weight := H.weight } := by
      cases H; cases G; simp only at hv hed hdir; subst hv hed hdir; rfl
    rw [this]
    exact modularity_weightless _ _ _
  constructor
  · intro h
    obtain ⟨⟨e1, H1⟩, k1, h⟩ := Py.bind_ok' h
    obtain ⟨⟨e2, H2⟩, k2, h⟩ := Py.bind_ok' h
    have hg := gammaEstimate_graph k1
    have hg2 := gammaEstimate_graph k2
    rw [gammaEstimate_thread hg] at k2
    have hH : H2 = H1 := by
      have := gammaEstimate_graph k2
      rw [hg] at this
      exact (Except.ok.inj this).symm
    subst hH
    simp only at h
    match e1, e2, h with
    | some (.fin g1), some (.fin g2), h =>
      refine ⟨g1, g2, ⟨_, k1⟩, ⟨_, k2⟩, ?_⟩
      simp only [(key _ hg g1 p1 h1).1, (key _ hg g1 p2 h2).1, Py.ok_bind, Py.pure_eq, (key _ hg _ p1 h1).2,
        (key _ hg _ p2 h2).2, Except.ok.injEq, Bool.and_eq_true, decide_eq_true_eq] at h
      exact h
    | none, _, h => simp [Py.pure_eq] at h
    | some .nan, _, h => simp [Py.pure_eq] at h
    | some .pinf, _, h => simp [Py.pure_eq] at h
    | some .ninf, _, h => simp [Py.pure_eq] at h
    | some (.fin _), none, h => simp [Py.pure_eq] at h
    | some (.fin _), some .nan, h => simp [Py.pure_eq] at h
    | some (.fin _), some .pinf, h => simp [Py.pure_eq] at h
    | some (.fin _), some .ninf, h => simp [Py.pure_eq] at h
  · rintro ⟨g1, g2, ⟨H, k1⟩, ⟨H', k2⟩, m1, m2⟩
    have hg := gammaEstimate_graph k1
    have hH : H' = H := by
      have := gammaEstimate_graph k2
      rw [hg] at this
      exact (Except.ok.inj this).symm
    subst hH
    rw [k1, Py.ok_bind]
    simp only [gammaEstimate_thread hg, k2, Py.ok_bind, Py.pure_eq, (key _ hg g1 p1 h1).1, (key _ hg g1 p2 h2).1,
      (key _ hg _ p1 h1).2, (key _ hg _ p2 h2).2, Except.ok.injEq, Bool.and_eq_true, decide_eq_true_eq]
    exact ⟨m1, m2⟩

/-- **C80 (pruned away).** Two partitions that send their estimates to each other: neither survives pruning of a collection
containing both. -/
theorem c80_pair_pruned {env : PruneEnv} (he : SoundPruneEnv env) (hG : G.WF) {parts : List (List Nat)} {γ₀ γf : ℝ}
    {restrict : Option Nat} {st : Bool} {out : List (List Nat)} {H : Graph ℝ} (hp : ∀ p ∈ parts, p.length = G.vcount)
    (h : pruneToStable env G (.memberships parts) γ₀ γf restrict st = (some (.ok (out, H)) : Option _))
    (h1 : Candidate parts restrict p1) (h2 : Candidate parts restrict p2) {g1 g2 : ℝ}
    (hs : SendEachOther env.test G p1 p2 g1 g2) : p1 ∉ out ∧ p2 ∉ out := by
  obtain ⟨⟨H1, k1⟩, ⟨H2, k2⟩, m1, m2⟩ := hs
  have hsound := c38_sound he hG hp h
  constructor
  · intro hc
    obtain ⟨-, γ, hγ, -, -, hb⟩ := hsound p1 hc
    rw [k1] at hγ
    cases hγ
    exact absurd (hb p2 h2) (not_le.mpr m2)
  · intro hc
    obtain ⟨-, γ, hγ, -, -, hb⟩ := hsound p2 hc
    rw [k2] at hγ
    cases hγ
    exact absurd (hb p1 h1) (not_le.mpr m1)

/-- **C80 (the two partitions loop).** CHAMP on two partitions that send their estimates to each other, both estimates lying
in the window: the ranges with their estimates contain a loop, and the script reports it. -/
theorem c80_pair_loops {env : ChampEnv} (he : SoundEnv env) (hG : G.WF) (h1 : p1.length = G.vcount) (h2 : p2.length = G.vcount)
    {g1 g2 γ₀ γf : ℝ} (hs : SendEachOther test G p1 p2 g1 g2) (hw1 : γ₀ ≤ g1 ∧ g1 ≤ γf) (hw2 : γ₀ ≤ g2 ∧ g2 ≤ γf) {st : Bool}
    {ranges : List (ℝ × ℝ × List Nat)} (hr : champ2D env G [p1, p2] γ₀ γf st = (some (.ok ranges) : Option _))
    {ests : List (RangeEstimate Nat)} {H : Graph ℝ} (hest : rangesToGammaEstimates test G ranges = .ok (ests, H)) :
    EstimationLoop ests ∧ loopDetected ests = true := by
  obtain ⟨⟨H1, k1⟩, ⟨H2, k2⟩, m1, m2⟩ := hs
  have hp : ∀ c ∈ [p1, p2], c.length = G.vcount := by
    intro c hc
    simp only [List.mem_cons, List.not_mem_nil, or_false] at hc
    rcases hc with rfl | rfl <;> assumption
  obtain ⟨-, -, est, hes, rfl⟩ := rangesToGammaEstimates_ok hest
  have hcorr := c17_ranges_correct he hG hp hr
  -- the first range containing `g` belongs to the partition that is better there
  have key : ∀ (g : ℝ) (p q : List Nat) (gp : ℝ), γ₀ ≤ g → g ≤ γf → (∀ c, c ∈ [p1, p2] ↔ c ∈ [p, q]) →
      modularity G g q < modularity G g p → (∃ H, gammaEstimate test G p = .ok (some (.fin gp), H)) →
      ∃ e : RangeEstimate Nat, e.2.2.1 = p ∧ e.2.2.2 = some (.fin gp) ∧ ∃ before after,
        (ranges.map fun r => (r.1, r.2.1, r.2.2, est r.2.2)) = before ++ e :: after ∧ (e.1 ≤ g ∧ g ≤ e.2.1) ∧
        ∀ x ∈ before, ¬ (x.1 ≤ g ∧ g ≤ x.2.1) := by
    intro g p q gp l u hpq hlt ⟨H, hgp⟩
    obtain ⟨r, hrm, l1, u1, -⟩ := c18_ranges_cover he hG hp (by simp) hr l u
    have hfind : ∃ e, (ranges.map fun r => (r.1, r.2.1, r.2.2, est r.2.2)).find?
        (fun e => decide (e.1 ≤ g ∧ g ≤ e.2.1)) = some e := by
      rw [← Option.isSome_iff_exists, List.find?_isSome]
      exact ⟨_, List.mem_map.mpr ⟨r, hrm, rfl⟩, by simpa using ⟨l1, u1⟩⟩
    obtain ⟨e, hf⟩ := hfind
    obtain ⟨hin, b, a, hl, hb⟩ := List.find?_eq_some_iff_append.mp hf
    have hin : e.1 ≤ g ∧ g ≤ e.2.1 := by simpa using hin
    have hem : e ∈ ranges.map fun r => (r.1, r.2.1, r.2.2, est r.2.2) := by rw [hl]; simp
    obtain ⟨r', hr', rfl⟩ := List.mem_map.mp hem
    simp only at hin
    have hopt := (((hcorr r' hr').2.2.2.2 g).mp hin).2
    have hmem : r'.2.2 = p := by
      have := (hpq _).mp (hcorr r' hr').2.2.2.1
      simp only [List.mem_cons, List.not_mem_nil, or_false] at this
      rcases this with h | h
      · exact h
      · exfalso
        have := hopt p ((hpq p).mpr (by simp))
        rw [h] at this
        linarith
    refine ⟨_, hmem, ?_, b, a, hl, hin, fun x hx => by
      have := hb x hx
      simp only [Bool.not_eq_true', decide_eq_false_iff_not] at this
      exact this⟩
    have := hes r' hr'
    simp only [hmem] at this ⊢
    rw [hgp] at this
    injection this with this
    exact (Prod.mk.inj this).1.symm
  obtain ⟨e1, a1, b1, c1⟩ := key g2 p1 p2 g1 hw2.1 hw2.2 (fun c => Iff.rfl) m1 ⟨_, k1⟩
  obtain ⟨e2, a2, b2, c2⟩ := key g1 p2 p1 g2 hw1.1 hw1.2 (fun c => by simp [or_comm]) m2 ⟨_, k2⟩
  have hne : p1 ≠ p2 := by rintro rfl; exact lt_irrefl _ m1
  have hloop : EstimationLoop (ranges.map fun r => (r.1, r.2.1, r.2.2, est r.2.2)) := by
    refine ⟨fun k => if k % 2 = 0 then e1 else e2, 2, le_rfl, fun k => ?_⟩
    rcases Nat.mod_two_eq_zero_or_one k with h0 | h0
    · have h3 : (k + 1) % 2 = 1 := by omega
      have h4 : (k + 2) % 2 = 0 := by omega
      simp only [h0, h3, h4, if_true, if_false, one_ne_zero]
      exact ⟨⟨g1, b1, c2⟩, by rw [a1, a2]; exact hne.symm, trivial⟩
    · have h3 : (k + 1) % 2 = 0 := by omega
      have h4 : (k + 2) % 2 = 1 := by omega
      simp only [h0, h3, h4, if_true, if_false, one_ne_zero]
      exact ⟨⟨g2, b2, c1⟩, by rw [a1, a2]; exact hne, trivial⟩
  exact ⟨hloop, c80_loop_found hloop⟩

private theorem forall₂_left {α β : Type} {R : α → β → Prop} {l : List α} {l' : List β} (h : List.Forall₂ R l l') {a : α}
    (ha : a ∈ l) : ∃ b ∈ l', R a b := by
  induction h with
  | nil => simp at ha
  | cons hab _ ih =>
    rcases List.mem_cons.mp ha with rfl | ha
    · exact ⟨_, by simp, hab⟩
    · obtain ⟨b, hb, h⟩ := ih ha
      exact ⟨b, by simp [hb], h⟩

private theorem pairwise_or {α : Type} {R : α → α → Prop} {l : List α} (h : l.Pairwise R) {a b : α}
    (ha : a ∈ l) (hb : b ∈ l) (hab : a ≠ b) : R a b ∨ R b a := by
  induction h with
  | nil => simp at ha
  | cons hx _ ih =>
    rcases List.mem_cons.mp ha with h1 | h1 <;> rcases List.mem_cons.mp hb with h2 | h2
    · exact absurd (h1.trans h2.symm) hab
    · exact Or.inl (h1 ▸ hx _ h2)
    · exact Or.inr (h2 ▸ hx _ h1)
    · exact ih h1 h2

/-- **C80 (a trial).** A trial on fewer than 1000 partitions that reports a loop has found a cycle of its partitions, all
estimates lying in the script's window `[0, 3]`, each the best one at the estimate of its predecessor.  Conversely such a cycle is
reported if its partitions are the only best ones. -/
theorem c80_trial {env : ChampEnv} (he : SoundEnv env) (hG : G.WF) {parts : List (List Nat)}
    (hp : ∀ c ∈ parts, c.length = G.vcount) (hn : parts.length < 1000) {b : Bool}
    (h : loopTrial env test G parts = (some (.ok b) : Option _)) :
    (b = true → ∃ walk γ period, PartitionCycle test G parts 0 3 walk γ period) ∧
    ((∃ walk γ period, PartitionCycle test G parts 0 3 walk γ period ∧
      ∀ k, ∀ q ∈ parts, q ≠ walk (k + 1) → modularity G (γ k) q < modularity G (γ k) (walk (k + 1))) → b = true) := by
  unfold loopTrial at h
  obtain ⟨ranges, hr, h⟩ := Run.bind_ok.mp h
  obtain ⟨⟨ests, H⟩, hest, h⟩ := Run.bind_ok.mp h
  have hest : rangesToGammaEstimates test G ranges = .ok (ests, H) := by
    injection hest
  have hb : loopDetected ests = b := by
    injection h with h
    injection h
  obtain ⟨hlen, -, est, hes, rfl⟩ := rangesToGammaEstimates_ok hest
  have hcorr := c17_ranges_correct he hG hp hr
  obtain ⟨⟨pos, hnd, hpos⟩, hpw⟩ := c20_no_duplicates he hG hp hr
  have hfew : ranges.length ≤ parts.length := by
    rw [← hpos.length_eq]
    have hsub : pos ⊆ List.range parts.length := by
      intro j hj
      obtain ⟨r, -, hjr⟩ := forall₂_left hpos hj
      rw [List.mem_range]
      by_contra hge
      rw [List.getElem?_eq_none (by omega)] at hjr
      cases hjr
    have := (List.subperm_of_subset hnd hsub).length_le
    rwa [List.length_range] at this
  constructor
  · intro hbt
    rw [hbt] at hb
    obtain ⟨walk, period, h2, hw⟩ := c80_found_is_real (by rw [hlen]; omega) hb
    have hmem : ∀ k, walk k ∈ ranges.map fun r => (r.1, r.2.1, r.2.2, est r.2.2) := by
      intro k
      rw [← (hw k).2.2]
      obtain ⟨j, hj⟩ : ∃ j, k + period = j + 1 := ⟨k + period - 1, by omega⟩
      rw [hj]
      exact leads_mem (hw j).1
    have hγ : ∀ k, ∃ g : ℝ, (walk k).2.2.2 = some (.fin g) := fun k => by
      obtain ⟨g, hg, -⟩ := (hw k).1
      exact ⟨g, hg⟩
    choose γ hγ using hγ
    refine ⟨fun k => (walk k).2.2.1, γ, period, h2, fun k => ?_⟩
    obtain ⟨r, hrm, hrk⟩ := List.mem_map.mp (hmem k)
    obtain ⟨r', hrm', hrk'⟩ := List.mem_map.mp (hmem (k + 1))
    obtain ⟨g, hg, bf, af, -, hin, -⟩ := (hw k).1
    have hgk : g = γ k := by
      have := hg.symm.trans (hγ k)
      injection this with this
      injection this
    rw [hgk] at hin
    rw [← hrk'] at hin
    obtain ⟨win, hopt⟩ := ((hcorr r' hrm').2.2.2.2 (γ k)).mp hin
    refine ⟨?_, ⟨H, ?_⟩, win.1, win.2, ?_, (hw k).2.1, by dsimp only; rw [(hw k).2.2]⟩ <;> dsimp only
    · rw [← hrk]; exact (hcorr r hrm).2.2.2.1
    · rw [← hγ k, ← hrk]; exact hes r hrm
    · rw [← hrk']; exact hopt
  · rintro ⟨walk, γ, period, ⟨h2, hw⟩, huniq⟩
    rw [← hb]
    apply c80_loop_found
    -- the first range containing `γ k` belongs to `walk (k + 1)`
    have key : ∀ k, ∃ e : RangeEstimate Nat, e.2.2.1 = walk (k + 1) ∧ e.2.2.2 = some (.fin (γ (k + 1))) ∧ ∃ before after,
        (ranges.map fun r => (r.1, r.2.1, r.2.2, est r.2.2)) = before ++ e :: after ∧ (e.1 ≤ γ k ∧ γ k ≤ e.2.1) ∧
        ∀ x ∈ before, ¬ (x.1 ≤ γ k ∧ γ k ≤ x.2.1) := by
      intro k
      obtain ⟨hk, -, lo, hi, -, -, -⟩ := hw k
      obtain ⟨hk', ⟨H', hgp⟩, -⟩ := hw (k + 1)
      obtain ⟨r, hrm, l1, u1, -⟩ := c18_ranges_cover he hG hp (List.ne_nil_of_mem hk) hr lo hi
      have hfind : ∃ e, (ranges.map fun r => (r.1, r.2.1, r.2.2, est r.2.2)).find?
          (fun e => decide (e.1 ≤ γ k ∧ γ k ≤ e.2.1)) = some e := by
        rw [← Option.isSome_iff_exists, List.find?_isSome]
        exact ⟨_, List.mem_map.mpr ⟨r, hrm, rfl⟩, by simpa using ⟨l1, u1⟩⟩
      obtain ⟨e, hf⟩ := hfind
      obtain ⟨hin, b, a, hl, hb⟩ := List.find?_eq_some_iff_append.mp hf
      have hin : e.1 ≤ γ k ∧ γ k ≤ e.2.1 := by simpa using hin
      have hem : e ∈ ranges.map fun r => (r.1, r.2.1, r.2.2, est r.2.2) := by rw [hl]; simp
      obtain ⟨r', hr', rfl⟩ := List.mem_map.mp hem
      simp only at hin
      have hopt := (((hcorr r' hr').2.2.2.2 (γ k)).mp hin).2
      have hmem : r'.2.2 = walk (k + 1) := by
        by_contra hne
        have h1 := huniq k _ (hcorr r' hr').2.2.2.1 hne
        have h2 := hopt _ hk'
        linarith
      refine ⟨_, hmem, ?_, b, a, hl, hin, fun x hx => by
        have := hb x hx
        simp only [Bool.not_eq_true', decide_eq_false_iff_not] at this
        exact this⟩
      have := hes r' hr'
      simp only [hmem] at this ⊢
      rw [hgp] at this
      injection this with this
      exact (Prod.mk.inj this).1.symm
    have hinj : ∀ e ∈ ranges.map fun r => (r.1, r.2.1, r.2.2, est r.2.2), ∀ e' ∈ ranges.map fun r => (r.1, r.2.1, r.2.2, est r.2.2),
        e.2.2.1 = e'.2.2.1 → e = e' := by
      intro e hem e' hem' heq
      obtain ⟨r, hrm, rfl⟩ := List.mem_map.mp hem
      obtain ⟨r', hrm', rfl⟩ := List.mem_map.mp hem'
      simp only at heq
      have : r = r' := by
        by_contra hne
        rcases pairwise_or hpw hrm hrm' hne with ⟨γ, hd⟩ | ⟨γ, hd⟩
        · exact hd (by rw [heq])
        · exact hd (by rw [heq])
      rw [this]
    choose e h1 h3 h4 using key
    have hγp : ∀ k, γ (k + period) = γ k := by
      intro k
      obtain ⟨-, ⟨H1, e1⟩, -⟩ := hw k
      obtain ⟨-, ⟨H2, e2⟩, -⟩ := hw (k + period)
      rw [(hw k).2.2.2.2.2.2, e1] at e2
      injection e2 with e2
      have := (Prod.mk.inj e2).1
      injection this with this
      injection this with this
      exact this.symm
    have hem : ∀ k, e k ∈ ranges.map fun r => (r.1, r.2.1, r.2.2, est r.2.2) := by
      intro k
      obtain ⟨bf, af, hl, -⟩ := h4 k
      rw [hl]; simp
    refine ⟨e, period, h2, fun k => ⟨⟨γ (k + 1), h3 k, h4 (k + 1)⟩, ?_, ?_⟩⟩
    · rw [h1, h1]; exact (hw (k + 1)).2.2.2.2.2.1
    · refine hinj _ (hem _) _ (hem _) ?_
      rw [h1, h1, show k + period + 1 = k + 1 + period by omega]
      exact (hw (k + 1)).2.2.2.2.2.2

/-- **C80 (the iteration does not settle).** Two partitions that send their estimates to each other and a community
detection that finds the better of the two: started at the first estimate with a tolerance not exceeding the distance of the
two, the iterative estimation makes all `max_iter` maximisations, whatever `max_iter` is, and ends at either estimate
depending on the parity of `max_iter`. -/
theorem c80_pair_iteration {env : LeidenEnv} {method : String} (hp : ProducesPartitions env) (hG : G.WF)
    (hsane : SaneTest env.test G) (hm : Supported method) {g1 g2 : ℝ} (hs : SendEachOther env.test G p1 p2 g1 g2)
    (hmax : ∀ i γ', ∃ c, maximiser env method (defaulted env.test G) i γ' = .ok c ∧ (c = p1 ∨ c = p2) ∧
      ∀ x, γ' = .fin x → modularity G x p1 ≤ modularity G x c ∧ modularity G x p2 ≤ modularity G x c)
    {tol : ℝ} (htol : tol ≤ |g1 - g2|) (n : Nat) (w : World) :
    ∃ c w', iterateMono env G g1 tol n false method w =
        (.ok (.fin (if n % 2 = 0 then g1 else g2), c, defaulted env.test G), w') ∧ w'.calls = w.calls + n := by
  obtain ⟨⟨H1, k1⟩, ⟨H2, k2⟩, m1, m2⟩ := hs
  set D := defaulted env.test G with hD
  have hth : ∀ c, gammaEstimate env.test D c = gammaEstimate env.test G c := fun c =>
    gammaEstimate_thread (ensureWeight_size hG) c
  have up1 : ∀ a, reestimate env D a p1 = .ok (.fin g1) := by intro a; unfold reestimate; rw [hth, k1]
  have up2 : ∀ a, reestimate env D a p2 = .ok (.fin g2) := by intro a; unfold reestimate; rw [hth, k2]
  have best1 : ∀ i, maximiser env method D i (.fin g1) = .ok p2 := by
    intro i
    obtain ⟨c, hc, h12, hb⟩ := hmax i (.fin g1)
    rcases h12 with rfl | rfl
    · exact absurd (hb g1 rfl).2 (not_le.mpr m2)
    · exact hc
  have best2 : ∀ i, maximiser env method D i (.fin g2) = .ok p1 := by
    intro i
    obtain ⟨c, hc, h12, hb⟩ := hmax i (.fin g2)
    rcases h12 with rfl | rfl
    · exact hc
    · exact absurd (hb g2 rfl).1 (not_le.mpr m1)
  obtain ⟨x, hx⟩ := c46_returns hp hG hsane hm g1 tol n w (fun i _ γ' => by
    obtain ⟨c, hc, h12, -⟩ := hmax (w.calls + i) γ'
    refine ⟨c, hc, ?_⟩
    rcases h12 with rfl | rfl
    · exact ⟨_, _, (hth _).trans k1⟩
    · exact ⟨_, _, (hth _).trans k2⟩)
  obtain ⟨vs, k, hw, hit, hgr⟩ := c46_iteration hp hG hsane hm g1 tol n w
  have hgr := hgr x hx
  rw [hx] at hit
  obtain ⟨γo, po, Go⟩ := x
  simp only at hgr
  subst hgr
  cases po with
  | none =>
    obtain ⟨rfl, -, hk, hγ⟩ := hit
    simp only at hγ
    subst hγ
    exact ⟨none, _, Prod.ext (by rw [hx]; simp [hD]) rfl, (congrArg World.calls hw).trans (by simp [hk])⟩
  | some c =>
    obtain ⟨hl, hk, hv, γ', hlast, hu, hor⟩ := hit
    have hall : ∀ (i : Nat) (v : Fl ℝ × List Nat), vs[i]? = some v →
        v = if i % 2 = 0 then (.fin g1, p2) else (.fin g2, p1) := by
      intro i
      induction i with
      | zero =>
        intro v hi
        have e1 := hv.start v (by rw [List.head?_eq_getElem?]; exact hi)
        have e2 := hv.found 0 v hi
        rw [e1, best1] at e2
        exact Prod.ext e1 (Except.ok.inj e2).symm
      | succ i ih =>
        intro v hi
        have hlt : i < vs.length := by
          have := (List.getElem?_eq_some_iff.mp hi).1
          omega
        have hi0 : vs[i]? = some vs[i] := List.getElem?_eq_getElem hlt
        have e0 := ih _ hi0
        have e1 := (hv.step i _ v hi0 hi).1
        have e2 := hv.found (i + 1) v hi
        rcases Nat.mod_two_eq_zero_or_one i with h0 | h0
        · rw [e0, if_pos h0] at e1
          simp only at e1
          rw [up2] at e1
          have e1 := (Except.ok.inj e1).symm
          rw [e1, best2] at e2
          rw [if_neg (by omega)]
          exact Prod.ext e1 (Except.ok.inj e2).symm
        · rw [e0, if_neg (by omega)] at e1
          simp only at e1
          rw [up1] at e1
          have e1 := (Except.ok.inj e1).symm
          rw [e1, best1] at e2
          rw [if_pos (by omega)]
          exact Prod.ext e1 (Except.ok.inj e2).symm
    have hpos : 0 < vs.length := by
      rcases vs with _ | ⟨v, vs⟩
      · simp at hlast
      · simp
    have hlast' := hall (vs.length - 1) (γ', c) (by rw [← List.getLast?_eq_getElem?]; exact hlast)
    have hout : γo = .fin (if vs.length % 2 = 0 then g1 else g2) ∧ ¬ Within tol γo γ' := by
      rcases Nat.mod_two_eq_zero_or_one (vs.length - 1) with h0 | h0
      · rw [if_pos h0] at hlast'
        obtain ⟨rfl, rfl⟩ := Prod.mk.inj hlast'
        rw [up2] at hu
        obtain rfl := Except.ok.inj hu
        rw [if_neg (by omega)]
        refine ⟨rfl, ?_⟩
        rintro ⟨x, y, hx, hy, hlt⟩
        cases hx
        cases hy
        rw [abs_sub_comm] at hlt
        linarith
      · rw [if_neg (by omega)] at hlast'
        obtain ⟨rfl, rfl⟩ := Prod.mk.inj hlast'
        rw [up1] at hu
        obtain rfl := Except.ok.inj hu
        rw [if_pos (by omega)]
        refine ⟨rfl, ?_⟩
        rintro ⟨x, y, hx, hy, hlt⟩
        cases hx
        cases hy
        linarith
    have hn : vs.length = n := hor.resolve_right hout.2
    exact ⟨some c, _, Prod.ext (by rw [hx, hout.1, hn]) rfl, (congrArg World.calls hw).trans (by simp [hk, hn])⟩

end

/-! ### The smallest example: a triangle with a tail -/

/-- A triangle `1, 2, 3` with the tail `0 - 1`. -/
def gPaw : Graph ℝ := ⟨4, false, [(0, 1), (1, 2), (1, 3), (2, 3)], none⟩
theorem gPaw_wf : gPaw.WF := ⟨by decide, by intro ws h; cases h⟩

theorem gPaw_coefs : withinAdj gPaw [0, 0, 1, 2] = 2 ∧ withinNull gPaw [0, 0, 1, 2] = 3 ∧
    withinAdj gPaw [0, 0, 1, 0] = 4 ∧ withinNull gPaw [0, 0, 1, 0] = 5 := by
  have r0 : rowSum gPaw 0 = 1 := by decide
  have r1 : rowSum gPaw 1 = 3 := by decide
  have r2 : rowSum gPaw 2 = 2 := by decide
  have r3 : rowSum gPaw 3 = 2 := by decide
  have c0 : colSum gPaw 0 = 1 := by decide
  have c1 : colSum gPaw 1 = 3 := by decide
  have c2 : colSum gPaw 2 = 2 := by decide
  have c3 : colSum gPaw 3 = 2 := by decide
  have ht : total gPaw = 8 := by decide
  have hv : gPaw.vcount = 4 := rfl
  refine ⟨?_, ?_, ?_, ?_⟩
  · simp [withinAdj, gPaw, adj, Finset.sum_range_succ]; norm_num
  · simp [withinNull, hv, r0, r1, r2, r3, c0, c1, c2, c3, ht, Finset.sum_range_succ]; norm_num
  · simp [withinAdj, gPaw, adj, Finset.sum_range_succ]; norm_num
  · simp [withinNull, hv, r0, r1, r2, r3, c0, c1, c2, c3, ht, Finset.sum_range_succ]; norm_num

/-- **C80 (loops exist).** On the triangle with a tail the partitions `{0,1},{2},{3}` and `{0,1,3},{2}` send their estimates
(both between 0 and 2) to each other. -/
theorem c80_loop_exists (test : Graph ℝ → Bool) (ht : test gPaw = false) :
    ∃ g1 g2, 0 < g1 ∧ g1 < 1 ∧ 1 < g2 ∧ g2 < 2 ∧ SendEachOther test gPaw [0, 0, 1, 2] [0, 0, 1, 0] g1 g2 := by
  obtain ⟨hA1, hP1, hA2, hP2⟩ := gPaw_coefs
  have hec : (gPaw.ecount : ℝ) = 4 := by norm_num [gPaw, Graph.ecount]
  have hcu : CountsAsUnweighted test gPaw := by intro h; rw [ht] at h; cases h
  have hE1 : HasEstimate test gPaw [0, 0, 1, 2] (logMean (2 / 3) (6 / 5)) := by
    rw [hasEstimate_unweighted gPaw_wf rfl (by decide) hcu rfl, hA1, hP1, hec]
    refine ⟨by norm_num, by norm_num, by norm_num, by norm_num, by norm_num⟩
  have hE2 : HasEstimate test gPaw [0, 0, 1, 0] (logMean (4 / 5) (4 / 3)) := by
    rw [hasEstimate_unweighted gPaw_wf rfl (by decide) hcu rfl, hA2, hP2, hec]
    refine ⟨by norm_num, by norm_num, by norm_num, by norm_num, by norm_num⟩
  have hK1 : Contiguous [0, 0, 1, 2] 3 := fun k => by simp; omega
  have hK2 : Contiguous [0, 0, 1, 0] 2 := fun k => by simp; omega
  obtain ⟨b1, -⟩ := logMean_between (a := 2 / 3) (b := 6 / 5) (by norm_num) (by norm_num) (by norm_num)
  obtain ⟨-, b4⟩ := logMean_between (a := 4 / 5) (b := 4 / 3) (by norm_num) (by norm_num) (by norm_num)
  have b2 : logMean (2 / 3) (6 / 5) < 1 := by
    have := logMean_lt_arith (a := 6 / 5) (b := 2 / 3) (by norm_num) (by norm_num)
    rw [logMean_symm] at this
    unfold logMean
    linarith
  have b3 : 1 < logMean (4 / 5) (4 / 3) := by
    have := geom_lt_logMean (a := 4 / 3) (b := 4 / 5) (by norm_num) (by norm_num)
    rw [logMean_symm] at this
    unfold logMean
    refine lt_trans ?_ this
    rw [Real.lt_sqrt (by norm_num)]
    norm_num
  norm_num at b1 b4
  refine ⟨_, _, by linarith, b2, b3, by linarith, estimate_of_hasEstimate gPaw_wf rfl hK1 hE1,
    estimate_of_hasEstimate gPaw_wf rfl hK2 hE2, ?_, ?_⟩
  · simp only [modularity_affine, hA1, hP1, hA2, hP2]; linarith
  · simp only [modularity_affine, hA1, hP1, hA2, hP2]; linarith

/-- The hypotheses of the second half of `c80_trial` are met by the two partitions above. -/
example (test : Graph ℝ → Bool) (ht : test gPaw = false) : ∃ walk γ period,
    PartitionCycle test gPaw [[0, 0, 1, 2], [0, 0, 1, 0]] 0 3 walk γ period ∧ ∀ k, ∀ q ∈ [[0, 0, 1, 2], [0, 0, 1, 0]],
      q ≠ walk (k + 1) → modularity gPaw (γ k) q < modularity gPaw (γ k) (walk (k + 1)) := by
  obtain ⟨g1, g2, a1, b1, a2, b2, e1, e2, m1, m2⟩ := c80_loop_exists test ht
  refine ⟨fun k => if k % 2 = 0 then [0, 0, 1, 2] else [0, 0, 1, 0], fun k => if k % 2 = 0 then g1 else g2, 2,
    ⟨le_rfl, fun k => ?_⟩, fun k => ?_⟩ <;> rcases Nat.mod_two_eq_zero_or_one k with h0 | h0
  · have h3 : (k + 1) % 2 = 1 := by omega
    simp only [h0, h3, Nat.add_mod_right, if_true, if_false, one_ne_zero, List.forall_mem_cons]
    exact ⟨by simp, e1, by linarith, by linarith, ⟨m2.le, le_rfl, by simp⟩, by decide, trivial⟩
  · have h3 : (k + 1) % 2 = 0 := by omega
    simp only [h0, h3, Nat.add_mod_right, if_true, if_false, one_ne_zero, List.forall_mem_cons]
    exact ⟨by simp, e2, by linarith, by linarith, ⟨le_rfl, m1.le, by simp⟩, by decide, trivial⟩
  · have h3 : (k + 1) % 2 = 1 := by omega
    simp only [h0, h3, if_true, if_false, one_ne_zero, List.forall_mem_cons]
    exact ⟨fun _ => m2, fun h => absurd rfl h, by simp⟩
  · have h3 : (k + 1) % 2 = 0 := by omega
    simp only [h0, h3, if_true, if_false, one_ne_zero, List.forall_mem_cons]
    exact ⟨fun h => absurd rfl h, fun _ => m1, by simp⟩

/-- A community detection that finds the better of the two partitions above on four vertices. -/
noncomputable def pawEnv : LeidenEnv where
  test := fun _ => false
  findPartition := fun _ G γ => .ok (if G.vcount = 4 then (if Fl.le γ (.fin 1) then [0, 0, 1, 0] else [0, 0, 1, 2])
    else List.replicate G.vcount 0)
  optimiseMultiplex := fun _ _ _ => .error .keyError
  spinglass := fun _ _ _ => .error .keyError
  fsolve := fun _ x => x
  fmt := fun _ => "x"

theorem pawEnv_produces : ProducesPartitions pawEnv := by
  refine ⟨?_, by intro _ _ _ _ h; cases h⟩
  intro i G γ c h
  obtain rfl := Except.ok.inj h
  by_cases h4 : G.vcount = 4
  · rw [if_pos h4, h4]; split <;> rfl
  · rw [if_neg h4]; simp

/-- **C80 (the iteration need not settle).** There are a graph and a community detection finding the better of two
partitions for which the iterative estimation makes all its maximisations, for every `max_iter`, and returns two different
values alternately. -/
theorem c80_not_settling : ∃ g1 g2 : ℝ, g1 < 1 ∧ 1 < g2 ∧ ∀ (n : Nat) (w : World), ∃ c w',
    iterateMono pawEnv gPaw g1 (g2 - g1) n false "leiden" w =
      (.ok (.fin (if n % 2 = 0 then g1 else g2), c, defaulted pawEnv.test gPaw), w') ∧ w'.calls = w.calls + n := by
  obtain ⟨g1, g2, -, h1, h2, -, hs⟩ := c80_loop_exists pawEnv.test rfl
  refine ⟨g1, g2, h1, h2, fun n w => ?_⟩
  refine c80_pair_iteration pawEnv_produces gPaw_wf (by intro h; cases h) (Or.inr (Or.inl rfl)) hs ?_
    (by rw [abs_sub_comm, abs_of_pos (by linarith)]) n w
  intro i γ'
  obtain ⟨hA1, hP1, hA2, hP2⟩ := gPaw_coefs
  by_cases hl : Fl.le γ' (.fin 1) = true
  · refine ⟨[0, 0, 1, 0], ?_, Or.inr rfl, ?_⟩
    · show Except.ok (if (4 : Nat) = 4 then (if Fl.le γ' (.fin 1) then [0, 0, 1, 0] else [0, 0, 1, 2]) else _) = _
      rw [if_pos rfl, if_pos hl]
    · rintro x rfl
      have : x ≤ 1 := by simpa [Fl.le] using hl
      simp only [modularity_affine, hA1, hP1, hA2, hP2]
      exact ⟨by linarith, le_rfl⟩
  · refine ⟨[0, 0, 1, 2], ?_, Or.inl rfl, ?_⟩
    · show Except.ok (if (4 : Nat) = 4 then (if Fl.le γ' (.fin 1) then [0, 0, 1, 0] else [0, 0, 1, 2]) else _) = _
      rw [if_pos rfl, if_neg hl]
    · rintro x rfl
      have : 1 < x := by simpa [Fl.le] using hl
      simp only [modularity_affine, hA1, hP1, hA2, hP2]
      exact ⟨le_rfl, by linarith⟩

/-- Three ranges: the first two send their estimates to each other, the third to itself. -/
noncomputable def loopExample : List (RangeEstimate Nat) :=
  [(0, 1, [0, 0], some (.fin (3 / 2))), (1, 2, [0, 1], some (.fin (1 / 2))), (2, 3, [1, 0], some (.fin (5 / 2)))]

example : EstimationLoop loopExample := by
  refine ⟨fun k => if k % 2 = 0 then (0, 1, [0, 0], some (.fin (3 / 2))) else (1, 2, [0, 1], some (.fin (1 / 2))), 2, le_rfl,
    fun k => ?_⟩
  rcases Nat.mod_two_eq_zero_or_one k with h0 | h0
  · have h3 : (k + 1) % 2 = 1 := by omega
    have h4 : (k + 2) % 2 = 0 := by omega
    simp only [h0, h3, h4, if_true, if_false, one_ne_zero]
    refine ⟨⟨3 / 2, rfl, [_], [_], rfl, by norm_num, ?_⟩, by decide, trivial⟩
    intro x hx
    obtain rfl := List.mem_singleton.mp hx
    norm_num
  · have h3 : (k + 1) % 2 = 0 := by omega
    have h4 : (k + 2) % 2 = 1 := by omega
    simp only [h0, h3, h4, if_true, if_false, one_ne_zero]
    exact ⟨⟨1 / 2, rfl, [], [_, _], rfl, by norm_num, by intro x hx; cases hx⟩, by decide, trivial⟩

/-- a list without loop: the hypotheses of `c80_no_loop` -/
example : loopDetected ([(0, 1, [0, 0], some (.fin (1 / 2))), (1, 2, [0, 1], some (.fin (1 / 2)))] : List (RangeEstimate Nat)) =
    false := by
  unfold loopDetected
  obtain ⟨n, hn⟩ : ∃ n, 1000 = n + 2 := ⟨998, rfl⟩
  rw [hn]
  clear hn
  have h1 : (2 : ℝ)⁻¹ ≤ 1 := by norm_num
  simp [updatesRunOut, gammaToDomain, Fl.le, h1]

/-- Range `k` of a chain in which every estimate lies in the next range. -/
noncomputable def chainEntry (k : Nat) : RangeEstimate Nat := (k, k + 1, [k], some (.fin (k + 3 / 2)))

theorem chain_leads {n k : Nat} (hk : k + 1 < n) : Leads ((List.range n).map chainEntry) (chainEntry k) (chainEntry (k + 1)) := by
  refine ⟨k + 3 / 2, rfl, (List.range (k + 1)).map chainEntry, (List.range' (k + 2) (n - (k + 2))).map chainEntry, ?_, ?_, ?_⟩
  · rw [← List.map_cons, ← List.map_append]
    congr 1
    rw [show (k + 1) :: List.range' (k + 2) (n - (k + 2)) = List.range' (k + 1) (n - (k + 1)) by
      rw [show n - (k + 1) = (n - (k + 2)) + 1 by omega, List.range'_succ], List.range_eq_range', List.range_eq_range']
    rw [show List.range' (k + 1) (n - (k + 1)) = List.range' (0 + 1 * (k + 1)) (n - (k + 1)) by congr 1; omega,
      List.range'_append]
    congr 1
    omega
  · simp only [chainEntry]; push_cast; constructor <;> linarith
  · intro x hx
    obtain ⟨j, hj, rfl⟩ := List.mem_map.mp hx
    rw [List.mem_range] at hj
    have : (j : ℝ) + 1 ≤ k + 1 := by exact_mod_cast hj
    simp only [chainEntry]
    intro h
    linarith [h.2]

theorem chain_leads_only {n : Nat} {e e' : RangeEstimate Nat} (he : e ∈ (List.range n).map chainEntry)
    (h : Leads ((List.range n).map chainEntry) e e') : ∃ k, e = chainEntry k ∧ e' = chainEntry (k + 1) := by
  obtain ⟨k, hk, rfl⟩ := List.mem_map.mp he
  obtain ⟨j, hj, rfl⟩ := List.mem_map.mp (leads_mem h)
  obtain ⟨g, hg, b, a, -, hin, -⟩ := h
  simp only [chainEntry, Option.some.injEq, Fl.fin.injEq] at hg hin
  refine ⟨k, rfl, ?_⟩
  subst hg
  have h1 : (j : ℝ) < ((k + 2 : Nat) : ℝ) := by push_cast; linarith [hin.1]
  have h2 : (k : ℝ) < ((j : Nat) : ℝ) := by linarith [hin.2]
  have h1 : j < k + 2 := by exact_mod_cast h1
  have h2 : k < j := by exact_mod_cast h2
  rw [show j = k + 1 by omega]

/-- **C80 (the bound is needed).** The script tells a long chain of updates from a loop only by the number of updates: there
are 1001 ranges without any loop for which it reports one. -/
theorem c80_bound_needed : ∃ ests : List (RangeEstimate Nat), ests.length = 1001 ∧ loopDetected ests = true ∧
    ¬ EstimationLoop ests := by
  refine ⟨(List.range 1001).map chainEntry, by simp, ?_, ?_⟩
  · unfold loopDetected
    rw [List.any_eq_true]
    refine ⟨chainEntry 0, List.mem_map.mpr ⟨0, by simp, rfl⟩, ?_⟩
    have key : ∀ n k, n + k < 1001 → updatesRunOut ((List.range 1001).map chainEntry) n (stateOf (chainEntry k)) = true := by
      intro n
      induction n with
      | zero => intro k _; rfl
      | succ n ih =>
        intro k hk
        have hs := leads_step (ests := (List.range 1001).map chainEntry) (e := chainEntry k) rfl (chain_leads (by omega))
        simp only [stateOf, updatesRunOut, chainEntry] at hs ⊢
        rw [hs]
        simp only [Option.some.injEq, List.cons.injEq, and_true]
        rw [if_neg (by omega)]
        exact ih (k + 1) (by omega)
    exact key 1000 0 (by omega)
  · rintro ⟨walk, period, hp, h⟩
    have hw : ∀ k, ∃ j, walk (1 + k) = chainEntry (j + k) := by
      intro k
      induction k with
      | zero =>
        obtain ⟨j, -, hj⟩ := List.mem_map.mp (leads_mem (h 0).1)
        exact ⟨j, hj.symm⟩
      | succ k ih =>
        obtain ⟨j, hj⟩ := ih
        obtain ⟨i, hi, hi'⟩ := chain_leads_only (n := 1001) (leads_mem (h (0 + k)).1) (by
          have := (h (1 + k)).1
          rwa [show 0 + k + 1 = 1 + k by omega])
        refine ⟨j, ?_⟩
        rw [show 0 + k + 1 = 1 + k by omega, hj] at hi
        have : j + k = i := by
          have := congrArg (fun e : RangeEstimate Nat => e.2.2.1) hi
          simpa [chainEntry] using this
        rw [show 1 + (k + 1) = 1 + k + 1 by omega, hi', ← this]
        rfl
    obtain ⟨j, hj⟩ := hw 1001
    have hm := leads_mem (h 1001).1
    rw [show 1001 + 1 = 1 + 1001 by omega, hj] at hm
    obtain ⟨i, hi, hij⟩ := List.mem_map.mp hm
    rw [List.mem_range] at hi
    have : i = j + 1001 := by
      have := congrArg (fun e : RangeEstimate Nat => e.2.2.1) hij
      simpa [chainEntry] using this
    omega

end Verif.Props
