import Verif.Props.IterateMulti
import Verif.Proofs.Communities

/-!
# Process histories: the cache of layer graphs and the global `parts`
-/

namespace Verif
open Spec Props

/-! ### An iteration is determined by the optimiser's behaviour -/

section
variable {P C : Type} {maximise : Nat → P → Py C} {update : P → C → Py P} {near : P → P → Prop} {π₀ : P}

theorem visits_agree {vs vs' : List (P × C)} (h : Visits maximise update near π₀ vs)
    (h' : Visits maximise update near π₀ vs') (i : Nat) (v v' : P × C) (hv : vs[i]? = some v) (hv' : vs'[i]? = some v') :
    v = v' := by
  have hP : v.1 = v'.1 := by
    cases i with
    | zero =>
      rw [h.start v (by rw [List.head?_eq_getElem?]; exact hv), h'.start v' (by rw [List.head?_eq_getElem?]; exact hv')]
    | succ i =>
      have hi : i < vs.length := by have := (List.getElem?_eq_some_iff.mp hv).1; omega
      have hi' : i < vs'.length := by have := (List.getElem?_eq_some_iff.mp hv').1; omega
      have e := visits_agree h h' i _ _ (List.getElem?_eq_getElem hi) (List.getElem?_eq_getElem hi')
      have s := (h.step i _ v (List.getElem?_eq_getElem hi) hv).1
      have s' := (h'.step i _ v' (List.getElem?_eq_getElem hi') hv').1
      rw [e] at s
      exact Except.ok.inj (s.symm.trans s')
  have hC := (h.found i v hv)
  have hC' := (h'.found i v' hv')
  rw [hP] at hC
  exact Prod.ext hP (Except.ok.inj (hC.symm.trans hC'))

theorem iteration_not_lt {n : Nat} {vs vs' : List (P × C)} {k k' : Nat} {r r' : Py (P × Option C)}
    (h : Iteration maximise update near n π₀ vs k r) (h' : Iteration maximise update near n π₀ vs' k' r') :
    ¬ vs.length < vs'.length := by
  intro hlt
  have hv' : Visits maximise update near π₀ vs' := by
    rcases r' with e | ⟨π, c | c⟩
    · exact h'.1
    · obtain ⟨-, rfl, -⟩ := h'; simp at hlt
    · exact h'.2.2.1
  have hle' : vs'.length ≤ n := by
    rcases r' with e | ⟨π, c | c⟩
    · rcases h'.2 with h' | h' <;> have := h'.1 <;> omega
    · obtain ⟨-, rfl, -⟩ := h'; simp
    · exact h'.1
  have key : Visits maximise update near π₀ vs → ∀ v, vs.getLast? = some v → ∃ π, update v.1 v.2 = .ok π ∧ ¬ near π v.1 ∧
      (vs'[vs.length]?).map Prod.fst = some π := by
    intro hv v hlast
    have hne : vs ≠ [] := by rintro rfl; simp at hlast
    have hpos := List.length_pos_iff.mpr hne
    rw [List.getLast?_eq_getElem?] at hlast
    have h1 : vs.length - 1 < vs'.length := by omega
    have e := visits_agree hv hv' _ _ _ hlast (List.getElem?_eq_getElem h1)
    obtain ⟨s1, s2⟩ := hv'.step (vs.length - 1) _ vs'[vs.length] (List.getElem?_eq_getElem h1)
      (by rw [show vs.length - 1 + 1 = vs.length by omega]; exact List.getElem?_eq_getElem hlt)
    rw [← e] at s1 s2
    exact ⟨_, s1, s2, by rw [List.getElem?_eq_getElem hlt]; rfl⟩
  rcases r with e | ⟨π, c | c⟩
  · obtain ⟨hv, h⟩ := h
    rcases h with ⟨-, -, v, hlast, hu⟩ | ⟨-, -, π, hm, hπ⟩
    · obtain ⟨π, h1, -⟩ := key hv v hlast
      rw [h1] at hu; cases hu
    · have hv0 : vs'[vs.length].1 = π := by
        rcases hπ with ⟨rfl, rfl⟩ | ⟨v, hlast, hu, -⟩
        · exact hv'.start _ (by rw [List.head?_eq_getElem?]; exact List.getElem?_eq_getElem hlt)
        · obtain ⟨π', h1, -, h3⟩ := key hv v hlast
          rw [List.getElem?_eq_getElem hlt] at h3
          rw [hu] at h1
          obtain rfl := Except.ok.inj h1
          exact Option.some.inj h3
      have := hv'.found _ _ (List.getElem?_eq_getElem hlt)
      rw [hv0, hm] at this
      cases this
  · obtain ⟨rfl, -⟩ := h; omega
  · obtain ⟨hl, -, hv, π', hlast, hu, hor⟩ := h
    obtain ⟨π'', h1, h2, -⟩ := key hv _ hlast
    simp only at h1 h2
    rw [hu] at h1
    obtain rfl := Except.ok.inj h1
    rcases hor with hor | hor
    · omega
    · exact h2 hor

theorem iteration_unique {n : Nat} {vs vs' : List (P × C)} {k k' : Nat} {r r' : Py (P × Option C)}
    (h : Iteration maximise update near n π₀ vs k r) (h' : Iteration maximise update near n π₀ vs' k' r') :
    r = r' ∧ k = k' := by
  have hlen : vs.length = vs'.length := by
    have := iteration_not_lt h h'
    have := iteration_not_lt h' h
    omega
  have heq : Visits maximise update near π₀ vs → Visits maximise update near π₀ vs' → vs = vs' := by
    intro hv hv'
    apply List.ext_getElem hlen
    intro i h1 h2
    exact visits_agree hv hv' i _ _ (List.getElem?_eq_getElem h1) (List.getElem?_eq_getElem h2)
  rcases r with e | ⟨π, c | c⟩ <;> rcases r' with e' | ⟨π', c' | c'⟩
  · obtain rfl := heq h.1 h'.1
    rcases h.2 with ⟨a1, a2, v, a3, a4⟩ | ⟨a1, a2, π, a3, a4⟩ <;>
      rcases h'.2 with ⟨b1, b2, v', b3, b4⟩ | ⟨b1, b2, π', b3, b4⟩
    · rw [a3] at b3; obtain rfl := Option.some.inj b3
      rw [a4] at b4; obtain rfl := Except.error.inj b4
      exact ⟨rfl, by omega⟩
    · exfalso
      rcases b4 with ⟨rfl, -⟩ | ⟨v', b4, b5, -⟩
      · simp at a3
      · rw [a3] at b4; obtain rfl := Option.some.inj b4
        rw [a4] at b5; cases b5
    · exfalso
      rcases a4 with ⟨rfl, -⟩ | ⟨v', a4, a5, -⟩
      · simp at b3
      · rw [b3] at a4; obtain rfl := Option.some.inj a4
        rw [b4] at a5; cases a5
    · have : π = π' := by
        rcases a4 with ⟨a4, rfl⟩ | ⟨v, a4, a5, -⟩ <;> rcases b4 with ⟨b4, rfl⟩ | ⟨v', b4, b5, -⟩
        · rfl
        · subst a4; simp at b4
        · subst b4; simp at a4
        · rw [a4] at b4; obtain rfl := Option.some.inj b4
          exact Except.ok.inj (a5.symm.trans b5)
      subst this
      rw [a3] at b3; obtain rfl := Except.error.inj b3
      exact ⟨rfl, by omega⟩
  · obtain ⟨rfl, rfl, -⟩ := h'
    rcases h.2 with ⟨a1, a2, v, a3, a4⟩ | ⟨a1, -⟩
    · have : vs = [] := List.length_eq_zero_iff.mp hlen
      subst this; simp at a3
    · omega
  · obtain ⟨b1, b2, b3, π'', b4, b5, b6⟩ := h'
    obtain rfl := heq h.1 b3
    exfalso
    rcases h.2 with ⟨a1, a2, v, a3, a4⟩ | ⟨a1, a2, π, a3, a4⟩
    · rw [b4] at a3; obtain rfl := Option.some.inj a3
      rw [b5] at a4; cases a4
    · rcases a4 with ⟨rfl, -⟩ | ⟨v, a4, a5, a6⟩
      · simp at b4
      · rw [b4] at a4; obtain rfl := Option.some.inj a4
        rw [b5] at a5; obtain rfl := Except.ok.inj a5
        rcases b6 with b6 | b6
        · omega
        · exact a6 b6
  · obtain ⟨rfl, rfl, -⟩ := h
    rcases h'.2 with ⟨a1, a2, v, a3, a4⟩ | ⟨a1, -⟩
    · have : vs' = [] := List.length_eq_zero_iff.mp hlen.symm
      subst this; simp at a3
    · omega
  · obtain ⟨-, -, rfl, rfl⟩ := h
    obtain ⟨-, -, rfl, rfl⟩ := h'
    exact ⟨rfl, rfl⟩
  · obtain ⟨rfl, rfl, -⟩ := h
    obtain ⟨b1, b2, b3, π'', b4, b5, b6⟩ := h'
    have : vs' = [] := List.length_eq_zero_iff.mp hlen.symm
    subst this; simp at b4
  · obtain ⟨b1, b2, b3, π'', b4, b5, b6⟩ := h
    obtain rfl := heq b3 h'.1
    exfalso
    rcases h'.2 with ⟨a1, a2, v, a3, a4⟩ | ⟨a1, a2, π, a3, a4⟩
    · rw [b4] at a3; obtain rfl := Option.some.inj a3
      rw [b5] at a4; cases a4
    · rcases a4 with ⟨rfl, -⟩ | ⟨v, a4, a5, a6⟩
      · simp at b4
      · rw [b4] at a4; obtain rfl := Option.some.inj a4
        rw [b5] at a5; obtain rfl := Except.ok.inj a5
        rcases b6 with b6 | b6
        · omega
        · exact a6 b6
  · obtain ⟨rfl, rfl, -⟩ := h'
    obtain ⟨b1, b2, b3, π'', b4, b5, b6⟩ := h
    have : vs = [] := List.length_eq_zero_iff.mp hlen
    subst this; simp at b4
  · obtain ⟨a1, a2, a3, π1, a4, a5, a6⟩ := h
    obtain ⟨b1, b2, b3, π2, b4, b5, b6⟩ := h'
    obtain rfl := heq a3 b3
    rw [a4] at b4
    obtain ⟨rfl, rfl⟩ := Prod.mk.inj (Option.some.inj b4)
    rw [a5] at b5
    obtain rfl := Except.ok.inj b5
    exact ⟨rfl, by omega⟩

end

/-! ### The cache -/

section
variable {κ ν : Type} [DecidableEq κ]

theorem LRU.call_entries {c : LRU κ ν} {k : κ} {fresh : Py ν} {e : κ × ν} (h : e ∈ (c.call k fresh).1.entries) :
    e.1 = k ∨ e ∈ c.entries := by
  unfold LRU.call at h
  cases hl : c.entries.lookup k with
  | some v =>
    rw [hl] at h
    rcases List.mem_cons.mp h with rfl | h
    · exact Or.inl rfl
    · exact Or.inr (List.mem_filter.mp h).1
  | none =>
    rw [hl] at h
    cases fresh with
    | error _ => exact Or.inr h
    | ok v =>
      rcases List.mem_cons.mp (List.mem_of_mem_take h) with rfl | h
      · exact Or.inl rfl
      · exact Or.inr h

theorem LRU.call_cap (c : LRU κ ν) (k : κ) (fresh : Py ν) : (c.call k fresh).1.cap = c.cap := by
  unfold LRU.call
  cases c.entries.lookup k with
  | some v => rfl
  | none => cases fresh <;> rfl

theorem LRU.call_miss {c : LRU κ ν} {k : κ} (h : ∀ e ∈ c.entries, e.1 ≠ k) (fresh : Py ν) :
    (c.call k fresh).2 = fresh := by
  unfold LRU.call
  have : c.entries.lookup k = none := by
    rw [lookup_none_iff]
    intro hm
    obtain ⟨e, he, hek⟩ := List.mem_map.mp hm
    exact h e he hek
  rw [this]
  cases fresh <;> rfl

end

/-- The layer split read off the `Edge` objects in a cache key, when the graph objects have the contents `heap`. -/
def splitByKey (heap : Nat → Graph ℝ) (k : SplitKey) : Py (List (Graph ℝ)) :=
  splitLayers k.1 (k.2.1.filterMap fun e => (heap e.1).edges[e.2]?)
    (some (k.2.1.filterMap fun e => (heap e.1).weight.bind fun ws => ws[e.2]?)) k.2.2.1 k.2.2.2

theorem filterMap_range_getElem? {β : Type} (l : List β) : (List.range l.length).filterMap (fun i => l[i]?) = l := by
  induction l using List.reverseRecOn with
  | nil => rfl
  | append_singleton l a ih =>
    rw [List.length_append, List.length_singleton, List.range_succ, List.filterMap_append]
    have : (List.range l.length).filterMap (fun i => (l ++ [a])[i]?) = (List.range l.length).filterMap (fun i => l[i]?) := by
      apply List.filterMap_congr
      intro i hi
      rw [List.getElem?_append_left (List.mem_range.mp hi)]
    rw [this, ih]
    simp

theorem splitByKey_eq {heap : Nat → Graph ℝ} {obj : Nat} (hG : (heap obj).WF) {ws : List ℝ}
    (hw : (heap obj).weight = some ws) (layers : List Nat) :
    splitByKey heap (splitKey obj (heap obj) layers) =
      splitLayers (heap obj).vcount (heap obj).edges (heap obj).weight (heap obj).directed layers := by
  unfold splitByKey splitKey
  simp only [List.filterMap_map, Function.comp_def, hw, Option.bind_some, Graph.ecount]
  rw [filterMap_range_getElem?, ← hG.2 ws hw, filterMap_range_getElem?]

theorem splitIntralayer_inv {heap : Nat → Graph ℝ} {obj : Nat} (hG : (heap obj).WF) {ws : List ℝ}
    (hw : (heap obj).weight = some ws) (layers : List Nat) {c : LRU SplitKey (List (Graph ℝ))}
    (hc : c.Inv (splitByKey heap)) :
    (splitIntralayer c obj (heap obj) layers).1.Inv (splitByKey heap) ∧
    (splitIntralayer c obj (heap obj) layers).2 =
      splitLayers (heap obj).vcount (heap obj).edges (heap obj).weight (heap obj).directed layers ∧
    (splitIntralayer c obj (heap obj) layers).1.cap = c.cap := by
  unfold splitIntralayer
  rw [← splitByKey_eq hG hw layers]
  exact LRU.call_inv hc _

theorem forRange_inv {σ : Type} {I : σ → Prop} {J : World → Prop} {body : σ → Prog (σ × Bool)}
    (hb : ∀ s w, I s → J w → J (body s w).2 ∧ ∀ r, (body s w).1 = .ok r → I r.1) (n : Nat) (s : σ) (w : World)
    (hs : I s) (hw : J w) : J (forRange body n s w).2 := by
  induction n generalizing s w with
  | zero => exact hw
  | succ n ih =>
    obtain ⟨h1, h2⟩ := hb s w hs hw
    have hrun : forRange body (n + 1) s w = match body s w with
        | (.ok a, w') => (if a.2 then (pure (a.1, true) : Prog (σ × Bool)) else forRange body n a.1) w'
        | (.error e, w') => (.error e, w') := by
      show (body s >>= _) w = _
      rw [Prog.bind_eq]
      rcases body s w with ⟨_ | a, w'⟩ <;> rfl
    rw [hrun]
    generalize body s w = bw at h1 h2
    obtain ⟨_ | ⟨s', b⟩, w'⟩ := bw
    · exact h1
    · cases b with
      | true => exact h1
      | false => exact ih s' w' (h2 _ rfl) h1

theorem defaulted_idem {F : Type} [One F] (test : Graph F → Bool) (G : Graph F) :
    defaulted test (defaulted test G) = defaulted test G := by
  have := ecount_defaulted test G
  rw [ensureWeight_ecount] at this
  exact Except.ok.inj this

section
variable {env : LeidenEnv} {heap : Nat → Graph ℝ}

theorem multilayerLeiden_inv (hheap : ∀ o, (heap o).WF ∧ SaneTest env.test (heap o)) {obj : Nat} {Gi : Graph ℝ}
    (hobj : defaulted env.test Gi = defaulted env.test (heap obj)) (Gx : Graph ℝ) (layers : List Nat) (γ : Fl ℝ) (ω : ℝ)
    {w : World} (hw : w.cache.Inv (splitByKey fun o => defaulted env.test (heap o)) ∧ w.cache.cap = 1) :
    let r := multilayerLeiden env obj Gi Gx layers γ ω w
    (r.2.cache.Inv (splitByKey fun o => defaulted env.test (heap o)) ∧ r.2.cache.cap = 1) ∧
    ∀ x, r.1 = .ok x → x.2.1 = defaulted env.test (heap obj) := by
  intro r
  obtain ⟨ws, hws⟩ := defaulted_weight (hheap obj).2
  obtain ⟨h1, h2, h3⟩ := splitIntralayer_inv (heap := fun o => defaulted env.test (heap o)) (obj := obj)
    (defaulted_wf (hheap obj).1) hws layers hw.1
  have hr : r = multilayerLeiden env obj Gi Gx layers γ ω w := rfl
  unfold multilayerLeiden at hr
  rw [ensureWeight_ecount, Prog.lift_ok, ensureWeight_ecount, Prog.lift_ok, Prog.bind_eq, hobj] at hr
  simp only [Prog.split] at hr
  cases hs : (splitIntralayer w.cache obj (defaulted env.test (heap obj)) layers).2 with
  | error e =>
    rw [hs] at hr
    simp only at hr
    rw [hr]
    exact ⟨⟨h1, h3.trans hw.2⟩, by intro x hx; cases hx⟩
  | ok Gs =>
    rw [hs] at hr
    simp only at hr
    rw [Prog.bind_eq] at hr
    simp only [Prog.optimise] at hr
    cases ho : env.optimiseMultiplex w.calls (multiplexProblem Gs (defaulted env.test Gx) γ ω).1
        (multiplexProblem Gs (defaulted env.test Gx) γ ω).2 with
    | error e =>
      rw [ho] at hr
      simp only at hr
      rw [hr]
      exact ⟨⟨h1, h3.trans hw.2⟩, by intro x hx; cases hx⟩
    | ok c =>
      rw [ho] at hr
      simp only at hr
      rw [hr]
      refine ⟨⟨h1, h3.trans hw.2⟩, ?_⟩
      intro x hx
      obtain rfl := Except.ok.inj hx
      rfl

theorem multiBody_inv (hheap : ∀ o, (heap o).WF ∧ SaneTest env.test (heap o)) {obj : Nat} (layers : List Nat)
    (model : String) (T N : Nat) (Nt : List Nat) (mt : List ℝ) (f : ℝ → ℝ → ℝ → Nat → Py ℝ) (gammaTol omegaTol : ℝ)
    (s : MultiState) (w : World) (hs : defaulted env.test s.Gi = defaulted env.test (heap obj))
    (hw : w.cache.Inv (splitByKey fun o => defaulted env.test (heap o)) ∧ w.cache.cap = 1) :
    (((multiBody env obj layers model T N Nt mt f gammaTol omegaTol s w).2.cache.Inv
      (splitByKey fun o => defaulted env.test (heap o)) ∧
      (multiBody env obj layers model T N Nt mt f gammaTol omegaTol s w).2.cache.cap = 1)) ∧
    ∀ r, (multiBody env obj layers model T N Nt mt f gammaTol omegaTol s w).1 = .ok r →
      defaulted env.test r.1.Gi = defaulted env.test (heap obj) := by
  obtain ⟨h1, h2⟩ := multilayerLeiden_inv hheap hs s.Gx layers s.gamma s.omega hw
  unfold multiBody
  rw [Prog.bind_eq]
  generalize multilayerLeiden env obj s.Gi s.Gx layers s.gamma s.omega w = m at h1 h2
  obtain ⟨_ | x, w'⟩ := m
  · exact ⟨h1, by intro r hr; cases hr⟩
  · have h2 := h2 x rfl
    simp only at h1 ⊢
    rw [Prog.bind_eq]
    simp only [Prog.setParts]
    rw [Prog.bind_eq]
    simp only [Prog.lift]
    have he : ∀ est, estimateMulti env layers model T N Nt mt x.2.1 x.2.2 x.1 = .ok est →
        est.2 = defaulted env.test (heap obj) := by
      intro est hest
      unfold estimateMulti at hest
      rw [h2, ecount_defaulted, Py.ok_bind] at hest
      obtain ⟨sbm, -, hest⟩ := Py.bind_ok' hest
      obtain rfl := Except.ok.inj hest
      rfl
    cases hest : estimateMulti env layers model T N Nt mt x.2.1 x.2.2 x.1 with
    | error e => exact ⟨h1, by intro r hr; cases hr⟩
    | ok est =>
      have he := he est hest
      obtain ⟨⟨θin, θout, p, K⟩, G'⟩ := est
      simp only at he ⊢
      split
      · exact ⟨h1, by intro r hr; cases hr⟩
      · cases gammaFromParameters θin θout with
        | none => exact ⟨h1, by intro r hr; cases hr⟩
        | some g =>
          simp only
          rw [Prog.bind_eq]
          cases f θin θout p K with
          | error e => exact ⟨h1, by intro r hr; cases hr⟩
          | ok o =>
            refine ⟨h1, ?_⟩
            intro r hr
            obtain rfl := Except.ok.inj hr
            simp only
            rw [he, defaulted_idem]

theorem reachable_inv (hheap : ∀ o, (heap o).WF ∧ SaneTest env.test (heap o)) {w : World} (h : Reachable env heap w) :
    w.cache.Inv (splitByKey fun o => defaulted env.test (heap o)) ∧ w.cache.cap = 1 := by
  induction h with
  | fresh => exact ⟨⟨by simp [World.fresh, emptySplitCache, LRU.empty], by simp [World.fresh, emptySplitCache, LRU.empty],
      by simp [World.fresh, emptySplitCache, LRU.empty]⟩, rfl⟩
  | optimise n _ ih => exact ih
  | leiden obj Gi Gx layers γ ω hobj _ ih => exact (multilayerLeiden_inv hheap hobj Gx layers γ ω ih).1
  | @iterate w obj Gi Gx layers γ ω γtol ωtol ωmax n model verbose hobj _ ih =>
    cases hprep : prepareMultilayer (defaulted env.test Gi) (defaulted env.test Gx) layers model with
    | error e => rw [c47_malformed γ ω γtol ωtol ωmax n verbose w hprep]; exact ih
    | ok p =>
      obtain ⟨T, mt, N, Nt⟩ := p
      unfold iterateMulti
      rw [ensureWeight_ecount, Prog.lift_ok, ensureWeight_ecount, Prog.lift_ok, hprep, Prog.lift_ok]
      simp only
      cases hf : omegaFunctionFromModel model ωmax T with
      | error e => rw [Prog.lift_error]; exact ih
      | ok f =>
        rw [Prog.lift_ok, Prog.bind_eq]
        have := forRange_inv (J := fun w => w.cache.Inv (splitByKey fun o => defaulted env.test (heap o)) ∧
          w.cache.cap = 1) (multiBody_inv hheap (obj := obj) layers model T N Nt mt f γtol ωtol) n
          ⟨defaulted env.test Gi, defaulted env.test Gx, .fin γ, ω, none⟩ w (by rw [defaulted_idem]; exact hobj) ih
        rcases hr : forRange (multiBody env obj layers model T N Nt mt f γtol ωtol) n
            ⟨defaulted env.test Gi, defaulted env.test Gx, .fin γ, ω, none⟩ w with ⟨_ | a, w'⟩
        · rw [hr] at this; exact this
        · rw [hr] at this
          simp only at this ⊢
          split
          · exact this
          · rw [Prog.bind_eq]
            unfold Prog.getParts
            cases hpt : w'.parts <;> exact this

end

end Verif
