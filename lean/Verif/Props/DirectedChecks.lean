import Verif.Model.DirectedChecks
import Verif.Props.BothWays
import Verif.Props.Checks
import Verif.Props.Studies

/-!
# Property C102: the directed-consistency tests accept the estimators, and notice less than they seem to
-/

namespace Verif.Props
open Verif Spec

/-! ### The assertion -/

/-- **C102 (assertion).** `assert_almost_equal_or_both_none_or_nan` passes exactly if both are `None`, both are NaN, both are the
same infinity, or both are numbers that agree up to `0.5e-10`; it raises `TypeError` exactly if only the second is `None`. -/
theorem c102_assertion (x y : Option (Fl ℝ)) :
    (sameEstimate x y = .ok () ↔ (x = y ∧ ∀ r, x ≠ some (.fin r)) ∨ ∃ r s, x = some (.fin r) ∧ y = some (.fin s) ∧ Close r s) ∧
    (sameEstimate x y = .error .typeError ↔ x ≠ none ∧ y = none) ∧
    (sameEstimate x y = .ok () ∨ sameEstimate x y = .error .typeError ∨ sameEstimate x y = .error .assertionError) := by
  have hfin : ∀ r s : ℝ, assertAlmostEqual (.fin r) (.fin s) = if |r - s| ≤ 5 / 10 ^ 11 then .ok () else .error .assertionError :=
    fun r s => rfl
  rcases x with _ | x <;> rcases y with _ | y
  · simp [sameEstimate]
  · simp [sameEstimate]
  · cases x <;> simp [sameEstimate]
  · cases x <;> cases y <;> simp [sameEstimate, assertAlmostEqual, Close] <;> split_ifs <;> simp_all

theorem sameEstimate_self (x : Option (Fl ℝ)) : sameEstimate x x = .ok () := by
  rw [(c102_assertion x x).1]
  rcases x with _ | x
  · exact Or.inl ⟨rfl, by simp⟩
  · cases x with
    | fin r => exact Or.inr ⟨r, r, rfl, rfl, close_self r⟩
    | _ => exact Or.inl ⟨rfl, by simp⟩

theorem toDirected_undirected {G : Graph ℝ} (h : G.directed = false) : G.toDirected = bothWays G := by
  unfold Graph.toDirected bothWays
  rw [if_neg (by simp [h])]

theorem toDirected_directed {G : Graph ℝ} (h : G.directed = true) : G.toDirected = G := if_pos h

/-! ### The library passes -/

section
variable {test : Graph ℝ → Bool} {G : Graph ℝ}

/-- **C102 (single layer).** For every undirected graph and membership the test passes if `gamma_estimate` returns, and otherwise
raises the exception of `gamma_estimate`; it never fails because of the comparison. -/
theorem c102_gamma_accepted (hG : G.WF) (hd : G.directed = false) (ht : SameAnswer test (defaulted test G)) (c : List Nat) :
    checkDirectedGamma (gammaEstimate test) G c = (gammaEstimate test G c).map fun r => bothWays r.2 := by
  unfold checkDirectedGamma
  cases h : gammaEstimate test G c with
  | error e => rfl
  | ok r =>
    obtain ⟨e, G'⟩ := r
    obtain rfl := gammaEstimate_leaves hG h
    rw [Py.ok_bind]
    dsimp only
    rw [toDirected_undirected ((defaulted_shape test G).2.2.trans hd), c92_gamma_estimate (defaulted_wf hG) ht,
      gammaEstimate_again hG, h]
    simp only [Except.map, Py.ok_bind, sameEstimate_self]
    rfl

/-- A comparison whose estimates are equal only passes on the exceptions of the estimator. -/
theorem compareDirected_equal {est : Estimator} {G G' H : Graph ℝ} {c : List Nat} {e : Option (Fl ℝ) × ℝ}
    (h1 : est G c = .ok (e, G')) (h2 : est G'.toDirected c = .ok (e, H)) : compareDirected est G c = .ok H := by
  unfold compareDirected
  simp only [h1, Py.ok_bind, h2, sameEstimate_self]
  rfl

variable {Gx : Graph ℝ} {layers : List Nat} {fsolve : (ℝ → ℝ) → ℝ → ℝ} {ωmax : ℝ}

/-- The library's estimator. -/
noncomputable def libraryEst (test : Graph ℝ → Bool) (fsolve : (ℝ → ℝ) → ℝ → ℝ) (Gx : Graph ℝ) (layers : List Nat) (ωmax : ℝ)
    (model : String) : Estimator := fun G c => gammaOmegaEstimate test fsolve G Gx layers c ωmax model

/-- The graphs that occur during a test: the graph as given, with its weights set, and the directed version of the latter. -/
def Occurs (test : Graph ℝ → Bool) (G H : Graph ℝ) : Prop := H = G ∨ H = bothWays (defaulted test G)

theorem estimate_defaulted (test : Graph ℝ → Bool) (G : Graph ℝ) (c : List Nat) (model : String) :
    gammaOmegaEstimate test fsolve (defaulted test G) Gx layers c ωmax model =
      gammaOmegaEstimate test fsolve G Gx layers c ωmax model :=
  gammaOmegaEstimate_thread (ensureWeight_ecount test G) c

/-- One comparison with the library's estimator, on the graph or on what an earlier comparison left of it. -/
theorem library_compare (hM : Multilayer G Gx layers) (hd : G.directed = false) (ht : SameAnswer test (defaulted test G))
    (model : String) (c : List Nat) {H : Graph ℝ} (hH : Occurs test G H) :
    compareDirected (libraryEst test fsolve Gx layers ωmax model) H c =
      (gammaOmegaEstimate test fsolve G Gx layers c ωmax model).map fun _ => bothWays (defaulted test G) := by
  have hest : gammaOmegaEstimate test fsolve (bothWays (defaulted test G)) Gx layers c ωmax model =
      (gammaOmegaEstimate test fsolve G Gx layers c ωmax model).map fun r => (r.1, bothWays r.2) := by
    rw [c92_gamma_omega_estimate (multilayer_defaulted hM) ((defaulted_shape test G).2.2.trans hd) ht, estimate_defaulted]
  cases h : gammaOmegaEstimate test fsolve G Gx layers c ωmax model with
  | error e =>
    rcases hH with rfl | rfl
    · unfold compareDirected libraryEst; simp only [h]; rfl
    · unfold compareDirected libraryEst; simp only [hest, h]; rfl
  | ok r =>
    obtain ⟨e, G'⟩ := r
    obtain rfl : G' = defaulted test G := gammaOmegaEstimate_graph h
    rw [h] at hest
    have hest' : libraryEst test fsolve Gx layers ωmax model (bothWays (defaulted test G)) c =
        .ok (e, bothWays (defaulted test G)) := hest
    rcases hH with rfl | rfl
    · refine compareDirected_equal h ?_
      rw [toDirected_undirected ((defaulted_shape test H).2.2.trans hd)]
      exact hest'
    · refine compareDirected_equal hest' ?_
      rw [toDirected_directed rfl]
      exact hest'

theorem foldlM_stays {β σ : Type} {f : σ → β → Py σ} {I : σ → Prop} {g : β → Py Unit} {t : σ} (ht : I t)
    (hf : ∀ s x, I s → f s x = (g x).map fun _ => t) (l : List β) {s : σ} (hs : I s) :
    (∃ s', l.foldlM f s = .ok s' ∧ ∀ x ∈ l, g x = .ok ()) ∨
      (∃ e, l.foldlM f s = .error e ∧ ∃ before x after, l = before ++ x :: after ∧ (∀ y ∈ before, g y = .ok ()) ∧ g x = .error e) := by
  induction l generalizing s with
  | nil => exact Or.inl ⟨s, rfl, by simp⟩
  | cons x l ih =>
    rw [List.foldlM_cons, hf s x hs]
    cases hg : g x with
    | error e => exact Or.inr ⟨e, rfl, [], x, l, rfl, by simp, hg⟩
    | ok u =>
      rcases ih ht with ⟨s', h1, h2⟩ | ⟨e, h1, before, y, after, h2, h3, h4⟩
      · exact Or.inl ⟨s', h1, by simp only [List.mem_cons]; rintro y (rfl | hy); exacts [hg, h2 y hy]⟩
      · refine Or.inr ⟨e, h1, x :: before, y, after, by rw [h2]; rfl, ?_, h4⟩
        simp only [List.mem_cons]
        rintro z (rfl | hz)
        exacts [hg, h3 z hz]

theorem map_unit_ok {β : Type} {x : Py β} : (x.map fun _ => ()) = .ok () ↔ ∃ v, x = .ok v := by
  cases x <;> simp [Except.map]

theorem map_unit_error {β : Type} {x : Py β} {e : PyErr} : (x.map fun _ => ()) = .error e ↔ x = .error e := by
  cases x <;> simp [Except.map]

/-- **C102 (multiplex).** For every multilayer network with undirected intralayer edges and every list of partitions: the multiplex
test passes if `gamma_omega_estimate` returns for each of them, and otherwise raises the exception of the first for which it does
not. -/
theorem c102_multiplex_accepted (hM : Multilayer G Gx layers) (hd : G.directed = false) (ht : SameAnswer test (defaulted test G))
    (parts : List (List Nat)) :
    (∃ H, checkDirectedMultiplex (libraryEst test fsolve Gx layers ωmax) G parts = .ok H ∧
      ∀ c ∈ parts, ∃ v, gammaOmegaEstimate test fsolve G Gx layers c ωmax "multiplex" = .ok v) ∨
    (∃ e, checkDirectedMultiplex (libraryEst test fsolve Gx layers ωmax) G parts = .error e ∧
      ∃ before c after, parts = before ++ c :: after ∧
        (∀ c' ∈ before, ∃ v, gammaOmegaEstimate test fsolve G Gx layers c' ωmax "multiplex" = .ok v) ∧
        gammaOmegaEstimate test fsolve G Gx layers c ωmax "multiplex" = .error e) := by
  have := foldlM_stays (f := compareDirected (libraryEst test fsolve Gx layers ωmax "multiplex")) (I := Occurs test G)
    (g := fun c => (gammaOmegaEstimate test fsolve G Gx layers c ωmax "multiplex").map fun _ => ())
    (t := bothWays (defaulted test G)) (Or.inr rfl)
    (fun s c hs => by
      rw [library_compare hM hd ht "multiplex" c hs]
      cases gammaOmegaEstimate test fsolve G Gx layers c ωmax "multiplex" <;> rfl) parts (Or.inl rfl : Occurs test G G)
  simp only [map_unit_ok, map_unit_error] at this
  exact this

/-- **C102 (temporal and multilevel).** The same for the test of the temporal and multilevel models, which estimates with both. -/
theorem c102_temporal_accepted (hM : Multilayer G Gx layers) (hd : G.directed = false) (ht : SameAnswer test (defaulted test G))
    (parts : List (List Nat)) :
    ((∀ c ∈ parts, ∀ model ∈ ["temporal", "multilevel"],
        ∃ v, gammaOmegaEstimate test fsolve G Gx layers c ωmax model = .ok v) →
      ∃ H, checkDirectedTemporal (libraryEst test fsolve Gx layers ωmax) G parts = .ok H) ∧
    ∀ e, checkDirectedTemporal (libraryEst test fsolve Gx layers ωmax) G parts = .error e →
      ∃ c ∈ parts, ∃ model ∈ ["temporal", "multilevel"], gammaOmegaEstimate test fsolve G Gx layers c ωmax model = .error e := by
  have := foldlM_stays
    (f := fun G c => do
      let G ← compareDirected (libraryEst test fsolve Gx layers ωmax "temporal") G c
      compareDirected (libraryEst test fsolve Gx layers ωmax "multilevel") G c) (I := Occurs test G)
    (g := fun c => do
      let _ ← gammaOmegaEstimate test fsolve G Gx layers c ωmax "temporal"
      (gammaOmegaEstimate test fsolve G Gx layers c ωmax "multilevel").map fun _ => ())
    (t := bothWays (defaulted test G)) (Or.inr rfl)
    (fun s c hs => by
      rw [library_compare hM hd ht "temporal" c hs]
      cases gammaOmegaEstimate test fsolve G Gx layers c ωmax "temporal" with
      | error e => rfl
      | ok v =>
        simp only [Except.map, Py.ok_bind]
        rw [library_compare hM hd ht "multilevel" c (Or.inr rfl)]
        cases gammaOmegaEstimate test fsolve G Gx layers c ωmax "multilevel" <;> rfl) parts (Or.inl rfl : Occurs test G G)
  rcases this with ⟨H, h1, -⟩ | ⟨e, h1, before, c, after, rfl, -, h2⟩
  · exact ⟨fun _ => ⟨H, h1⟩, fun e he => by
      have : checkDirectedTemporal (libraryEst test fsolve Gx layers ωmax) G parts = .ok H := h1
      rw [this] at he; cases he⟩
  · have h1' : checkDirectedTemporal (libraryEst test fsolve Gx layers ωmax) G (before ++ c :: after) = .error e := h1
    have hex : ∃ model ∈ ["temporal", "multilevel"], gammaOmegaEstimate test fsolve G Gx layers c ωmax model = .error e := by
      cases ht : gammaOmegaEstimate test fsolve G Gx layers c ωmax "temporal" with
      | error e' =>
        rw [ht] at h2
        cases h2
        exact ⟨"temporal", by simp, ht⟩
      | ok v =>
        rw [ht] at h2
        exact ⟨"multilevel", by simp, map_unit_error.mp h2⟩
    constructor
    · intro hall
      obtain ⟨model, hm, he⟩ := hex
      obtain ⟨v, hv⟩ := hall c (by simp) model hm
      rw [hv] at he
      cases he
    · intro e' he
      rw [h1'] at he
      cases he
      obtain ⟨model, hm, he⟩ := hex
      exact ⟨c, by simp, model, hm, he⟩

end

/-! ### What a comparison means for an arbitrary estimator -/

/-- Two estimates agree: both missing, both NaN, the same infinity, or numbers that differ by at most `5 · 10⁻¹¹`. -/
def Agree (x y : Option (Fl ℝ)) : Prop :=
  (x = y ∧ ∀ r, x ≠ some (.fin r)) ∨ ∃ r s, x = some (.fin r) ∧ y = some (.fin s) ∧ Close r s

/-- **C102 (what the singlelayer test says).** For every estimator – right or wrong – the comparison passes exactly if both
estimates are returned and agree: that of the graph and that of its directed version. -/
theorem c102_gamma_meaning (est : Graph ℝ → List Nat → Py (Option (Fl ℝ) × Graph ℝ)) (G H : Graph ℝ) (c : List Nat) :
    checkDirectedGamma est G c = .ok H ↔
      ∃ x G' y, est G c = .ok (x, G') ∧ est G'.toDirected c = .ok (y, H) ∧ Agree x y := by
  unfold checkDirectedGamma
  constructor
  · intro h
    obtain ⟨⟨x, G'⟩, h1, h⟩ := Py.bind_ok' h
    obtain ⟨⟨y, H'⟩, h2, h⟩ := Py.bind_ok' h
    obtain ⟨⟨⟩, h3, h⟩ := Py.bind_ok' h
    cases h
    exact ⟨x, G', y, h1, h2, (c102_assertion x y).1.mp h3⟩
  · rintro ⟨x, G', y, h1, h2, h3⟩
    rw [h1, Py.ok_bind]
    dsimp only
    rw [h2, Py.ok_bind, (c102_assertion x y).1.mpr h3]
    rfl

/-- **C102 (what a comparison of multilayer estimates says).** The same for gamma and omega. -/
theorem c102_compare_meaning (est : Estimator) (G H : Graph ℝ) (c : List Nat) :
    compareDirected est G c = .ok H ↔
      ∃ x ω G' y ω', est G c = .ok ((x, ω), G') ∧ est G'.toDirected c = .ok ((y, ω'), H) ∧ Agree x y ∧ Close ω ω' := by
  have hω : ∀ ω ω' : ℝ, sameEstimate (some (.fin ω)) (some (.fin ω')) = .ok () ↔ Close ω ω' := by
    intro ω ω'
    rw [(c102_assertion _ _).1]
    constructor
    · rintro (⟨-, h⟩ | ⟨r, s, h1, h2, h3⟩)
      · exact absurd rfl (h ω)
      · cases h1; cases h2; exact h3
    · exact fun h => Or.inr ⟨ω, ω', rfl, rfl, h⟩
  unfold compareDirected
  constructor
  · intro h
    obtain ⟨⟨⟨x, ω⟩, G'⟩, h1, h⟩ := Py.bind_ok' h
    obtain ⟨⟨⟨y, ω'⟩, H'⟩, h2, h⟩ := Py.bind_ok' h
    obtain ⟨⟨⟩, h3, h⟩ := Py.bind_ok' h
    obtain ⟨⟨⟩, h4, h⟩ := Py.bind_ok' h
    cases h
    exact ⟨x, ω, G', y, ω', h1, h2, (c102_assertion x y).1.mp h3, (hω ω ω').mp h4⟩
  · rintro ⟨x, ω, G', y, ω', h1, h2, h3, h4⟩
    rw [h1, Py.ok_bind]
    dsimp only
    rw [h2, Py.ok_bind, (c102_assertion x y).1.mpr h3, Py.ok_bind, (hω ω ω').mpr h4]
    rfl

/-- A wrong estimator – the number of edges – is found out by the comparison of any graph with an edge. -/
example : ∀ H, checkDirectedGamma (fun G _ => .ok (some (.fin (G.edges.length : ℝ)), G)) ⟨2, false, [(0, 1)], none⟩ [0, 0] ≠ .ok H := by
  intro H h
  obtain ⟨x, G', y, h1, h2, h3⟩ := (c102_gamma_meaning _ _ _ _).mp h
  cases h1
  cases h2
  rcases h3 with ⟨-, h⟩ | ⟨r, s, h1, h2, h3⟩
  · exact h _ rfl
  · cases h1; cases h2
    norm_num [Close, Graph.toDirected, abs_le] at h3

/-! ### What the tests cannot notice -/

/-- The estimator gives the same result when asked again, and does not turn an undirected graph into a directed one or vice
versa.  (The library's does: `c102_library_settles`.) -/
def Settles (est : Estimator) : Prop := ∀ G c v G', est G c = .ok (v, G') → G'.directed = G.directed ∧ est G' c = .ok (v, G')

theorem c102_library_settles (test : Graph ℝ → Bool) (fsolve : (ℝ → ℝ) → ℝ → ℝ) (Gx : Graph ℝ) (layers : List Nat) (ωmax : ℝ)
    (model : String) : Settles (libraryEst test fsolve Gx layers ωmax model) := by
  intro G c v G' h
  obtain rfl : G' = defaulted test G := gammaOmegaEstimate_graph h
  exact ⟨(defaulted_shape test G).2.2, (estimate_defaulted test G c model).trans h⟩

/-- **C102 (directed graphs are compared with themselves).** On a graph that is directed already – and every graph is, after the
first comparison, because `to_directed` changes it in place – a comparison passes for *every* estimator, right or wrong, that
returns something. -/
theorem c102_directed_blind {est : Estimator} (hs : Settles est) {G : Graph ℝ} (hd : G.directed = true) (c : List Nat) :
    compareDirected est G c = (est G c).map Prod.snd := by
  cases h : est G c with
  | error e => unfold compareDirected; rw [h]; rfl
  | ok r =>
    obtain ⟨v, G'⟩ := r
    obtain ⟨h1, h2⟩ := hs G c v G' h
    exact compareDirected_equal h (by rw [toDirected_directed (h1.trans hd)]; exact h2)

theorem compare_leaves_directed {est : Estimator} (hs : Settles est) {G H : Graph ℝ} {c : List Nat}
    (h : compareDirected est G c = .ok H) : H.directed = true := by
  unfold compareDirected at h
  obtain ⟨⟨v, G'⟩, h1, h⟩ := Py.bind_ok' h
  obtain ⟨⟨v', H'⟩, h2, h⟩ := Py.bind_ok' h
  obtain ⟨_, -, h⟩ := Py.bind_ok' h
  obtain ⟨_, -, h⟩ := Py.bind_ok' h
  cases h
  rw [(hs _ _ _ _ h2).1]
  dsimp only
  unfold Graph.toDirected
  split
  · assumption
  · rfl

/-- The estimator returns on every directed graph. -/
def Total (est : Estimator) : Prop := ∀ G c, G.directed = true → ∃ r, est G c = .ok r

theorem directed_fold {est : Estimator} (hs : Settles est) (ht : Total est) (parts : List (List Nat)) {G : Graph ℝ}
    (hd : G.directed = true) : ∃ H, parts.foldlM (compareDirected est) G = .ok H ∧ H.directed = true := by
  induction parts generalizing G with
  | nil => exact ⟨G, rfl, hd⟩
  | cons c cs ih =>
    obtain ⟨r, hr⟩ := ht G c hd
    have h1 : compareDirected est G c = .ok r.2 := by rw [c102_directed_blind hs hd, hr]; rfl
    rw [List.foldlM_cons, h1, Py.ok_bind]
    exact ih (compare_leaves_directed hs h1)

/-- **C102 (only the first partition counts).** The multiplex test passes for an estimator that returns on directed graphs iff its
comparison on the first partition does: the other partitions are not compared with an undirected graph. -/
theorem c102_first_only {est : String → Estimator} (hs : Settles (est "multiplex")) (ht : Total (est "multiplex")) (G : Graph ℝ)
    (c : List Nat) (cs : List (List Nat)) :
    (∃ H, checkDirectedMultiplex est G (c :: cs) = .ok H) ↔ ∃ H, compareDirected (est "multiplex") G c = .ok H := by
  unfold checkDirectedMultiplex
  rw [List.foldlM_cons]
  constructor
  · rintro ⟨H, h⟩
    obtain ⟨H', h1, -⟩ := Py.bind_ok' h
    exact ⟨H', h1⟩
  · rintro ⟨H, h⟩
    rw [h, Py.ok_bind]
    obtain ⟨H', h', -⟩ := directed_fold hs ht cs (compare_leaves_directed hs h)
    exact ⟨H', h'⟩

/-- **C102 (the multilevel model is not tested).** Replace the multilevel estimator by *any* function of the graph and the
partition: the temporal test still passes exactly if the comparison of the temporal estimates on the first partition does. -/
theorem c102_multilevel_untested {est : String → Estimator} (hs : Settles (est "temporal")) (ht : Total (est "temporal"))
    (anything : Graph ℝ → List Nat → Option (Fl ℝ) × ℝ)
    (hm : est "multilevel" = fun G c => .ok (anything G c, G)) (G : Graph ℝ) (c : List Nat) (cs : List (List Nat)) :
    (∃ H, checkDirectedTemporal est G (c :: cs) = .ok H) ↔ ∃ H, compareDirected (est "temporal") G c = .ok H := by
  have hms : Settles (est "multilevel") := by
    rw [hm]
    intro G c v G' h
    cases h
    exact ⟨rfl, rfl⟩
  have hlev : ∀ (G : Graph ℝ) c, G.directed = true → compareDirected (est "multilevel") G c = .ok G := by
    intro G c hd
    rw [c102_directed_blind hms hd, hm]
    rfl
  have hfold : ∀ (parts : List (List Nat)) {G : Graph ℝ}, G.directed = true →
      ∃ H, parts.foldlM (fun G c => do
        let G ← compareDirected (est "temporal") G c
        compareDirected (est "multilevel") G c) G = .ok H := by
    intro parts
    induction parts with
    | nil => exact fun {G} _ => ⟨G, rfl⟩
    | cons c cs ih =>
      intro G hd
      obtain ⟨r, hr⟩ := ht G c hd
      have h1 : compareDirected (est "temporal") G c = .ok r.2 := by rw [c102_directed_blind hs hd, hr]; rfl
      have h2 := compare_leaves_directed hs h1
      rw [List.foldlM_cons, h1, Py.ok_bind, hlev _ _ h2, Py.ok_bind]
      exact ih h2
  unfold checkDirectedTemporal
  rw [List.foldlM_cons]
  constructor
  · rintro ⟨H, h⟩
    obtain ⟨H', h1, -⟩ := Py.bind_ok' h
    obtain ⟨H'', h2, -⟩ := Py.bind_ok' h1
    exact ⟨H'', h2⟩
  · rintro ⟨H, h⟩
    have hd := compare_leaves_directed hs h
    rw [h, Py.ok_bind, hlev _ _ hd, Py.ok_bind]
    exact hfold cs hd

/-! ### Concrete instances -/

theorem noWeights_same (G : Graph ℝ) : SameAnswer (fun _ => false) (defaulted (fun _ => false) G) := rfl

/-- The single-layer test on a small graph with every membership … -/
example (c : List Nat) : checkDirectedGamma (gammaEstimate fun _ => false) gReal c =
    (gammaEstimate (fun _ => false) gReal c).map fun r => bothWays r.2 :=
  c102_gamma_accepted gReal_wf rfl (noWeights_same _) c

/-- An estimator whose multilevel estimates are wrong on directed graphs (2 instead of 1). -/
noncomputable def wrongLevels : String → Estimator := fun model G _ =>
  .ok ((if model = "multilevel" ∧ G.directed = true then some (.fin 2) else some (.fin 1), 1), G)

/-- … the comparison that was meant would notice it … -/
example : compareDirected (wrongLevels "multilevel") gReal [0, 0, 0, 0, 0] = .error .assertionError := by
  have : |(1 : ℝ) - 2| ≤ 5 / 10 ^ 11 ↔ False := by norm_num
  simp [compareDirected, wrongLevels, Graph.toDirected, gReal, sameEstimate, assertAlmostEqual, this, Bind.bind,
    Except.bind]

/-- … but the test passes on every graph and every list of partitions. -/
example (G : Graph ℝ) (c : List Nat) (cs : List (List Nat)) : ∃ H, checkDirectedTemporal wrongLevels G (c :: cs) = .ok H := by
  rw [c102_multilevel_untested (est := wrongLevels)
    (fun G c v G' h => by cases h; exact ⟨rfl, rfl⟩)
    (fun G c _ => ⟨_, rfl⟩)
    (fun G c => (if G.directed = true then some (.fin 2) else some (.fin 1), 1))
    (by funext G c; simp [wrongLevels])]
  refine ⟨G.toDirected, compareDirected_equal (e := (some (.fin 1), 1)) (G' := G) ?_ ?_⟩ <;> simp [wrongLevels]

/-- A wrong temporal estimator is noticed if the first partition shows it, and only then. -/
noncomputable def wrongSecond : String → Estimator := fun _ G c =>
  .ok ((if c = [0, 1, 2, 3, 4] ∧ G.directed = true then some (.fin 2) else some (.fin 1), 1), G)

example : (∃ H, checkDirectedMultiplex wrongSecond gReal [[0, 0, 0, 0, 0], [0, 1, 2, 3, 4]] = .ok H) ∧
    ¬ ∃ H, checkDirectedMultiplex wrongSecond gReal [[0, 1, 2, 3, 4], [0, 0, 0, 0, 0]] = .ok H := by
  have hs : Settles (wrongSecond "multiplex") := fun G c v G' h => by cases h; exact ⟨rfl, rfl⟩
  have ht : Total (wrongSecond "multiplex") := fun G c _ => ⟨_, rfl⟩
  rw [c102_first_only hs ht, c102_first_only hs ht]
  constructor
  · exact ⟨gReal.toDirected, compareDirected_equal (e := (some (.fin 1), 1)) (G' := gReal) (by simp [wrongSecond]) (by simp [wrongSecond])⟩
  · rintro ⟨H, h⟩
    have : |(1 : ℝ) - 2| ≤ 5 / 10 ^ 11 ↔ False := by norm_num
    simp [compareDirected, wrongSecond, Graph.toDirected, gReal, sameEstimate, assertAlmostEqual, this, Bind.bind,
      Except.bind] at h

/-- The library's estimators on a two-layer temporal network. -/
example (parts : List (List Nat)) (fsolve : (ℝ → ℝ) → ℝ → ℝ) (e : PyErr)
    (h : checkDirectedTemporal (libraryEst (fun _ => false) fsolve gInterR [0, 0, 0, 1, 1, 1] 1000) gIntraR parts = .error e) :
    ∃ c ∈ parts, ∃ model ∈ ["temporal", "multilevel"],
      gammaOmegaEstimate (fun _ => false) fsolve gIntraR gInterR [0, 0, 0, 1, 1, 1] c 1000 model = .error e :=
  (c102_temporal_accepted gIntraR_multilayer rfl (noWeights_same _) parts).2 e h

end Verif.Props
