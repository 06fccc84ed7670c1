import Verif.Model.LouvainPart
import Verif.Props.Louvain
import Verif.Props.Checks

/-!
# Property C112: the legacy Louvain partition objects
-/

namespace Verif.Props
open Verif Verif.Spec

variable {inst : LouvainInstallation} {test : Graph ℝ → Bool} {accepts : Graph ℝ → List Nat → Py Unit} {Gi Gx : Graph ℝ}
  {layers membership : List Nat}

/-- **C112 (effect).** Whatever the installation, the layers and the membership, and whether or not the call returns: afterwards both graphs
have the weights 1 where they had none, and are otherwise unchanged. -/
theorem c112_effect (inst : LouvainInstallation) (test : Graph ℝ → Bool) (accepts : Graph ℝ → List Nat → Py Unit) (Gi Gx : Graph ℝ)
    (layers membership : List Nat) :
    (multilayerLouvainPart inst test accepts Gi Gx layers).2 = (defaulted test Gi, defaulted test Gx) ∧
    (multilayerLouvainPartWithMembership inst test accepts Gi Gx layers membership).2 = (defaulted test Gi, defaulted test Gx) := by
  have h : (multilayerLouvainPart inst test accepts Gi Gx layers).2 = (defaulted test Gi, defaulted test Gx) := by
    unfold multilayerLouvainPart
    rw [ensureWeight_ecount, ensureWeight_ecount]
  exact ⟨h, h⟩

/-- **C112 (no multilayer support).** Without the package both functions raise `NameError`, with a package without multilayer support
`AttributeError` – after the weights were added (`c112_effect`). -/
theorem c112_unsupported (h : inst ≠ .multilayer) :
    (multilayerLouvainPart inst test accepts Gi Gx layers).1 = .error (if inst = .missing then .nameError else .attributeError) ∧
    (multilayerLouvainPartWithMembership inst test accepts Gi Gx layers membership).1 =
      .error (if inst = .missing then .nameError else .attributeError) := by
  have : (multilayerLouvainPart inst test accepts Gi Gx layers).1 = .error (if inst = .missing then .nameError else .attributeError) := by
    unfold multilayerLouvainPart
    rw [ensureWeight_ecount, ensureWeight_ecount]
    cases inst with
    | missing => rfl
    | plain => rfl
    | multilayer => exact absurd rfl h
  refine ⟨this, ?_⟩
  show Except.bind _ _ = _
  rw [this]; rfl

/-- **C112 (the objects).** With multilayer support, and layers the package accepts, `multilayer_louvain_part` returns an object for the
intralayer graph with its layers at resolution 1 and one for the interlayer graph at resolution 0, both on the weighted graphs, every
vertex in a community of its own. -/
theorem c112_part (hacc : accepts (defaulted test Gi) layers = .ok ()) :
    (multilayerLouvainPart .multilayer test accepts Gi Gx layers).1 =
      .ok (⟨defaulted test Gi, some layers, 1, List.range Gi.vcount⟩, ⟨defaulted test Gx, none, 0, List.range Gx.vcount⟩) := by
  have hv : ∀ G : Graph ℝ, (defaulted test G).vcount = G.vcount := fun G => by unfold defaulted; split <;> rfl
  unfold multilayerLouvainPart
  rw [ensureWeight_ecount, ensureWeight_ecount]
  simp only [weightedLayersPart, hacc, cpmPart, hv]
  rfl

/-- **C112 (with a membership).** `multilayer_louvain_part_with_membership` returns exactly if the package accepts the layers and the membership
has one entry per vertex of both graphs; then both objects store exactly that membership.  A membership of another length for either graph is
`ValueError`. -/
theorem c112_with_membership (hacc : accepts (defaulted test Gi) layers = .ok ()) :
    (membership.length = Gi.vcount ∧ membership.length = Gx.vcount →
      (multilayerLouvainPartWithMembership .multilayer test accepts Gi Gx layers membership).1 =
        .ok (⟨defaulted test Gi, some layers, 1, membership⟩, ⟨defaulted test Gx, none, 0, membership⟩)) ∧
    (¬ (membership.length = Gi.vcount ∧ membership.length = Gx.vcount) →
      ∃ msg, (multilayerLouvainPartWithMembership .multilayer test accepts Gi Gx layers membership).1 = .error (.valueError msg)) := by
  have hv : ∀ G : Graph ℝ, (defaulted test G).vcount = G.vcount := fun G => by unfold defaulted; split <;> rfl
  have h := c112_part (Gx := Gx) hacc
  unfold multilayerLouvainPartWithMembership
  simp only [h, Py.ok_bind, LouvainObj.setMembership, hv]
  constructor
  · rintro ⟨h1, h2⟩
    rw [if_pos h1, Py.ok_bind, if_pos h2]; rfl
  · intro hn
    by_cases h1 : membership.length = Gi.vcount
    · rw [if_pos h1, Py.ok_bind, if_neg (fun h2 => hn ⟨h1, h2⟩)]
      exact ⟨_, rfl⟩
    · rw [if_neg h1]; exact ⟨_, rfl⟩

/-- **C112 (rejected layers).** If the package rejects the layers, the exception is passed on. -/
theorem c112_rejected {e : PyErr} (hacc : accepts (defaulted test Gi) layers = .error e) :
    (multilayerLouvainPart .multilayer test accepts Gi Gx layers).1 = .error e ∧
    (multilayerLouvainPartWithMembership .multilayer test accepts Gi Gx layers membership).1 = .error e := by
  have : (multilayerLouvainPart .multilayer test accepts Gi Gx layers).1 = .error e := by
    unfold multilayerLouvainPart
    rw [ensureWeight_ecount, ensureWeight_ecount]
    simp only [weightedLayersPart, hacc]
    rfl
  refine ⟨this, ?_⟩
  show Except.bind _ _ = _
  rw [this]; rfl

/-- **C112 (again).** A second call on the same graphs builds the same objects and changes nothing more. -/
theorem c112_idempotent (inst : LouvainInstallation) (test : Graph ℝ → Bool) (accepts : Graph ℝ → List Nat → Py Unit) (Gi Gx : Graph ℝ)
    (layers membership : List Nat) :
    let r := multilayerLouvainPartWithMembership inst test accepts Gi Gx layers membership
    multilayerLouvainPartWithMembership inst test accepts r.2.1 r.2.2 layers membership = r := by
  intro r
  have idem : ∀ G : Graph ℝ, ensureWeight test (defaulted test G).ecount (defaulted test G) = .ok (defaulted test G) := by
    intro G
    refine ensureWeight_defaulted test ?_
    rcases Nat.eq_zero_or_pos G.ecount with h | h
    · exact Or.inr (List.length_eq_zero_iff.mp h)
    · refine Or.inl ?_
      have : (defaulted test G).ecount = G.ecount := by unfold defaulted; split <;> rfl
      rw [this]; exact h
  have e : r.2 = (defaulted test Gi, defaulted test Gx) := (c112_effect inst test accepts Gi Gx layers membership).2
  rw [e]
  show multilayerLouvainPartWithMembership inst test accepts (defaulted test Gi) (defaulted test Gx) layers membership =
    multilayerLouvainPartWithMembership inst test accepts Gi Gx layers membership
  unfold multilayerLouvainPartWithMembership multilayerLouvainPart
  simp only [idem, ensureWeight_ecount]

/-- **C112 (`multilayer_louvain` looks first).** It returns what `multilayerLouvain` (C52) says, and in contrast to the functions above it leaves
both graphs alone if there is no multilayer support; otherwise it adds the missing weights, whether or not the optimisation succeeds. -/
theorem c112_run_effect (env : LouvainEnv) (i : Nat) (Gi Gx : Graph ℝ) (layers : List Nat) (γ : Fl ℝ) (ω : ℝ) :
    (multilayerLouvainEffect env i Gi Gx layers γ ω).1 = multilayerLouvain env i Gi Gx layers γ ω ∧
    (multilayerLouvainEffect env i Gi Gx layers γ ω).2 =
      if env.installation = .multilayer then (defaulted env.test Gi, defaulted env.test Gx) else (Gi, Gx) := by
  unfold multilayerLouvainEffect multilayerLouvain
  cases h : env.installation with
  | missing => exact ⟨rfl, by simp [checkCapabilities]⟩
  | plain => exact ⟨rfl, by simp [checkCapabilities]⟩
  | multilayer =>
    simp only [checkCapabilities, ensureWeight_ecount, Py.ok_bind]
    exact ⟨trivial, by simp⟩

/-- **C112 (deprecated names).** The test of the deprecated names passes for every module table in which the five single-layer names are not
defined in the old module and their replacements are in the new one. -/
theorem c112_names {own leiden : List (List Char)} (hown : ∀ n ∈ shimmedNames, n.1 ∉ own) :
    testShimmedNames own leiden = .ok () ↔ ∀ n ∈ shimmedNames, n.2 ∈ leiden := by
  have step : ∀ n ∈ shimmedNames, louvainGetattr own leiden n.1 = if n.2 ∈ leiden then .ok (.leiden n.2) else .error .attributeError := by
    intro n hn
    have hr : strContains "louvain".toList n.1 = true ∧ strReplace "louvain".toList "leiden".toList n.1 = n.2 := by
      revert n
      decide +kernel
    unfold louvainGetattr
    rw [if_neg (hown n hn), if_pos hr.1, hr.2]
  have go : ∀ l : List (List Char × List Char), (∀ n ∈ l, n ∈ shimmedNames) →
      ((pyFor l fun n => do
        let attr ← louvainGetattr own leiden n.1
        if n.2 ∈ leiden then (if attr = .leiden n.2 then .ok () else .error .assertionError) else .error .attributeError) = .ok () ↔
        ∀ n ∈ l, n.2 ∈ leiden) := by
    intro l
    induction l with
    | nil => intro _; simp [pyFor]
    | cons n l ih =>
      intro hl
      rw [pyFor, step n (hl n (by simp))]
      by_cases h : n.2 ∈ leiden
      · simp only [if_pos h, Py.ok_bind, if_true]
        rw [ih (fun m hm => hl m (by simp [hm]))]
        simp [h]
      · simp only [if_neg h, Py.error_bind]
        simp [h]
  exact go _ (fun _ h => h)

/-- **C112 (the modules as they are).** In every installation the test passes, and every multilayer name is still the legacy function. -/
theorem c112_modules (inst : LouvainInstallation) :
    testShimmedNames (louvainOwnNames inst) leidenNames = .ok () ∧
    ∀ n ∈ ["multilayer_louvain", "multilayer_louvain_part", "multilayer_louvain_part_with_membership",
      "repeated_louvain_from_gammas_omegas", "repeated_parallel_louvain_from_gammas_omegas"],
      louvainGetattr (louvainOwnNames inst) leidenNames n.toList = .ok (.own n.toList) := by
  constructor
  · rw [c112_names (by cases inst <;> decide +kernel)]
    decide +kernel
  · cases inst <;> decide +kernel

-- two layers of three vertices without weights, a membership of the right length, and one that is too short
example : (multilayerLouvainPartWithMembership .multilayer (fun _ => false) (fun _ _ => .ok ()) gIntraR gInterR [0, 0, 0, 1, 1, 1]
      [0, 0, 1, 0, 0, 1]).1 = .ok (⟨defaulted (fun _ => false) gIntraR, some [0, 0, 0, 1, 1, 1], 1, [0, 0, 1, 0, 0, 1]⟩,
      ⟨defaulted (fun _ => false) gInterR, none, 0, [0, 0, 1, 0, 0, 1]⟩) :=
  (c112_with_membership rfl).1 ⟨rfl, rfl⟩
example : ∃ msg, (multilayerLouvainPartWithMembership .multilayer (fun _ => false) (fun _ _ => .ok ()) gIntraR gInterR
      [0, 0, 0, 1, 1, 1] [0, 0, 1]).1 = .error (.valueError msg) :=
  (c112_with_membership rfl).2 (by show ¬ (3 = 6 ∧ 3 = 6); decide)

end Verif.Props
