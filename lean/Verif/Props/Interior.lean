import Mathlib.Tactic.FinCases
import Mathlib.Tactic.NormNum
import Verif.Proofs.FourierMotzkin

/-!
# Properties C13–C15: `get_interior_point`
-/

namespace Verif.Props
open Verif Verif.Spec

variable {d : Nat}

/-- A triangle `x > 0`, `y > 0`, `x + y < 2` inside the window box `-1 < x, y < 3` (four boundary rows last). -/
noncomputable def triangle : List (HS 2) :=
  [⟨![-1, 0], 0⟩, ⟨![0, -1], 0⟩, ⟨![1, 1], -2⟩,
   ⟨![0, 1], -3⟩, ⟨![0, -1], -1⟩, ⟨![1, 0], -3⟩, ⟨![-1, 0], -1⟩]

/-- Two contradictory rows `x < 0`, `x > 1` inside a box. -/
noncomputable def contradictory : List (HS 2) :=
  [⟨![1, 0], 0⟩, ⟨![-1, 0], 1⟩,
   ⟨![0, 1], -3⟩, ⟨![0, -1], -1⟩, ⟨![1, 0], -3⟩, ⟨![-1, 0], -1⟩]

theorem getInteriorPoint_eq (hd : d = 2 ∨ d = 3) (sample : Nat → Nat → Nat → List Nat)
    (linprog : Nat → List (LPRow d) → LPResult d) (hs : List (HS d)) (initial limit fuel : Nat) :
    ∃ nb, numBoundaries d = .ok nb ∧ nb = (if d = 2 then 4 else 6) ∧
      getInteriorPoint sample linprog hs initial limit fuel =
        interiorLoop sample linprog (hs.take (hs.length - nb)) (hs.drop (hs.length - nb)) limit fuel 0 initial 0 := by
  rcases hd with rfl | rfl
  · exact ⟨4, rfl, rfl, rfl⟩
  · exact ⟨6, rfl, rfl, rfl⟩

/-- **C13.** Whatever the sampler and the solver answer, a returned point is strictly inside every input halfspace. -/
theorem c13_returned_point_is_interior (sample : Nat → Nat → Nat → List Nat)
    (linprog : Nat → List (LPRow d) → LPResult d) (hs : List (HS d)) (initial limit fuel : Nat) {x : Fin d → ℝ}
    (h : getInteriorPoint sample linprog hs initial limit fuel = (some (.ok x) : Option _)) :
    ∀ hsp ∈ hs, (∑ k, hsp.normal k * x k) + hsp.offset < 0 := by
  by_cases hd : d = 2 ∨ d = 3
  · obtain ⟨nb, -, -, e⟩ := getInteriorPoint_eq hd sample linprog hs initial limit fuel
    rw [e] at h
    have := interiorLoop_sound _ _ _ _ _ h
    rwa [List.take_append_drop] at this
  · exfalso
    push Not at hd
    have : getInteriorPoint sample linprog hs initial limit fuel =
        (some (.error (.valueError "get_interior_point received unhandled dimension")) : Option _) := by
      unfold getInteriorPoint numBoundaries
      rw [if_neg hd.1, if_neg hd.2]; rfl
    rw [this] at h; cases h

/-- **C13.** Any dimension other than 2 and 3 is rejected with `ValueError`. -/
theorem c13_other_dimensions_rejected (hd : d ≠ 2 ∧ d ≠ 3) (sample : Nat → Nat → Nat → List Nat)
    (linprog : Nat → List (LPRow d) → LPResult d) (hs : List (HS d)) (initial limit fuel : Nat) :
    ∃ msg, getInteriorPoint sample linprog hs initial limit fuel = (some (.error (.valueError msg)) : Option _) := by
  refine ⟨"get_interior_point received unhandled dimension", ?_⟩
  unfold getInteriorPoint numBoundaries
  rw [if_neg hd.1, if_neg hd.2]; rfl

theorem interior_le_pow {hs : List (HS d)} {initial nb : Nat} (hi : 1 ≤ initial) :
    (hs.take (hs.length - nb)).length ≤ initial * 2 ^ Nat.clog 2 hs.length := by
  have h1 : (hs.take (hs.length - nb)).length ≤ hs.length := by rw [List.length_take]; omega
  have h2 : hs.length ≤ 2 ^ Nat.clog 2 hs.length := Nat.le_pow_clog (by omega) _
  calc _ ≤ 2 ^ Nat.clog 2 hs.length := h1.trans h2
    _ ≤ _ := Nat.le_mul_of_pos_left _ hi

/-- **C14.** With `initial_num_sampled ≥ 1`, at most `⌈log₂ n⌉ + full_retry_limit + 2` LP solves are made: that many
suffice to finish (with a point or an error), for every solver and sampler, and the result is the same for every larger
bound on the number of solves. -/
theorem c14_terminates (sample : Nat → Nat → Nat → List Nat) (linprog : Nat → List (LPRow d) → LPResult d)
    (hs : List (HS d)) {initial : Nat} (limit : Nat) (hi : 1 ≤ initial) :
    ∃ r : Py (Fin d → ℝ), ∀ fuel, Nat.clog 2 hs.length + limit + 2 ≤ fuel →
      getInteriorPoint sample linprog hs initial limit fuel = (some r : Option _) := by
  by_cases hd : d = 2 ∨ d = 3
  · obtain ⟨nb, -, hnb, e⟩ := getInteriorPoint_eq hd sample linprog hs initial limit (Nat.clog 2 hs.length + limit + 2)
    obtain ⟨r, hr⟩ := interiorLoop_terminates sample linprog (hs.take (hs.length - nb)) (hs.drop (hs.length - nb)) limit
      (k := 0) (fuel := Nat.clog 2 hs.length + limit + 2) (retries := 0) (interior_le_pow (nb := nb) hi)
      (by omega) (by omega)
    refine ⟨r, fun fuel hf => ?_⟩
    obtain ⟨nb', -, hnb', e'⟩ := getInteriorPoint_eq hd sample linprog hs initial limit fuel
    have : nb' = nb := by rw [hnb, hnb']
    subst this
    rw [e']
    exact interiorLoop_mono _ _ _ _ _ hr hf
  · push Not at hd
    obtain ⟨msg, -⟩ := c13_other_dimensions_rejected hd sample linprog hs initial limit 0
    refine ⟨.error (.valueError "get_interior_point received unhandled dimension"), fun fuel _ => ?_⟩
    unfold getInteriorPoint numBoundaries
    rw [if_neg hd.1, if_neg hd.2]; rfl

/-- **C14.** The default arguments finish within `defaultFuel` LP solves. -/
theorem c14_default_arguments (sample : Nat → Nat → Nat → List Nat) (linprog : Nat → List (LPRow d) → LPResult d)
    (hs : List (HS d)) : ∃ r : Py (Fin d → ℝ),
      getInteriorPoint sample linprog hs defaultInitial defaultRetryLimit (defaultFuel hs.length) =
        (some r : Option _) := by
  obtain ⟨r, hr⟩ := c14_terminates sample linprog hs defaultRetryLimit (initial := defaultInitial) (by decide)
  exact ⟨r, hr _ (le_refl _)⟩

/-- **C14.** With `initial_num_sampled = 0` the doubling never makes progress: a solver that keeps reporting numerical
difficulties with a non-interior point makes the loop run forever, whatever the retry limit. -/
theorem c14_zero_samples_diverges (sample : Nat → Nat → Nat → List Nat)
    (linprog : Nat → List (LPRow 2) → LPResult 2) {hs : List (HS 2)} (limit : Nat) (hlen : 4 < hs.length)
    (hlp : ∀ k rows, (linprog k rows).status = 4 ∧
      ∃ x, (linprog k rows).x = some x ∧ ¬ ∀ h ∈ hs, (∑ k, h.normal k * x k) + h.offset < 0) :
    ∀ fuel, getInteriorPoint sample linprog hs 0 limit fuel = (none : Option _) := by
  intro fuel
  obtain ⟨nb, -, hnb, e⟩ := getInteriorPoint_eq (Or.inl rfl) sample linprog hs 0 limit fuel
  rw [e]
  have hnb : nb = 4 := by simpa using hnb
  subst hnb
  apply interiorLoop_diverges
  · intro h
    have := congrArg List.length h
    rw [List.length_take] at this
    simp at this
    omega
  · intro k rows
    rw [List.take_append_drop]
    exact hlp k rows

example : ∀ fuel limit, getInteriorPoint (fun _ _ m => List.range m) (fun _ _ => ⟨false, 4, some ![-1, 0]⟩) triangle 0
    limit fuel = (none : Option _) := by
  intro fuel limit
  refine c14_zero_samples_diverges _ _ limit (by decide) (fun _ _ => ⟨rfl, _, rfl, ?_⟩) fuel
  intro h
  have := h ⟨![-1, 0], 0⟩ (by simp [triangle])
  simp [Fin.sum_univ_two] at this
  linarith

/-- The last `4` (2D) or `6` (3D) rows, the ones that are in every LP. -/
def lastRows (hs : List (HS d)) : List (HS d) := hs.drop (hs.length - if d = 2 then 4 else 6)

/-- **C15.** Exact LP solver, nonzero normals, and two window rows facing each other: a point is returned if and only if
the halfspaces have a common strictly interior point; otherwise `ValueError` is raised. -/
theorem c15_exact_solver {sample : Nat → Nat → Nat → List Nat} {linprog : Nat → List (LPRow d) → LPResult d}
    (hd : d = 2 ∨ d = 3) (hlp : ExactLP linprog) (hsm : SamplesWithoutReplacement sample)
    {hs : List (HS d)} (hnz : ∀ h ∈ hs, h.normal ≠ 0)
    (hbox : ∃ h ∈ lastRows hs, ∃ h' ∈ lastRows hs, ∃ c > 0, ∀ k, h'.normal k = -(c * h.normal k))
    {initial limit fuel : Nat} (hi : 1 ≤ initial) (hf : Nat.clog 2 hs.length + limit + 2 ≤ fuel) :
    ((∃ x : Fin d → ℝ, ∀ h ∈ hs, (∑ k, h.normal k * x k) + h.offset < 0) →
      ∃ x, getInteriorPoint sample linprog hs initial limit fuel = (some (.ok x) : Option _)) ∧
    ((¬ ∃ x : Fin d → ℝ, ∀ h ∈ hs, (∑ k, h.normal k * x k) + h.offset < 0) →
      ∃ msg, getInteriorPoint sample linprog hs initial limit fuel =
        (some (.error (.valueError msg)) : Option _)) := by
  obtain ⟨nb, -, hnb, e⟩ := getInteriorPoint_eq hd sample linprog hs initial limit fuel
  obtain ⟨h, hh, h', hh', c, hc, hop⟩ := hbox
  unfold lastRows at hh hh'
  rw [← hnb] at hh hh'
  have hb := radius_bounded hh hh' (hnz h (List.mem_of_mem_drop hh)) hc hop
  rw [e]
  constructor
  · rintro ⟨x₀, hx₀⟩
    refine interiorLoop_exact_succeeds hlp hsm ?_ hb (x₀ := x₀) ?_ (interior_le_pow (nb := nb) hi) (by omega)
    · rw [List.take_append_drop]; exact hnz
    · rw [List.take_append_drop]; exact hx₀
  · intro hno
    refine ⟨msgIllConditioned, interiorLoop_exact_fails hlp ?_ hb ?_ (interior_le_pow (nb := nb) hi) (by omega)
      (by omega)⟩
    · rw [List.take_append_drop]; exact hnz
    · rw [List.take_append_drop]
      exact fun x hx => hno ⟨x, hx⟩

/-- **C15.** The window rows are needed: if the halfspaces contain arbitrarily large balls the LP is unbounded and the
very first solve ends in the "impossible or degenerate" `ValueError`, although interior points abound. -/
theorem c15_unbounded_raises {sample : Nat → Nat → Nat → List Nat} {linprog : Nat → List (LPRow d) → LPResult d}
    (hd : d = 2 ∨ d = 3) (hlp : ExactLP linprog) {hs : List (HS d)}
    (hub : ∀ R : ℝ, ∃ x : Fin d → ℝ, ∀ h ∈ hs,
      (∑ k, h.normal k * x k) + Real.sqrt (∑ k, h.normal k ^ 2) * R + h.offset ≤ 0)
    {initial limit fuel : Nat} (hf : 1 ≤ fuel) :
    getInteriorPoint sample linprog hs initial limit fuel =
      (some (.error (.valueError "get_interior_point problem is impossible or degenerate!")) : Option _) := by
  obtain ⟨nb, -, -, e⟩ := getInteriorPoint_eq hd sample linprog hs initial limit fuel
  rw [e]
  obtain ⟨fuel, rfl⟩ : ∃ f, fuel = f + 1 := ⟨fuel - 1, by omega⟩
  have hmem : ∀ h ∈ takeIndices (hs.take (hs.length - nb)) (sample 0 (hs.take (hs.length - nb)).length
      (min initial (hs.take (hs.length - nb)).length)) ++ hs.drop (hs.length - nb), h ∈ hs := by
    intro h hh
    rcases List.mem_append.mp hh with hh | hh
    · unfold takeIndices at hh
      obtain ⟨i, -, hi⟩ := List.mem_filterMap.mp hh
      exact List.mem_of_mem_take (List.mem_of_getElem? hi)
    · exact List.mem_of_mem_drop hh
  have hfeas : ∀ R : ℝ, ∃ x, LPFeasible ((takeIndices (hs.take (hs.length - nb)) (sample 0
      (hs.take (hs.length - nb)).length (min initial (hs.take (hs.length - nb)).length)) ++
        hs.drop (hs.length - nb)).map chebyshevRow) x R := by
    intro R
    obtain ⟨x, hx⟩ := hub R
    refine ⟨x, fun row hrow => ?_⟩
    obtain ⟨h, hh, rfl⟩ := List.mem_map.mp hrow
    have := hx h (hmem h hh)
    unfold RowHolds chebyshevRow HS.normalNorm
    simp only
    linarith
  have hst : ∀ rows : List (LPRow d), (∀ R : ℝ, ∃ x, LPFeasible rows x R) →
      (linprog 0 rows).status = 3 ∧ (linprog 0 rows).success = false := by
    intro rows hr
    rcases hlp 0 rows with ⟨-, x, r, -, -, hopt⟩ | ⟨-, -, hno⟩ | ⟨h3, hs', -⟩
    · obtain ⟨x', hx'⟩ := hr (r + 1)
      have := hopt x' _ hx'
      linarith
    · obtain ⟨x', hx'⟩ := hr 0
      exact absurd hx' (hno _ _)
    · exact ⟨h3, hs'⟩
  obtain ⟨h3, hsf⟩ := hst _ hfeas
  unfold interiorLoop
  simp only [h3, hsf]
  rfl

/-- **C15.** Whatever the solver: a first solve reported as infeasible (2) or unbounded (3) ends the call at once with
the "impossible or degenerate" `ValueError`; there is no retry. -/
theorem c15_impossible_reported {sample : Nat → Nat → Nat → List Nat} {linprog : Nat → List (LPRow d) → LPResult d}
    (hd : d = 2 ∨ d = 3) (hs : List (HS d))
    (hst : ∀ rows, (linprog 0 rows).success = false ∧ ((linprog 0 rows).status = 2 ∨ (linprog 0 rows).status = 3))
    {initial limit fuel : Nat} (hf : 1 ≤ fuel) :
    getInteriorPoint sample linprog hs initial limit fuel =
      (some (.error (.valueError "get_interior_point problem is impossible or degenerate!")) : Option _) := by
  obtain ⟨nb, -, -, e⟩ := getInteriorPoint_eq hd sample linprog hs initial limit fuel
  rw [e]
  obtain ⟨fuel, rfl⟩ : ∃ f, fuel = f + 1 := ⟨fuel - 1, by omega⟩
  unfold interiorLoop
  simp only []
  generalize hrows : List.map chebyshevRow _ = rows
  obtain ⟨h1, h2⟩ := hst rows
  rw [if_neg (by rw [h1]; rcases h2 with h2 | h2 <;> rw [h2] <;> simp), if_pos h2]
  rfl

example : getInteriorPoint (fun _ _ m => List.range m) (fun _ _ => ⟨false, 2, none⟩) triangle 50 10 1 =
    (some (.error (.valueError "get_interior_point problem is impossible or degenerate!")) : Option _) :=
  c15_impossible_reported (Or.inl rfl) _ (fun _ => ⟨rfl, Or.inl rfl⟩) (le_refl _)

/-- A quadrant: `x > 0`, `y > 0`, four times over (so that there are enough rows), has arbitrarily large balls. -/
example : getInteriorPoint (fun _ _ m => List.range m) (exactSolver 2)
    [⟨![-1, 0], 0⟩, ⟨![-1, 0], 0⟩, ⟨![0, -1], 0⟩, ⟨![-1, 0], 0⟩, ⟨![0, -1], 0⟩] 50 10 1 =
    (some (.error (.valueError "get_interior_point problem is impossible or degenerate!")) : Option _) := by
  refine c15_unbounded_raises (Or.inl rfl) (exactSolver_exact 2) (fun R => ⟨![R, R], ?_⟩) (le_refl _)
  intro h hh
  simp only [List.mem_cons, List.not_mem_nil, or_false] at hh
  rcases hh with rfl | rfl | rfl | rfl | rfl <;> simp [Fin.sum_univ_two]

/-- **C15.** The contract is met by some solver in every dimension: each LP has an optimum, is infeasible, or is
unbounded. -/
theorem c15_exact_solver_exists (d : Nat) : ∃ linprog : Nat → List (LPRow d) → LPResult d, ExactLP linprog :=
  ⟨exactSolver d, exactSolver_exact d⟩

theorem triangle_normals : ∀ h ∈ triangle, h.normal ≠ 0 := by
  intro h hh
  simp only [triangle, List.mem_cons, List.not_mem_nil, or_false] at hh
  rcases hh with rfl | rfl | rfl | rfl | rfl | rfl | rfl <;> intro hc <;>
    (have h0 := congrFun hc 0; have h1 := congrFun hc 1; simp at h0 h1)

example : ∃ x, getInteriorPoint (fun _ _ m => List.range m) (exactSolver 2) triangle 50 10 (defaultFuel 7) =
    (some (.ok x) : Option _) := by
  refine (c15_exact_solver (Or.inl rfl) (exactSolver_exact 2) range_samples triangle_normals
    ⟨⟨![0, 1], -3⟩, by simp [lastRows, triangle], ⟨![0, -1], -1⟩, by simp [lastRows, triangle], 1, one_pos, ?_⟩
    (by omega) (le_refl _)).1 ⟨![1 / 2, 1 / 2], ?_⟩
  · intro k; fin_cases k <;> simp
  · intro h hh
    simp only [triangle, List.mem_cons, List.not_mem_nil, or_false] at hh
    rcases hh with rfl | rfl | rfl | rfl | rfl | rfl | rfl <;> simp [Fin.sum_univ_two] <;> norm_num

theorem contradictory_normals : ∀ h ∈ contradictory, h.normal ≠ 0 := by
  intro h hh
  simp only [contradictory, List.mem_cons, List.not_mem_nil, or_false] at hh
  rcases hh with rfl | rfl | rfl | rfl | rfl | rfl <;> intro hc <;>
    (have h0 := congrFun hc 0; have h1 := congrFun hc 1; simp at h0 h1)

example : ∃ msg, getInteriorPoint (fun _ _ m => List.range m) (exactSolver 2) contradictory 50 10 (defaultFuel 6) =
    (some (.error (.valueError msg)) : Option _) := by
  refine (c15_exact_solver (Or.inl rfl) (exactSolver_exact 2) range_samples contradictory_normals
    ⟨⟨![0, 1], -3⟩, by simp [lastRows, contradictory], ⟨![0, -1], -1⟩, by simp [lastRows, contradictory], 1, one_pos,
      ?_⟩ (by omega) (le_refl _)).2 ?_
  · intro k; fin_cases k <;> simp
  · rintro ⟨x, hx⟩
    have h1 := hx ⟨![1, 0], 0⟩ (by simp [contradictory])
    have h2 := hx ⟨![-1, 0], 1⟩ (by simp [contradictory])
    simp [Fin.sum_univ_two] at h1 h2
    linarith

end Verif.Props
