import Mathlib.Tactic.Linarith
import Mathlib.Tactic.Positivity
import Mathlib.Tactic.FieldSimp
import Mathlib.Tactic.Ring
import Verif.Spec.LP

namespace Verif
open Spec
variable {d : Nat}

section Loop
variable (sample : Nat → Nat → Nat → List Nat) (linprog : Nat → List (LPRow d) → LPResult d)
  (interior boundaries : List (HS d)) (limit : Nat)

/-- C13 for the loop -/
theorem interiorLoop_sound {fuel k initial retries : Nat} {x : Fin d → ℝ}
    (h : interiorLoop sample linprog interior boundaries limit fuel k initial retries = (some (.ok x) : Option _)) :
    ∀ h ∈ interior ++ boundaries, h.eval x < 0 := by
  classical
  induction fuel generalizing k initial retries with
  | zero => cases h
  | succ fuel ih =>
    unfold interiorLoop at h
    simp only at h
    have hcont : ∀ {v : Run (Fin d → ℝ)}, v = (if limit < retries then Run.ofPy (.error (.valueError msgIllConditioned))
      else if interior.length ≤ initial then
        interiorLoop sample linprog interior boundaries limit fuel (k + 1) initial (retries + 1)
      else interiorLoop sample linprog interior boundaries limit fuel (k + 1) (initial * 2) retries) →
      v = (some (.ok x) : Option _) → ∀ h ∈ interior ++ boundaries, h.eval x < 0 := by
      intro v hv he
      rw [hv] at he
      split at he
      · cases he
      · split at he
        · exact ih he
        · exact ih he
    split at h
    · split at h
      · cases h
      · split at h
        · rename_i hx
          cases h
          exact hx
        · exact hcont rfl h
    · split at h
      · cases h
      · exact hcont rfl h

/-- enough fuel: the loop ends -/
theorem interiorLoop_terminates {fuel k initial retries j : Nat} (hj : interior.length ≤ initial * 2 ^ j)
    (hr : retries ≤ limit + 1) (hf : j + (limit + 2 - retries) ≤ fuel) :
    ∃ r, interiorLoop sample linprog interior boundaries limit fuel k initial retries = (some r : Option _) := by
  classical
  induction fuel generalizing k initial retries j with
  | zero => omega
  | succ fuel ih =>
    unfold interiorLoop
    simp only
    have hcont : ∃ r, (if limit < retries then Run.ofPy (.error (.valueError msgIllConditioned))
      else if interior.length ≤ initial then
        interiorLoop sample linprog interior boundaries limit fuel (k + 1) initial (retries + 1)
      else interiorLoop sample linprog interior boundaries limit fuel (k + 1) (initial * 2) retries :
        Run (Fin d → ℝ)) = (some r : Option _) := by
      split
      · exact ⟨_, rfl⟩
      · split
        · exact ih (j := j) hj (by omega) (by omega)
        · rename_i h1 h2
          cases j with
          | zero => simp at hj; omega
          | succ j => exact ih (j := j) (by rw [pow_succ] at hj; rw [mul_assoc, mul_comm 2]; exact hj) hr (by omega)
    split
    · split
      · exact ⟨_, rfl⟩
      · split
        · exact ⟨_, rfl⟩
        · exact hcont
    · split
      · exact ⟨_, rfl⟩
      · exact hcont

/-- more fuel does not change a finished run -/
theorem interiorLoop_mono {fuel fuel' k initial retries : Nat} {r : Py (Fin d → ℝ)}
    (h : interiorLoop sample linprog interior boundaries limit fuel k initial retries = (some r : Option _))
    (hf : fuel ≤ fuel') :
    interiorLoop sample linprog interior boundaries limit fuel' k initial retries = (some r : Option _) := by
  classical
  induction fuel generalizing k initial retries fuel' with
  | zero => cases h
  | succ fuel ih =>
    obtain ⟨f', rfl⟩ : ∃ f', fuel' = f' + 1 := ⟨fuel' - 1, by omega⟩
    unfold interiorLoop at h ⊢
    simp only at h ⊢
    have hcont : (if limit < retries then Run.ofPy (.error (.valueError msgIllConditioned))
      else if interior.length ≤ initial then
        interiorLoop sample linprog interior boundaries limit fuel (k + 1) initial (retries + 1)
      else interiorLoop sample linprog interior boundaries limit fuel (k + 1) (initial * 2) retries :
        Run (Fin d → ℝ)) = (some r : Option _) →
      (if limit < retries then Run.ofPy (.error (.valueError msgIllConditioned))
      else if interior.length ≤ initial then
        interiorLoop sample linprog interior boundaries limit f' (k + 1) initial (retries + 1)
      else interiorLoop sample linprog interior boundaries limit f' (k + 1) (initial * 2) retries :
        Run (Fin d → ℝ)) = (some r : Option _) := by
      intro h
      split at h
      · rename_i h1; rw [if_pos h1]; exact h
      · rename_i h1
        rw [if_neg h1]
        split at h
        · rename_i h2; rw [if_pos h2]; exact ih h (by omega)
        · rename_i h2; rw [if_neg h2]; exact ih h (by omega)
    split at h
    · rename_i h1
      rw [if_pos h1]
      split at h
      · exact h
      · rename_i x h2
        split at h
        · rename_i h3; rw [if_pos h3]; exact h
        · rename_i h3; rw [if_neg h3]; exact hcont h
    · rename_i h1
      rw [if_neg h1]
      split at h
      · rename_i h2; rw [if_pos h2]; exact h
      · rename_i h2; rw [if_neg h2]; exact hcont h

/-- with `initial = 0` and a solver that never finds a point the loop never ends -/
theorem interiorLoop_diverges (hne : interior ≠ []) (hlp : ∀ k rows, (linprog k rows).status = 4 ∧
      ∃ x, (linprog k rows).x = some x ∧ ¬ ∀ h ∈ interior ++ boundaries, h.eval x < 0) (fuel k : Nat) :
    interiorLoop sample linprog interior boundaries limit fuel k 0 0 = (none : Option _) := by
  classical
  induction fuel generalizing k with
  | zero => rfl
  | succ fuel ih =>
    unfold interiorLoop
    simp only
    set rows := List.map chebyshevRow
      (takeIndices interior (sample k interior.length (min 0 interior.length)) ++ boundaries) with hrows
    obtain ⟨h1, x, h2, h3⟩ := hlp k rows
    rw [if_pos (Or.inr (Or.inr (Or.inr h1)))]
    simp only [h2]
    rw [if_neg h3, if_neg (by omega), if_neg (by
      intro h; exact hne (List.length_eq_zero_iff.mp (by omega)))]
    exact ih (k + 1)

end Loop

theorem rowHolds_chebyshev (h : HS d) (x : Fin d → ℝ) (r : ℝ) :
    RowHolds (chebyshevRow h) x r ↔ h.eval x + h.normalNorm * r ≤ 0 := by
  unfold RowHolds chebyshevRow HS.eval
  constructor <;> intro h' <;> linarith

theorem normalNorm_nonneg (h : HS d) : 0 ≤ h.normalNorm := Real.sqrt_nonneg _

theorem normalNorm_pos {h : HS d} (hn : h.normal ≠ 0) : 0 < h.normalNorm := by
  unfold HS.normalNorm
  apply Real.sqrt_pos.mpr
  obtain ⟨k, hk⟩ : ∃ k, h.normal k ≠ 0 := by
    by_contra hc
    push Not at hc
    exact hn (funext hc)
  have h1 : 0 < h.normal k ^ 2 := by positivity
  have h2 := Finset.single_le_sum (s := Finset.univ) (f := fun k => h.normal k ^ 2)
    (fun i _ => sq_nonneg _) (Finset.mem_univ k)
  linarith

theorem mem_takeIndices_full {β : Type} {l : List β} {idx : List Nat} (hl : idx.length = l.length) (hn : idx.Nodup)
    (hlt : ∀ i ∈ idx, i < l.length) {x : β} (hx : x ∈ l) : x ∈ takeIndices l idx := by
  obtain ⟨i, hi, rfl⟩ := List.getElem_of_mem hx
  unfold takeIndices
  rw [List.mem_filterMap]
  refine ⟨i, ?_, List.getElem?_eq_getElem hi⟩
  have hsub : idx ⊆ List.range l.length := fun j hj => List.mem_range.mpr (hlt j hj)
  have hperm : idx.Perm (List.range l.length) :=
    (hn.subperm hsub).perm_of_length_le (by simp [hl])
  exact hperm.mem_iff.mpr (List.mem_range.mpr hi)

theorem mem_takeIndices_sub {β : Type} {l : List β} {idx : List Nat} {x : β} (hx : x ∈ takeIndices l idx) : x ∈ l := by
  unfold takeIndices at hx
  rw [List.mem_filterMap] at hx
  obtain ⟨i, _, hi⟩ := hx
  exact List.mem_of_getElem? hi

section Exact
variable {sample : Nat → Nat → Nat → List Nat} {linprog : Nat → List (LPRow d) → LPResult d}
  {interior boundaries : List (HS d)} {limit : Nat}

/-- The Chebyshev LP always has a solution when normals are nonzero. -/
theorem exact_status {rows : List (HS d)} (hlp : ExactLP linprog) (hnz : ∀ h ∈ rows, h.normal ≠ 0)
    (hb : ∃ R, ∀ x r, LPFeasible (rows.map chebyshevRow) x r → r ≤ R) (k : Nat) :
    (linprog k (rows.map chebyshevRow)).status = 0 ∧ ∃ x r, (linprog k (rows.map chebyshevRow)).x = some x ∧
      LPFeasible (rows.map chebyshevRow) x r ∧ ∀ x' r', LPFeasible (rows.map chebyshevRow) x' r' → r' ≤ r := by
  have this : ∃ r : ℝ, ∀ h ∈ rows, h.eval 0 + h.normalNorm * r ≤ 0 := by
      clear hb
      induction rows with
      | nil => exact ⟨0, by simp⟩
      | cons a l ih =>
        obtain ⟨r, hr⟩ := ih (fun h hh => hnz h (List.mem_cons_of_mem _ hh))
        have ha := normalNorm_pos (hnz a (by simp))
        refine ⟨min r (-(a.eval 0) / a.normalNorm), ?_⟩
        intro h hh
        rcases List.mem_cons.mp hh with rfl | hh
        · have : h.normalNorm * min r (-(h.eval 0) / h.normalNorm) ≤ h.normalNorm * (-(h.eval 0) / h.normalNorm) :=
            mul_le_mul_of_nonneg_left (min_le_right _ _) ha.le
          have h2 : h.normalNorm * (-(h.eval 0) / h.normalNorm) = -(h.eval 0) := by field_simp
          linarith
        · have : h.normalNorm * min r (-(a.eval 0) / a.normalNorm) ≤ h.normalNorm * r :=
            mul_le_mul_of_nonneg_left (min_le_left _ _) (normalNorm_nonneg h)
          linarith [hr h hh]
  rcases hlp k (rows.map chebyshevRow) with h | ⟨_, _, h⟩ | ⟨_, _, h⟩
  · exact h
  · exfalso
    -- (0, r) is feasible for very negative r
    obtain ⟨r, hr⟩ := this
    apply h 0 r
    intro row hrow
    obtain ⟨hh, hmem, rfl⟩ := List.mem_map.mp hrow
    exact (rowHolds_chebyshev hh 0 r).mpr (hr hh hmem)
  · exfalso
    obtain ⟨R, hR⟩ := hb
    obtain ⟨x, r, h1, h2⟩ := h R
    linarith [hR x r h1]

theorem interiorLoop_exact_succeeds (hlp : ExactLP linprog) (hs : SamplesWithoutReplacement sample)
    (hnz : ∀ h ∈ interior ++ boundaries, h.normal ≠ 0)
    (hb : ∃ R, ∀ x r, LPFeasible (boundaries.map chebyshevRow) x r → r ≤ R)
    {x₀ : Fin d → ℝ} (hx₀ : ∀ h ∈ interior ++ boundaries, h.eval x₀ < 0)
    {fuel k initial : Nat} {j : Nat} (hj : interior.length ≤ initial * 2 ^ j) (hf : j + 1 ≤ fuel) :
    ∃ x, interiorLoop sample linprog interior boundaries limit fuel k initial 0 = (some (.ok x) : Option _) := by
  classical
  induction fuel generalizing k initial j with
  | zero => omega
  | succ fuel ih =>
    unfold interiorLoop
    simp only
    set sm := takeIndices interior (sample k interior.length (min initial interior.length)) ++ boundaries with hsm
    have hsub : ∀ h ∈ sm, h ∈ interior ++ boundaries := by
      intro h hh
      rw [hsm, List.mem_append] at hh
      rw [List.mem_append]
      exact hh.imp mem_takeIndices_sub id
    have hb' : ∃ R, ∀ x r, LPFeasible (sm.map chebyshevRow) x r → r ≤ R := by
      obtain ⟨R, hR⟩ := hb
      refine ⟨R, fun x r hxr => hR x r ?_⟩
      intro row hrow
      obtain ⟨h, hh, rfl⟩ := List.mem_map.mp hrow
      exact hxr _ (List.mem_map.mpr ⟨h, by rw [hsm]; exact List.mem_append_right _ hh, rfl⟩)
    obtain ⟨h0, x, r, hx, hfeas, hopt⟩ := exact_status hlp (fun h hh => hnz h (hsub h hh)) hb' k
    rw [if_pos (Or.inr (Or.inl h0))]
    simp only [hx]
    by_cases hint : ∀ h ∈ interior ++ boundaries, h.eval x < 0
    · rw [if_pos hint]; exact ⟨x, rfl⟩
    · rw [if_neg hint, if_neg (by omega)]
      by_cases hle : interior.length ≤ initial
      · exfalso
        apply hint
        -- full sample: Chebyshev radius is positive
        have hall : ∀ h ∈ interior ++ boundaries, h ∈ sm := by
          intro h hh
          rw [hsm, List.mem_append]
          rcases List.mem_append.mp hh with hh | hh
          · left
            rw [min_eq_right hle]
            obtain ⟨s1, s2, s3⟩ := hs k interior.length interior.length (le_refl _)
            exact mem_takeIndices_full s1 s2 s3 hh
          · right; exact hh
        have hpos : ∃ r₀ : ℝ, 0 < r₀ ∧ ∀ h ∈ sm, h.eval x₀ + h.normalNorm * r₀ ≤ 0 := by
          have hsm' : ∀ h ∈ sm, h.eval x₀ < 0 ∧ 0 < h.normalNorm := fun h hh =>
            ⟨hx₀ h (hsub h hh), normalNorm_pos (hnz h (hsub h hh))⟩
          clear_value sm
          clear hall hb' hfeas hopt hx h0 hsub hsm
          induction sm with
          | nil => exact ⟨1, one_pos, by simp⟩
          | cons a l ihl =>
            obtain ⟨r, hr, hrl⟩ := ihl (fun h hh => hsm' h (List.mem_cons_of_mem _ hh))
            obtain ⟨ha1, ha2⟩ := hsm' a (by simp)
            refine ⟨min r (-(a.eval x₀) / a.normalNorm), lt_min hr (div_pos (by linarith) ha2), ?_⟩
            intro h hh
            rcases List.mem_cons.mp hh with rfl | hh
            · have : h.normalNorm * min r (-(h.eval x₀) / h.normalNorm) ≤
                  h.normalNorm * (-(h.eval x₀) / h.normalNorm) :=
                mul_le_mul_of_nonneg_left (min_le_right _ _) ha2.le
              have h2 : h.normalNorm * (-(h.eval x₀) / h.normalNorm) = -(h.eval x₀) := by field_simp
              linarith
            · have : h.normalNorm * min r (-(a.eval x₀) / a.normalNorm) ≤ h.normalNorm * r :=
                mul_le_mul_of_nonneg_left (min_le_left _ _) (normalNorm_nonneg h)
              linarith [hrl h hh]
        obtain ⟨r₀, hr₀, hr₀'⟩ := hpos
        have hrr : r₀ ≤ r := by
          apply hopt x₀ r₀
          intro row hrow
          obtain ⟨h, hh, rfl⟩ := List.mem_map.mp hrow
          exact (rowHolds_chebyshev h x₀ r₀).mpr (hr₀' h hh)
        intro h hh
        have h1 := (rowHolds_chebyshev h x r).mp (hfeas _ (List.mem_map.mpr ⟨h, hall h hh, rfl⟩))
        have h2 := normalNorm_pos (hnz h hh)
        have h3 : 0 < h.normalNorm * r := mul_pos h2 (by linarith)
        linarith
      · rw [if_neg hle]
        cases j with
        | zero => simp at hj; omega
        | succ j =>
          exact ih (j := j) (by rw [pow_succ] at hj; rw [mul_assoc, mul_comm 2]; exact hj) (by omega)

/-- With an exact solver and no strictly interior point the loop ends with the retry-limit error. -/
theorem interiorLoop_exact_fails (hlp : ExactLP linprog)
    (hnz : ∀ h ∈ interior ++ boundaries, h.normal ≠ 0)
    (hb : ∃ R, ∀ x r, LPFeasible (boundaries.map chebyshevRow) x r → r ≤ R)
    (hno : ∀ x, ¬ ∀ h ∈ interior ++ boundaries, h.eval x < 0)
    {fuel k initial retries j : Nat} (hj : interior.length ≤ initial * 2 ^ j)
    (hr : retries ≤ limit + 1) (hf : j + (limit + 2 - retries) ≤ fuel) :
    interiorLoop sample linprog interior boundaries limit fuel k initial retries =
      (some (.error (.valueError msgIllConditioned)) : Option _) := by
  classical
  induction fuel generalizing k initial retries j with
  | zero => omega
  | succ fuel ih =>
    unfold interiorLoop
    simp only
    set sm := takeIndices interior (sample k interior.length (min initial interior.length)) ++ boundaries with hsm
    have hsub : ∀ h ∈ sm, h ∈ interior ++ boundaries := by
      intro h hh
      rw [hsm, List.mem_append] at hh
      rw [List.mem_append]
      exact hh.imp mem_takeIndices_sub id
    have hb' : ∃ R, ∀ x r, LPFeasible (sm.map chebyshevRow) x r → r ≤ R := by
      obtain ⟨R, hR⟩ := hb
      refine ⟨R, fun x r hxr => hR x r ?_⟩
      intro row hrow
      obtain ⟨h, hh, rfl⟩ := List.mem_map.mp hrow
      exact hxr _ (List.mem_map.mpr ⟨h, by rw [hsm]; exact List.mem_append_right _ hh, rfl⟩)
    obtain ⟨h0, x, r, hx, hfeas, hopt⟩ := exact_status hlp (fun h hh => hnz h (hsub h hh)) hb' k
    rw [if_pos (Or.inr (Or.inl h0))]
    simp only [hx]
    rw [if_neg (hno x)]
    split
    · rfl
    · split
      · exact ih (j := j) hj (by omega) (by omega)
      · rename_i h1 h2
        cases j with
        | zero => simp at hj; omega
        | succ j => exact ih (j := j) (by rw [pow_succ] at hj; rw [mul_assoc, mul_comm 2]; exact hj) hr (by omega)

end Exact

/-- two opposite boundary rows bound the radius -/
theorem radius_bounded {boundaries : List (HS d)} {h h' : HS d} (hh : h ∈ boundaries) (hh' : h' ∈ boundaries)
    (hn : h.normal ≠ 0) {c : ℝ} (hc : 0 < c) (hop : ∀ k, h'.normal k = -(c * h.normal k)) :
    ∃ R, ∀ x r, LPFeasible (boundaries.map chebyshevRow) x r → r ≤ R := by
  have hpos := normalNorm_pos hn
  refine ⟨|-(c * h.offset + h'.offset) / (c * h.normalNorm)|, ?_⟩
  intro x r hf
  have h1 := (rowHolds_chebyshev h x r).mp (hf _ (List.mem_map.mpr ⟨h, hh, rfl⟩))
  have h2 := (rowHolds_chebyshev h' x r).mp (hf _ (List.mem_map.mpr ⟨h', hh', rfl⟩))
  have hsum : c * (∑ k, h.normal k * x k) + ∑ k, h'.normal k * x k = 0 := by
    rw [Finset.mul_sum, ← Finset.sum_add_distrib]
    apply Finset.sum_eq_zero
    intro k _
    rw [hop k]; ring
  unfold HS.eval at h1 h2
  by_cases hr : r ≤ 0
  · exact hr.trans (abs_nonneg _)
  · push Not at hr
    refine le_trans ?_ (le_abs_self _)
    rw [le_div_iff₀ (mul_pos hc hpos)]
    have h3 : c * ((∑ k, h.normal k * x k) + h.offset + h.normalNorm * r) ≤ 0 :=
      mul_nonpos_of_nonneg_of_nonpos hc.le h1
    have h4 : 0 ≤ h'.normalNorm * r := mul_nonneg (normalNorm_nonneg h') hr.le
    nlinarith

end Verif
