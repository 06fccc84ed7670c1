import Mathlib.Analysis.SpecialFunctions.Pow.Real
import Mathlib.Topology.Order.IntermediateValue
import Mathlib.Topology.Algebra.Monoid
import Mathlib.Algebra.Order.BigOperators.Group.Finset
import Mathlib.Tactic.Positivity
import Verif.Proofs.Estimation
import Verif.Proofs.LogMean

namespace Verif
open Real Finset

/-! ### the multiplex polynomial -/

theorem multiplexPoly_eq {F : Type} [Field F] [LinearOrder F] (K T : Nat) (pers x : F) :
    multiplexPoly K T pers x = 2 * (1 - 1 / (K : F)) / ((T : F) * ((T : F) - 1)) *
      (∑ n ∈ range (T - 1), ((T : F) - ((n + 1 : Nat) : F)) * x ^ (n + 1)) + 1 / (K : F) - pers := by
  unfold multiplexPoly
  rw [List.range'_eq_map_range, List.map_map, list_range_sum]
  simp only [Function.comp, add_comm 1]

theorem multiplexPoly_zero (K T : Nat) (pers : ℝ) : multiplexPoly K T pers 0 = 1 / (K : ℝ) - pers := by
  rw [multiplexPoly_eq]; simp

theorem sum_lin (T : Nat) (hT : 1 ≤ T) :
    ∑ n ∈ range (T - 1), ((T : ℝ) - ((n + 1 : Nat) : ℝ)) = (T : ℝ) * ((T : ℝ) - 1) / 2 := by
  obtain ⟨k, rfl⟩ := Nat.exists_eq_add_of_le' hT
  rw [Nat.add_sub_cancel]
  have : ∀ k : Nat, ∑ n ∈ range k, (n : ℝ) = (k : ℝ) * ((k : ℝ) - 1) / 2 := by
    intro k
    induction k with
    | zero => simp
    | succ k ih => rw [Finset.sum_range_succ, ih]; push_cast; ring
  have h1 : ∑ n ∈ range k, (((k + 1 : Nat) : ℝ) - ((n + 1 : Nat) : ℝ)) = ∑ n ∈ range k, ((k : ℝ) - (n : ℝ)) := by
    apply Finset.sum_congr rfl; intro n _; push_cast; ring
  rw [h1, Finset.sum_sub_distrib, this]
  simp; ring

theorem multiplexPoly_one {K T : Nat} (hT : 1 < T) (pers : ℝ) : multiplexPoly K T pers 1 = 1 - pers := by
  rw [multiplexPoly_eq]
  simp only [one_pow, mul_one]
  rw [sum_lin T hT.le]
  have h1 : (T : ℝ) ≠ 0 := by positivity
  have h2 : (T : ℝ) - 1 ≠ 0 := by
    have : (1 : ℝ) < T := by exact_mod_cast hT
    linarith
  field_simp
  ring

theorem multiplexPoly_strictMono {K T : Nat} (hK : 1 < K) (hT : 1 < T) (pers : ℝ) :
    StrictMonoOn (multiplexPoly K T pers) (Set.Ici 0) := by
  intro x hx y hy hxy
  rw [Set.mem_Ici] at hx hy
  rw [multiplexPoly_eq, multiplexPoly_eq]
  have hK' : (1 : ℝ) < K := by exact_mod_cast hK
  have hT' : (1 : ℝ) < T := by exact_mod_cast hT
  have hc : 0 < 2 * (1 - 1 / (K : ℝ)) / ((T : ℝ) * ((T : ℝ) - 1)) := by
    have h1 : 1 / (K : ℝ) < 1 := by rw [div_lt_one (by linarith)]; exact hK'
    apply div_pos
    · linarith
    · apply mul_pos <;> linarith
  have hs : (∑ n ∈ range (T - 1), ((T : ℝ) - ((n + 1 : Nat) : ℝ)) * x ^ (n + 1)) <
      ∑ n ∈ range (T - 1), ((T : ℝ) - ((n + 1 : Nat) : ℝ)) * y ^ (n + 1) := by
    apply Finset.sum_lt_sum_of_nonempty
    · rw [Finset.nonempty_range_iff]; omega
    · intro n hn
      rw [Finset.mem_range] at hn
      have hlt : ((n + 1 : Nat) : ℝ) < T := by exact_mod_cast (by omega : n + 1 < T)
      have := pow_lt_pow_left₀ hxy hx (Nat.succ_ne_zero n)
      exact mul_lt_mul_of_pos_left this (by linarith)
  have := mul_lt_mul_of_pos_left hs hc
  linarith

theorem multiplexPoly_continuous (K T : Nat) (pers : ℝ) : Continuous (multiplexPoly K T pers) := by
  have : multiplexPoly K T pers = fun x => 2 * (1 - 1 / (K : ℝ)) / ((T : ℝ) * ((T : ℝ) - 1)) *
      (∑ n ∈ range (T - 1), ((T : ℝ) - ((n + 1 : Nat) : ℝ)) * x ^ (n + 1)) + 1 / (K : ℝ) - pers := by
    funext x; exact multiplexPoly_eq K T pers x
  rw [this]
  fun_prop

theorem multiplexPoly_root {K T : Nat} (hK : 1 < K) (hT : 1 < T) {pers : ℝ} (h0 : 1 / (K : ℝ) ≤ pers) (h1 : pers < 1) :
    ∃! x : ℝ, 0 ≤ x ∧ multiplexPoly K T pers x = 0 := by
  have hivt := intermediate_value_Icc (zero_le_one (α := ℝ)) (multiplexPoly_continuous K T pers).continuousOn
  have hmem : (0 : ℝ) ∈ Set.Icc (multiplexPoly K T pers 0) (multiplexPoly K T pers 1) := by
    rw [multiplexPoly_zero, multiplexPoly_one hT]
    exact ⟨by linarith, by linarith⟩
  obtain ⟨x, hx, hfx⟩ := hivt hmem
  refine ⟨x, ⟨hx.1, hfx⟩, ?_⟩
  rintro y ⟨hy, hfy⟩
  exact (multiplexPoly_strictMono hK hT pers).injOn (Set.mem_Ici.mpr hy) (Set.mem_Ici.mpr hx.1) (hfy.trans hfx.symm)

/-! ### omega formulas -/

theorem pyLog_pos {x : ℝ} (h : 0 < x) : pyLog x = .ok (log x) := by unfold pyLog; rw [if_pos h]
theorem pyLog_neg {x : ℝ} (h : x ≤ 0) : pyLog x = .error (.valueError "math domain error") := by
  unfold pyLog; rw [if_neg (not_lt.mpr h)]

theorem log_sub_eq_zero {a b : ℝ} (ha : 0 < a) (hb : 0 < b) : log a - log b = 0 ↔ a = b := by
  rw [sub_eq_zero]
  exact ⟨fun h => log_injOn_pos (Set.mem_Ioi.mpr ha) (Set.mem_Ioi.mpr hb) h, fun h => by rw [h]⟩

theorem log_eq_zero_pos {a : ℝ} (ha : 0 < a) : log a = 0 ↔ a = 1 := by
  constructor
  · intro h
    have := log_sub_eq_zero ha one_pos
    rw [log_one, sub_zero] at this
    exact this.mp h
  · rintro rfl; simp

/-- exact outcome of the coupling formula shared by both models, with multiplicity `s` (`2` or `T`) -/
theorem omega_core {thetaIn thetaOut p s : ℝ} {K : Nat} (hs : s ≠ 0) :
    (if thetaOut = 0 then (do
        let a ← pyLog (1 + p * K / (1 - p))
        let b ← pyLog thetaIn
        pyDiv a (s * b) : Py ℝ)
      else (do
        let a ← pyLog (1 + p * K / (1 - p))
        let b ← pyLog thetaIn
        let c ← pyLog thetaOut
        pyDiv a (s * (b - c)))) =
    if 1 + p * K / (1 - p) ≤ 0 ∨ thetaIn ≤ 0 ∨ thetaOut < 0 then .error (.valueError "math domain error")
    else if (thetaOut = 0 ∧ thetaIn = 1) ∨ thetaIn = thetaOut then .error .zeroDivisionError
    else if thetaOut = 0 then .ok (log (1 + p * K / (1 - p)) / (s * log thetaIn))
    else .ok (log (1 + p * K / (1 - p)) / (s * (log thetaIn - log thetaOut))) := by
  rcases le_or_gt (1 + p * K / (1 - p)) 0 with h1 | h1
  · rw [if_pos (Or.inl h1)]
    split <;> rw [pyLog_neg h1] <;> rfl
  · rcases le_or_gt thetaIn 0 with h2 | h2
    · rw [if_pos (Or.inr (Or.inl h2))]
      split <;> rw [pyLog_pos h1, pyLog_neg h2] <;> rfl
    · rcases lt_trichotomy thetaOut 0 with h3 | h3 | h3
      · rw [if_pos (Or.inr (Or.inr h3)), if_neg h3.ne, pyLog_pos h1, pyLog_pos h2, pyLog_neg h3.le]; rfl
      · have hn : ¬ (1 + p * K / (1 - p) ≤ 0 ∨ thetaIn ≤ 0 ∨ thetaOut < 0) := by
          rintro (h | h | h) <;> linarith
        rw [if_neg hn, if_pos h3, pyLog_pos h1, pyLog_pos h2]
        simp only [Py.ok_bind, h3, true_and, if_true, h2.ne', or_false]
        unfold pyDiv
        simp only [mul_eq_zero, hs, false_or, log_eq_zero_pos h2]
      · have hn : ¬ (1 + p * K / (1 - p) ≤ 0 ∨ thetaIn ≤ 0 ∨ thetaOut < 0) := by
          rintro (h | h | h) <;> linarith
        rw [if_neg hn, if_neg h3.ne', if_neg h3.ne', pyLog_pos h1, pyLog_pos h2, pyLog_pos h3]
        simp only [Py.ok_bind, h3.ne', false_and, false_or]
        unfold pyDiv
        simp only [mul_eq_zero, hs, false_or, log_sub_eq_zero h2 h3]

end Verif
