import Mathlib.Topology.Order.Basic
import Mathlib.Order.ConditionallyCompleteLattice.Finset
import Verif.Proofs.Interior

/-!
An exact LP solver exists for every row list (Fourier–Motzkin elimination), so the contract `ExactLP` is satisfiable.
-/

namespace Verif
open Spec

theorem elim_one (L : List (ℝ × ℝ)) : (∃ t : ℝ, ∀ p ∈ L, p.1 * t ≤ p.2) ↔
    (∀ p ∈ L, p.1 = 0 → 0 ≤ p.2) ∧ (∀ p ∈ L, ∀ q ∈ L, 0 < p.1 → q.1 < 0 → 0 ≤ p.1 * q.2 - q.1 * p.2) := by
  constructor
  · rintro ⟨t, ht⟩
    refine ⟨fun p hp h0 => by have := ht p hp; rw [h0] at this; linarith, ?_⟩
    intro p hp q hq h1 h2
    have a := mul_le_mul_of_nonneg_left (ht q hq) h1.le
    have b := mul_le_mul_of_nonneg_left (ht p hp) (neg_pos.mpr h2).le
    nlinarith
  · rintro ⟨h0, h1⟩
    let U : Set ℝ := {u | ∃ p ∈ L, 0 < p.1 ∧ u = p.2 / p.1}
    let W : Set ℝ := {w | ∃ p ∈ L, p.1 < 0 ∧ w = p.2 / p.1}
    have hfin : ∀ (f : ℝ × ℝ → Prop), {u : ℝ | ∃ p ∈ L, f p ∧ u = p.2 / p.1}.Finite := by
      intro f
      apply Set.Finite.subset (s := (fun p : ℝ × ℝ => p.2 / p.1) '' {p | p ∈ L})
      · exact (List.finite_toSet L).image _
      · rintro u ⟨p, hp, _, rfl⟩; exact ⟨p, hp, rfl⟩
    have hU : U.Finite := hfin (fun p => 0 < p.1)
    have hW : W.Finite := hfin (fun p => p.1 < 0)
    have hWU : ∀ w ∈ W, ∀ u ∈ U, w ≤ u := by
      rintro w ⟨q, hq, hq', rfl⟩ u ⟨p, hp, hp', rfl⟩
      have := h1 p hp q hq hp' hq'
      rw [← neg_div_neg_eq q.2, div_le_div_iff₀ (by linarith) hp']
      nlinarith
    obtain ⟨t, htW, htU⟩ : ∃ t, (∀ w ∈ W, w ≤ t) ∧ ∀ u ∈ U, t ≤ u := by
      by_cases hne : W.Nonempty
      · exact ⟨sSup W, fun w hw => le_csSup hW.bddAbove hw, fun u hu => csSup_le hne fun w hw => hWU w hw u hu⟩
      · obtain ⟨t, ht⟩ := hU.bddBelow
        exact ⟨t, fun w hw => absurd ⟨w, hw⟩ hne, fun u hu => ht hu⟩
    refine ⟨t, fun p hp => ?_⟩
    rcases lt_trichotomy p.1 0 with h | h | h
    · have := htW _ ⟨p, hp, h, rfl⟩
      rw [← neg_div_neg_eq, div_le_iff₀ (by linarith)] at this
      linarith
    · rw [h]; have := h0 p hp h; linarith
    · have := htU _ ⟨p, hp, h, rfl⟩
      rw [le_div_iff₀ h] at this
      linarith

theorem fourier_motzkin : ∀ {d : Nat} (rows : List (LPRow d)), ∃ L : List (ℝ × ℝ), ∀ r,
    (∃ x, LPFeasible rows x r) ↔ ∀ p ∈ L, p.1 * r ≤ p.2
  | 0, rows => by
    refine ⟨rows.map fun row => (row.norm, row.b), fun r => ?_⟩
    constructor
    · rintro ⟨x, hx⟩ p hp
      obtain ⟨row, hrow, rfl⟩ := List.mem_map.mp hp
      have := hx row hrow
      unfold RowHolds at this
      simpa using this
    · intro h
      refine ⟨0, fun row hrow => ?_⟩
      have := h _ (List.mem_map.mpr ⟨row, hrow, rfl⟩)
      unfold RowHolds
      simpa using this
  | d + 1, rows => by
    classical
    let tail : LPRow (d + 1) → LPRow d := fun row => ⟨fun k => row.a k.succ, row.norm, row.b⟩
    let comb : LPRow (d + 1) × LPRow (d + 1) → LPRow d := fun pq =>
      ⟨fun k => pq.1.a 0 * pq.2.a k.succ - pq.2.a 0 * pq.1.a k.succ, pq.1.a 0 * pq.2.norm - pq.2.a 0 * pq.1.norm,
        pq.1.a 0 * pq.2.b - pq.2.a 0 * pq.1.b⟩
    let new : List (LPRow d) := (rows.filter fun row => decide (row.a 0 = 0)).map tail ++
      ((rows.product rows).filter fun pq => decide (0 < pq.1.a 0 ∧ pq.2.a 0 < 0)).map comb
    obtain ⟨L, hL⟩ := fourier_motzkin new
    refine ⟨L, fun r => ?_⟩
    rw [← hL r]
    let rest : LPRow (d + 1) → (Fin d → ℝ) → ℝ := fun row y => row.b - (∑ k : Fin d, row.a k.succ * y k) - row.norm * r
    have key : ∀ y : Fin d → ℝ, (∃ t, LPFeasible rows (Fin.cons t y : Fin (d + 1) → ℝ) r) ↔ LPFeasible new y r := by
      intro y
      have h1 : (∃ t, LPFeasible rows (Fin.cons t y : Fin (d + 1) → ℝ) r) ↔
          ∃ t, ∀ p ∈ rows.map (fun row => (row.a 0, rest row y)), p.1 * t ≤ p.2 := by
        apply exists_congr
        intro t
        unfold LPFeasible RowHolds
        simp only [List.forall_mem_map, Fin.sum_univ_succ, Fin.cons_zero, Fin.cons_succ, rest]
        apply forall₂_congr
        intro row _
        constructor <;> intro h <;> linarith
      rw [h1, elim_one]
      simp only [List.forall_mem_map]
      unfold LPFeasible
      simp only [new, List.mem_append, or_imp, forall_and, List.forall_mem_map, List.mem_filter, decide_eq_true_eq]
      apply and_congr
      · constructor
        · rintro h row ⟨hr, h0⟩
          have := h row hr h0
          unfold RowHolds
          simp only [tail, rest] at this ⊢
          linarith
        · intro h row hr h0
          have := h row ⟨hr, h0⟩
          unfold RowHolds at this
          simp only [tail, rest] at this ⊢
          linarith
      · have hcomb : ∀ p q : LPRow (d + 1), RowHolds (comb (p, q)) y r ↔
            0 ≤ p.a 0 * rest q y - q.a 0 * rest p y := by
          intro p q
          unfold RowHolds
          simp only [comb, rest, sub_mul, Finset.sum_sub_distrib, mul_assoc]
          rw [← Finset.mul_sum, ← Finset.mul_sum]
          constructor <;> intro h <;> nlinarith
        constructor
        · rintro h ⟨p, q⟩ ⟨hpq, h1, h2⟩
          obtain ⟨hp, hq⟩ := List.pair_mem_product.mp hpq
          exact (hcomb p q).mpr (h p hp q hq h1 h2)
        · intro h p hp q hq h1 h2
          exact (hcomb p q).mp (h (p, q) ⟨List.pair_mem_product.mpr ⟨hp, hq⟩, h1, h2⟩)
    constructor
    · rintro ⟨x, hx⟩
      refine ⟨fun k => x k.succ, (key _).mp ⟨x 0, ?_⟩⟩
      have : (Fin.cons (x 0) (fun k => x k.succ) : Fin (d + 1) → ℝ) = x := Fin.cons_self_tail x
      rw [this]; exact hx
    · rintro ⟨y, hy⟩
      obtain ⟨t, ht⟩ := (key y).mpr hy
      exact ⟨_, ht⟩

/-- Every LP is infeasible, unbounded, or has an optimum. -/
theorem lp_trichotomy {d : Nat} (rows : List (LPRow d)) :
    (∃ x r, LPFeasible rows x r ∧ ∀ x' r', LPFeasible rows x' r' → r' ≤ r) ∨ (∀ x r, ¬ LPFeasible rows x r) ∨
      ∀ R, ∃ x r, LPFeasible rows x r ∧ R < r := by
  obtain ⟨L, hL⟩ := fourier_motzkin rows
  by_cases hf : ∀ x r, ¬ LPFeasible rows x r
  · exact Or.inr (Or.inl hf)
  by_cases hu : ∀ R, ∃ x r, LPFeasible rows x r ∧ R < r
  · exact Or.inr (Or.inr hu)
  left
  push Not at hf hu
  obtain ⟨x, r, hxr⟩ := hf
  obtain ⟨R, hR⟩ := hu
  let S : Set ℝ := {r | ∃ x, LPFeasible rows x r}
  have hSne : S.Nonempty := ⟨r, x, hxr⟩
  have hSb : BddAbove S := ⟨R, by rintro s ⟨y, hy⟩; exact hR y s hy⟩
  have hmem : sSup S ∈ S := by
    have hcl : IsClosed S := by
      have : S = ⋂ p ∈ L, {r | p.1 * r ≤ p.2} := by
        ext s
        simp only [S, Set.mem_ofPred_eq, Set.mem_iInter]
        exact hL s
      rw [this]
      apply isClosed_iInter; intro p
      apply isClosed_iInter; intro _
      exact isClosed_le (continuous_const.mul continuous_id) continuous_const
    exact hcl.csSup_mem hSne hSb
  obtain ⟨y, hy⟩ := hmem
  exact ⟨y, sSup S, hy, fun x' r' h => le_csSup hSb ⟨x', h⟩⟩

open Classical in
/-- An exact solver. -/
noncomputable def exactSolver (d : Nat) : Nat → List (LPRow d) → LPResult d := fun _ rows =>
  if h : ∃ x r, LPFeasible rows x r ∧ ∀ x' r', LPFeasible rows x' r' → r' ≤ r then ⟨true, 0, some h.choose⟩
  else if ∀ x r, ¬ LPFeasible rows x r then ⟨false, 2, none⟩
  else ⟨false, 3, none⟩

theorem exactSolver_exact (d : Nat) : ExactLP (exactSolver d) := by
  classical
  intro k rows
  unfold exactSolver
  by_cases h : ∃ x r, LPFeasible rows x r ∧ ∀ x' r', LPFeasible rows x' r' → r' ≤ r
  · left
    rw [dif_pos h]
    obtain ⟨r, hr⟩ := h.choose_spec
    exact ⟨rfl, _, r, rfl, hr⟩
  · right
    rw [dif_neg h]
    by_cases h2 : ∀ x r, ¬ LPFeasible rows x r
    · rw [if_pos h2]; exact Or.inl ⟨rfl, rfl, h2⟩
    · rw [if_neg h2]
      right
      rcases lp_trichotomy rows with h3 | h3 | h3
      · exact absurd h3 h
      · exact absurd h3 h2
      · exact ⟨rfl, rfl, h3⟩

theorem range_samples : SamplesWithoutReplacement fun _ _ m => List.range m := by
  intro k n m hm
  exact ⟨List.length_range, List.nodup_range, fun i hi => lt_of_lt_of_le (List.mem_range.mp hi) hm⟩

end Verif
