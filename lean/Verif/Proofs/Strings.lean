import Verif.Model.Louvain
import Verif.Spec.Strings

/-!
# Lemmas about `in` and `replace` of strings
-/

namespace Verif
open Spec

theorem strContains_iff (old : List Char) (s : List Char) : strContains old s = true ↔ old <:+: s := by
  induction s with
  | nil => simp [strContains]
  | cons c cs ih =>
    rw [strContains, Bool.or_eq_true, List.isPrefixOf_iff_prefix, ih, List.infix_cons_iff]

theorem joined_cons_ne {sep p : List Char} {rest : List (List Char)} (h : rest ≠ []) :
    joined sep (p :: rest) = p ++ sep ++ joined sep rest := by
  cases rest with
  | nil => exact absurd rfl h
  | cons q r => rfl

theorem strReplace_replacedAll {old : List Char} (hold : old ≠ []) (new : List Char) (s : List Char) :
    ReplacedAll old new s (strReplace old new s) := by
  induction hn : s.length using Nat.strong_induction_on generalizing s with
  | _ n ih =>
    unfold strReplace
    rw [if_neg hold]
    cases s with
    | nil =>
      refine ⟨[[]], by simp, ?_, rfl, rfl⟩
      intro p hp
      simp only [List.mem_singleton] at hp
      subst hp
      simpa using hold
    | cons c cs =>
      simp only
      have hlen : 0 < old.length := List.length_pos_of_ne_nil hold
      split
      · rename_i hpre
        rw [List.isPrefixOf_iff_prefix] at hpre
        obtain ⟨t, ht⟩ := hpre
        have hdrop : cs.drop (old.length - 1) = t := by
          have : (c :: cs).drop old.length = t := by rw [← ht]; simp
          cases hl : old.length with
          | zero => omega
          | succ k => rw [hl, List.drop_succ_cons] at this; exact this
        rw [hdrop]
        obtain ⟨pieces, h1, h2, h3, h4⟩ := ih t.length (by
          have := congrArg List.length ht
          rw [List.length_append, hn] at this
          omega) t rfl
        refine ⟨[] :: pieces, by simp, ?_, ?_, ?_⟩
        · intro p hp
          rcases List.mem_cons.mp hp with rfl | hp
          · simpa using hold
          · exact h2 p hp
        · rw [joined_cons_ne h1, ← h3, ← ht]; rfl
        · rw [joined_cons_ne h1, ← h4]; rfl
      · rename_i hpre
        rw [List.isPrefixOf_iff_prefix] at hpre
        obtain ⟨pieces, h1, h2, h3, h4⟩ := ih cs.length (by rw [← hn]; simp) cs rfl
        cases pieces with
        | nil => exact absurd rfl h1
        | cons p rest =>
          have hj : ∀ sep, joined sep ((c :: p) :: rest) = c :: joined sep (p :: rest) := by
            intro sep
            cases rest <;> rfl
          refine ⟨(c :: p) :: rest, by simp, ?_, by rw [hj, ← h3], by rw [hj, ← h4]⟩
          intro q hq
          rcases List.mem_cons.mp hq with rfl | hq
          · intro hin
            rcases List.infix_cons_iff.mp hin with h | h
            · apply hpre
              refine h.trans ?_
              rw [h3, ← hj]
              cases rest with
              | nil => exact List.prefix_refl _
              | cons r rs => rw [joined_cons_ne (by simp), List.append_assoc]; exact List.prefix_append _ _
            · exact h2 p (by simp) h
          · exact h2 q (by simp [hq])

/-- No proper non-empty suffix of `old` is a prefix of it. -/
def Borderless (old : List Char) : Prop := ∀ k, 0 < k → k < old.length → ¬ old.drop k <+: old

theorem not_prefix_of_piece {old p rest : List Char} (hb : Borderless old) (hp : ¬ old <:+: p)
    (hne : p ≠ []) : ¬ old <+: p ++ old ++ rest := by
  rintro ⟨t, ht⟩
  rcases Nat.lt_or_ge p.length old.length with hlt | hge
  · -- `old = p ++ u` with `u` a prefix of `old ++ rest`
    have hpo : p <+: old := by
      have h1 : p <+: old ++ t := by rw [ht, List.append_assoc]; exact List.prefix_append _ _
      exact List.prefix_of_prefix_length_le h1 (List.prefix_append _ _) (by omega)
    obtain ⟨u, hu⟩ := hpo
    have hu' : u ++ t = old ++ rest := by
      rw [← hu, List.append_assoc, List.append_assoc] at ht
      have := List.append_cancel_left ht
      rw [this, hu]
    apply hb p.length (List.length_pos_of_ne_nil hne) hlt
    have : old.drop p.length = u := by conv_lhs => rw [← hu]
                                       simp
    rw [this]
    refine List.prefix_of_prefix_length_le (l₃ := old ++ rest) ?_ (List.prefix_append _ _) ?_
    · rw [← hu']; exact List.prefix_append _ _
    · rw [← hu]; simp
  · apply hp
    have : old <+: p := List.prefix_of_prefix_length_le (l₃ := old ++ t) (List.prefix_append _ _)
      (by rw [ht, List.append_assoc]; exact List.prefix_append _ _) hge
    exact this.isInfix

theorem strReplace_joined {old : List Char} (hold : old ≠ []) (hb : Borderless old) (new : List Char)
    (pieces : List (List Char)) (h : ∀ p ∈ pieces, ¬ old <:+: p) :
    strReplace old new (joined old pieces) = joined new pieces := by
  have step : ∀ (p : List Char) (rest : List Char), ¬ old <:+: p →
      strReplace old new (p ++ old ++ rest) = p ++ new ++ strReplace old new rest := by
    intro p rest hp
    induction p with
    | nil =>
      rw [List.nil_append, List.nil_append]
      conv_lhs => unfold strReplace
      rw [if_neg hold]
      cases ho : old with
      | nil => exact absurd ho hold
      | cons c cs =>
        simp only [List.cons_append]
        rw [if_pos (by rw [List.isPrefixOf_iff_prefix]; exact ⟨rest, rfl⟩)]
        simp
    | cons c p ih =>
      have := not_prefix_of_piece (rest := rest) hb hp (by simp)
      conv_lhs => unfold strReplace
      rw [if_neg hold]
      simp only [List.cons_append]
      rw [if_neg (by rw [List.isPrefixOf_iff_prefix]; simpa using this)]
      rw [ih (fun hin => hp (List.infix_cons_iff.mpr (Or.inr hin)))]
  have last : ∀ p : List Char, ¬ old <:+: p → strReplace old new p = p := by
    intro p hp
    induction p with
    | nil => unfold strReplace; rw [if_neg hold]
    | cons c p ih =>
      unfold strReplace
      rw [if_neg hold]
      simp only
      rw [if_neg (by rw [List.isPrefixOf_iff_prefix]; exact fun h => hp h.isInfix),
        ih (fun hin => hp (List.infix_cons_iff.mpr (Or.inr hin)))]
  induction pieces with
  | nil => exact last [] (by simpa using hold)
  | cons p rest ih =>
    cases rest with
    | nil => exact last p (h p (by simp))
    | cons q r =>
      rw [joined_cons_ne (rest := q :: r) (by simp), joined_cons_ne (rest := q :: r) (by simp), step p _ (h p (by simp)), ih (fun x hx => h x (by simp [hx]))]

theorem borderless_louvain : Borderless "louvain".toList := by
  intro k h1 h2
  have : k < 7 := h2
  have h : ∀ k < 7, 0 < k → ¬ "louvain".toList.drop k <+: "louvain".toList := by decide
  exact h k this h1

theorem replacedAll_unique {old new a b : List Char} (hold : old ≠ []) (hb : Borderless old)
    (h : ReplacedAll old new a b) : b = strReplace old new a := by
  obtain ⟨pieces, -, h2, rfl, rfl⟩ := h
  exact (strReplace_joined hold hb new pieces h2).symm

end Verif
