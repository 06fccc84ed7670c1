import Verif.Spec.GammaScan
import Verif.Proofs.GammaScan
import Verif.Proofs.Champ2DRun
import Verif.Proofs.Partition
import Verif.Props.Workflow
import Verif.Props.Performance
import Verif.Props.MaxGamma

/-!
# Property C115: the largest expected gamma estimates by sampling, and their figures
-/

namespace Verif.Props
open Verif Verif.Spec Real

/-! ## One round -/

theorem sampleRatios_mem {n : Nat} (hn : 2 ≤ n) : ∀ x ∈ sampleRatios n, 0 < x ∧ x < 1 := by
  intro x hx
  have h1 := linspace_le (a := 1 / 10 ^ 9) (b := 1 - 1 / 10 ^ 9) (by norm_num) x hx
  have h2 := (linspace_sorted (a := 1 / 10 ^ 9) (b := 1 - 1 / 10 ^ 9) (by norm_num) _).2 x hx
  have : (0 : ℝ) < 1 / 10 ^ 9 := by norm_num
  exact ⟨by linarith, by linarith⟩

theorem sampleRatios_evals {n : Nat} (hn : 2 ≤ n) (K : Nat) :
    (sampleRatios n).mapM (expectedGamma K) = .ok ((sampleRatios n).map fun x => yGamma K (1 / x)) :=
  mapM_ok fun x hx => expectedGamma_eq (sampleRatios_mem hn x hx).1 (sampleRatios_mem hn x hx).2

theorem sampledGammas_mem {n K : Nat} (hn : 2 ≤ n) {g : ℝ} :
    g ∈ sampledGammas n K ↔ g ∈ (sampleRatios n).map fun x => yGamma K (1 / x) := by
  have e : ∀ i : Nat, (1 / 10 ^ 9 : ℝ) + i * ((1 - 2 / 10 ^ 9) / ((n : ℝ) - 1)) =
      1 / 10 ^ 9 + i * ((1 - 1 / 10 ^ 9 - 1 / 10 ^ 9) / ((n : ℝ) - 1)) := by intro i; ring
  have hm : ∀ i < n, (1 / 10 ^ 9 : ℝ) + i * ((1 - 2 / 10 ^ 9) / ((n : ℝ) - 1)) ∈ sampleRatios n := fun i hi =>
    List.mem_map.mpr ⟨i, List.mem_range.mpr hi, (e i).symm⟩
  constructor
  · rintro ⟨i, hi, h⟩
    obtain ⟨h0, h1⟩ := sampleRatios_mem hn _ (hm i hi)
    rw [expectedGamma_eq h0 h1] at h
    exact List.mem_map.mpr ⟨_, hm i hi, Except.ok.inj h⟩
  · intro h
    obtain ⟨x, hx, rfl⟩ := List.mem_map.mp h
    obtain ⟨h0, h1⟩ := sampleRatios_mem hn _ hx
    obtain ⟨i, hi, rfl⟩ := List.mem_map.mp hx
    refine ⟨i, List.mem_range.mp hi, ?_⟩
    rw [e i]
    exact expectedGamma_eq h0 h1

theorem sampledMax_ok {n K : Nat} (hn : 2 ≤ n) : ∃ v, sampledMax n K = .ok v ∧ IsGreatest (sampledGammas n K) v := by
  have hne : (sampleRatios n).map (fun x => yGamma K (1 / x)) ≠ [] := by
    intro h
    have := congrArg List.length h
    rw [List.length_map, sampleRatios, linspace_length] at this
    simp at this
    omega
  unfold sampledMax
  rw [sampleRatios_evals hn, Py.ok_bind]
  obtain ⟨v, hv⟩ : ∃ v, pyMax ((sampleRatios n).map fun x => yGamma K (1 / x)) = .ok v := by
    unfold pyMax
    cases h : ((sampleRatios n).map fun x => yGamma K (1 / x)).max? with
    | none => rw [List.max?_eq_none_iff] at h; exact absurd h hne
    | some v => exact ⟨v, rfl⟩
  refine ⟨v, hv, ?_⟩
  obtain ⟨h1, h2⟩ := pyMax_ok.mp hv
  exact ⟨(sampledGammas_mem hn).mpr h1, fun g hg => h2 g ((sampledGammas_mem hn).mp hg)⟩

/-- **C115 (a round).** With `n ≥ 2` sample points every round completes and computes for every `K = 2, …, 19` the largest of the
estimates at the sample points. -/
theorem c115_round {n : Nat} (hn : 2 ≤ n) : ∃ table, scanRound n = .ok table ∧ SampleTable n table := by
  have hs : ∀ K, ∃ v, sampledMax n K = .ok v ∧ IsGreatest (sampledGammas n K) v := fun K => sampledMax_ok hn
  choose v hv hg using hs
  refine ⟨0 :: 0 :: (List.range' 2 18).map v, ?_, rfl, rfl, rfl, ?_⟩
  · unfold scanRound
    rw [mapM_ok fun K _ => hv K]
    rfl
  · intro K h2 h20
    refine ⟨v K, ?_, hg K⟩
    obtain ⟨k, rfl⟩ : ∃ k, K = k + 2 := ⟨K - 2, by omega⟩
    rw [List.getElem?_cons_succ, List.getElem?_cons_succ, List.getElem?_map, List.getElem?_range' (by omega)]
    simp
    congr 1
    omega

/-! ## The loop -/

theorem settled_iff {s t : List ℝ} : settled s t = true ↔ WithinTolerance s t := by
  unfold settled WithinTolerance
  rw [List.all_eq_true]
  constructor
  · intro h i a b ha hb
    have : (a, b) ∈ s.zip t := List.mem_of_getElem? (i := i) (by rw [List.getElem?_zip_eq_some]; exact ⟨ha, hb⟩)
    simpa using h _ this
  · intro h p hp
    obtain ⟨i, hi⟩ := List.getElem?_of_mem hp
    rw [List.getElem?_zip_eq_some] at hi
    simpa using h i p.1 p.2 hi.1 hi.2

theorem scanLoop_spec : ∀ (fuel num : Nat) (last : List ℝ), 2 ≤ num → ∀ {r}, scanLoop fuel num last = .ok r → ∀ rounds, r = some rounds →
    rounds ≠ [] ∧ rounds.length ≤ fuel ∧
    (∀ (k : Nat) p, rounds[k]? = some p → p.1 = num * 2 ^ k ∧ SampleTable p.1 p.2) ∧
    (∀ (k : Nat) p q, (last :: rounds.map Prod.snd)[k]? = some p → (last :: rounds.map Prod.snd)[k + 1]? = some q →
      (WithinTolerance p q ↔ k + 1 = rounds.length)) := by
  intro fuel
  induction fuel with
  | zero => intro num last hn r h rounds hr; cases h; cases hr
  | succ fuel ih =>
    intro num last hn r h rounds hr
    obtain ⟨table, ht, hT⟩ := c115_round hn
    unfold scanLoop at h
    rw [ht, Py.ok_bind] at h
    by_cases hs : settled last table = true
    · rw [if_pos hs] at h
      cases h
      cases hr
      refine ⟨by simp, by simp, ?_, ?_⟩
      · rintro (_ | k) p hp
        · cases hp; exact ⟨by simp, hT⟩
        · simp at hp
      · rintro (_ | k) p q hp hq
        · cases hp; cases hq
          exact ⟨fun _ => rfl, fun _ => settled_iff.mp hs⟩
        · simp at hq
    · rw [if_neg hs] at h
      obtain ⟨r', hr', h⟩ := Py.bind_ok.1 h
      cases h
      cases r' with
      | none => cases hr
      | some rest =>
        cases hr
        obtain ⟨h0, hl, h1, h2⟩ := ih (num * 2) table (by omega) hr' rest rfl
        refine ⟨by simp, by simp; omega, ?_, ?_⟩
        · rintro (_ | k) p hp
          · cases hp; exact ⟨by simp, hT⟩
          · obtain ⟨e, hp⟩ := h1 k p (by simpa using hp)
            exact ⟨by rw [e, pow_succ]; ring, hp⟩
        · rintro (_ | k) p q hp hq
          · cases hp; cases hq
            constructor
            · intro h; exact absurd (settled_iff.mpr h) hs
            · intro h
              simp at h
              exact absurd h h0
          · have := h2 k p q (by simpa using hp) (by simpa using hq)
            rw [this, List.length_cons]
            omega

theorem scanLoop_total : ∀ (fuel num : Nat) (last : List ℝ), 2 ≤ num → ∃ r, scanLoop fuel num last = .ok r := by
  intro fuel
  induction fuel with
  | zero => intro num last _; exact ⟨_, rfl⟩
  | succ fuel ih =>
    intro num last hn
    obtain ⟨table, ht, _⟩ := c115_round hn
    unfold scanLoop
    rw [ht, Py.ok_bind]
    split
    · exact ⟨_, rfl⟩
    · obtain ⟨r, hr⟩ := ih (num * 2) table (by omega)
      rw [hr]
      exact ⟨_, rfl⟩

/-! ## Accuracy -/

theorem sampled_le_lub {n K : Nat} (hn : 2 ≤ n) {v γ : ℝ} (hv : v ∈ sampledGammas n K) (hγ : IsLUB (expectedGammas K) γ) : v ≤ γ := by
  obtain ⟨x, hx, rfl⟩ := List.mem_map.mp ((sampledGammas_mem hn).mp hv)
  obtain ⟨h0, h1⟩ := sampleRatios_mem hn x hx
  exact hγ.1 ⟨x, h0, h1, expectedGamma_eq h0 h1⟩

/-- **C115 (accuracy).** The sampled maximum `v` never exceeds the true least upper bound `γ` of the expected estimates and
misses it by at most the fraction `2 K² / (n - 1)` for three and more communities. -/
theorem c115_accuracy {n K : Nat} (hn : 2 ≤ n) (hK : 3 ≤ K) (hb : K ≤ 10000) {v γ : ℝ} (hv : IsGreatest (sampledGammas n K) v)
    (hγ : IsLUB (expectedGammas K) γ) : γ * (1 - 2 * K ^ 2 / ((n : ℝ) - 1)) ≤ v ∧ v ≤ γ := by
  refine ⟨?_, sampled_le_lub hn hv.1 hγ⟩
  have hK0 : 0 < K := by omega
  have hKr : (3 : ℝ) ≤ K := by exact_mod_cast hK
  have hKb : (K : ℝ) ≤ 10000 := by exact_mod_cast hb
  have hnr : (2 : ℝ) ≤ n := by exact_mod_cast hn
  obtain ⟨y, hy, hmax⟩ := yGamma_max hK
  have hγe : γ = yGamma K y := by
    refine hγ.unique ?_
    rw [expectedGammas_eq]
    refine ⟨?_, fun b hb => hb ⟨y, hy, rfl⟩⟩
    rintro g ⟨z, hz, rfl⟩
    exact hmax z hz
  obtain ⟨hlo, hhi⟩ := yGamma_argmax hK hy hmax
  have hyp : 0 < y := by linarith
  -- the maximiser as a ratio
  have hx1 : 1 / y ≤ 17 / 19 := by rw [div_le_div_iff₀ hyp (by norm_num)]; linarith
  have hx0 : 1 / (2 * K ^ 2 : ℝ) ≤ 1 / y := one_div_le_one_div_of_le hyp hhi
  have hx9 : (1 / 10 ^ 9 : ℝ) ≤ 1 / y := by
    refine le_trans ?_ hx0
    refine one_div_le_one_div_of_le (by positivity) ?_
    nlinarith
  obtain ⟨a, ha, b, hb, hax, hxb, hab⟩ := c94_linspace (lo := 1 / 10 ^ 9) (hi := 1 - 1 / 10 ^ 9) (by norm_num) hn (1 / y) hx9
    (hx1.trans (by norm_num))
  obtain ⟨ha0, ha1⟩ := sampleRatios_mem hn a ha
  have hya : y ≤ 1 / a := by rw [le_div_iff₀ ha0]; rw [le_div_iff₀ hyp] at hax; linarith
  have h1 := yGamma_ratio hK0 hy hya
  have h2 : yGamma K (1 / a) ≤ v := hv.2 ((sampledGammas_mem hn).mpr (List.mem_map.mpr ⟨a, ha, rfl⟩))
  have hγ0 : 0 < γ := hγe ▸ yGamma_pos hK0 hy
  rw [← hγe] at h1
  refine le_trans (le_trans (mul_le_mul_of_nonneg_left ?_ hγ0.le) h1) h2
  -- the ratio
  have hd : 1 / y - a ≤ 1 / ((n : ℝ) - 1) := by
    have : (1 - 1 / 10 ^ 9 - 1 / 10 ^ 9 : ℝ) / ((n : ℝ) - 1) ≤ 1 / ((n : ℝ) - 1) :=
      div_le_div_of_nonneg_right (by norm_num) (by linarith)
    linarith
  have e1 : y / (1 / a) = 1 - y * (1 / y - a) := by field_simp; ring
  rw [e1]
  have : y * (1 / y - a) ≤ 2 * K ^ 2 * (1 / ((n : ℝ) - 1)) :=
    mul_le_mul hhi hd (by linarith) (by positivity)
  have e2 : (2 : ℝ) * K ^ 2 / ((n : ℝ) - 1) = 2 * K ^ 2 * (1 / ((n : ℝ) - 1)) := by ring
  linarith

/-- **C115 (accuracy).** For two communities every round finds a value between `1 - 1e-9` and the least upper bound 1, which is
not attained. -/
theorem c115_accuracy_two {n : Nat} (hn : 2 ≤ n) {v : ℝ} (hv : IsGreatest (sampledGammas n 2) v) :
    1 - 1 / 10 ^ 9 ≤ v ∧ v < 1 := by
  constructor
  · have hm : (1 - 1 / 10 ^ 9 : ℝ) ∈ sampleRatios n := (linspace_ends _ _ hn).2
    have h := hv.2 ((sampledGammas_mem hn).mpr (List.mem_map.mpr ⟨_, hm, rfl⟩))
    refine le_trans ?_ h
    have hy : (1 : ℝ) < 1 / (1 - 1 / 10 ^ 9) := by norm_num
    have hq := one_lt_q hy
    rw [yGamma_q]
    set q := ((1 : ℝ) / (1 - 1 / 10 ^ 9) - 1) / log (1 / (1 - 1 / 10 ^ 9))
    have hc : (1 - 1 / 10 ^ 9 : ℝ) ≤ ((2 : ℕ) : ℝ) / (1 / (1 - 1 / 10 ^ 9) + ((2 : ℕ) : ℝ) - 1) := by norm_num
    have hc0 : (0 : ℝ) < 1 - 1 / 10 ^ 9 := by norm_num
    nlinarith
  · obtain ⟨x, hx, rfl⟩ := List.mem_map.mp ((sampledGammas_mem hn).mp hv.1)
    obtain ⟨h0, h1⟩ := sampleRatios_mem hn x hx
    exact yGamma_two_lt (by rw [one_lt_div h0]; exact h1)

theorem sampled_bounds {n K : Nat} (hn : 2 ≤ n) (h2 : 2 ≤ K) (h20 : K < 20) {v : ℝ} (hv : IsGreatest (sampledGammas n K) v) :
    ∃ γ, IsLUB (expectedGammas K) γ ∧ γ - 6859 / ((n : ℝ) - 1) - 1 / 10 ^ 9 ≤ v ∧ v ≤ γ := by
  have hnr : (2 : ℝ) ≤ n := by exact_mod_cast hn
  have hp : (0 : ℝ) < 6859 / ((n : ℝ) - 1) := div_pos (by norm_num) (by linarith)
  rcases h2.eq_or_lt with rfl | h3
  · obtain ⟨h1, h2⟩ := c115_accuracy_two hn hv
    exact ⟨1, yGamma_two_lub, by linarith, h2.le⟩
  · obtain ⟨y, hy, hl⟩ := yGamma_three_lub h3
    obtain ⟨h1, h2⟩ := c115_accuracy hn h3 (by omega) hv hl
    refine ⟨_, hl, ?_, h2⟩
    have hKr : (K : ℝ) ≤ 19 := by exact_mod_cast (show K ≤ 19 by omega)
    have hK0 : (3 : ℝ) ≤ K := by exact_mod_cast h3
    have hh := yGamma_half (K := K) (by omega) hy
    have h0 := yGamma_pos (K := K) (by omega) hy
    have : yGamma K y * (2 * K ^ 2 / ((n : ℝ) - 1)) ≤ 6859 / ((n : ℝ) - 1) := by
      rw [← mul_div_assoc]
      refine div_le_div_of_nonneg_right ?_ (by linarith)
      have e1 : yGamma K y ≤ 19 / 2 := by linarith
      have e2 : (2 : ℝ) * K ^ 2 ≤ 722 := by nlinarith
      calc yGamma K y * (2 * K ^ 2) ≤ 19 / 2 * 722 := mul_le_mul e1 e2 (by positivity) (by norm_num)
        _ = 6859 := by norm_num
    have e : yGamma K y * (1 - 2 * K ^ 2 / ((n : ℝ) - 1)) = yGamma K y - yGamma K y * (2 * K ^ 2 / ((n : ℝ) - 1)) := by ring
    have : (0 : ℝ) < 1 / 10 ^ 9 := by norm_num
    linarith

theorem tables_close {n : Nat} (hn : 2 ^ 33 ≤ n) {s t : List ℝ} (hs : SampleTable n s) (ht : SampleTable (n * 2) t) : WithinTolerance s t := by
  intro i a b ha hb
  have hi : i < 20 := by rw [← hs.1]; exact (List.getElem?_eq_some_iff.mp ha).1
  rcases Nat.lt_or_ge i 2 with h2 | h2
  · have : a = 0 ∧ b = 0 := by
      interval_cases i
      · rw [hs.2.1] at ha; rw [ht.2.1] at hb; cases ha; cases hb; exact ⟨rfl, rfl⟩
      · rw [hs.2.2.1] at ha; rw [ht.2.2.1] at hb; cases ha; cases hb; exact ⟨rfl, rfl⟩
    rw [this.1, this.2]
    norm_num
  · obtain ⟨v, hv, hg⟩ := hs.2.2.2 i h2 hi
    obtain ⟨w, hw, hg'⟩ := ht.2.2.2 i h2 hi
    rw [hv] at ha; rw [hw] at hb; cases ha; cases hb
    have hn2 : 2 ≤ n := le_trans (by norm_num) hn
    obtain ⟨γ, hγ, h1, h2'⟩ := sampled_bounds hn2 h2 hi hg
    obtain ⟨γ', hγ', h3, h4⟩ := sampled_bounds (n := n * 2) (by omega) h2 hi hg'
    obtain rfl := hγ.unique hγ'
    have hnr : (2 : ℝ) ^ 33 ≤ n := by exact_mod_cast hn
    have e1 : (6859 : ℝ) / ((n : ℝ) - 1) ≤ 9 / 10 ^ 7 := by
      rw [div_le_iff₀ (by linarith [show (1 : ℝ) < 2 ^ 33 by norm_num])]
      have : (2 : ℝ) ^ 33 = 8589934592 := by norm_num
      linarith
    have e2 : (6859 : ℝ) / (((n * 2 : Nat) : ℝ) - 1) ≤ 9 / 10 ^ 7 := by
      push_cast
      have : (2 : ℝ) ^ 33 = 8589934592 := by norm_num
      rw [div_le_iff₀ (by linarith)]
      linarith
    rw [abs_lt]
    constructor <;> linarith

theorem scanLoop_stops : ∀ (k num : Nat) (last : List ℝ), 2 ≤ num → 2 ^ 33 ≤ num * 2 ^ k →
    ∃ rounds, scanLoop (k + 2) num last = .ok (some rounds) := by
  intro k
  induction k with
  | zero =>
    intro num last h2 h
    rw [pow_zero, mul_one] at h
    obtain ⟨s, hs, hS⟩ := c115_round h2
    obtain ⟨t, ht, hT⟩ := c115_round (n := num * 2) (by omega)
    have hc := settled_iff.mpr (tables_close h hS hT)
    rw [scanLoop, hs, Py.ok_bind]
    split
    · exact ⟨_, rfl⟩
    · rw [scanLoop, ht, Py.ok_bind, if_pos hc]
      exact ⟨_, rfl⟩
  | succ k ih =>
    intro num last h2 h
    obtain ⟨s, hs, hS⟩ := c115_round h2
    obtain ⟨rounds, hr⟩ := ih (num * 2) s (by omega) (by rw [mul_assoc, ← pow_succ']; exact h)
    rw [scanLoop, hs, Py.ok_bind]
    split
    · exact ⟨_, rfl⟩
    · rw [hr]
      exact ⟨_, rfl⟩

/-- **C115 (the loop ends).** `compute_and_print_maximum_gamma_estimates()` prints between 2 and 25 rounds and stops; round `k`
(from 0) uses `1024 · 2^k` sample points and prints the largest of the samples; the last two rounds are the first two
consecutive ones that differ by less than `1e-6` in all their values; and the first round, compared with zeros, never stops it. -/
theorem c115_loop : ∃ rounds, gammaScan 25 = .ok (some rounds) ∧ 2 ≤ rounds.length ∧ rounds.length ≤ 25 ∧
    (∀ (k : Nat) p, rounds[k]? = some p → p.1 = 1024 * 2 ^ k ∧ SampleTable p.1 p.2) ∧
    ∀ (k : Nat) p q, rounds[k]? = some p → rounds[k + 1]? = some q → (WithinTolerance p.2 q.2 ↔ k + 2 = rounds.length) := by
  obtain ⟨rounds, hr⟩ := scanLoop_stops 23 (2 ^ 10) (List.replicate 20 0) (by norm_num) (by norm_num)
  obtain ⟨h0, hl, h1, h2⟩ := scanLoop_spec 25 (2 ^ 10) (List.replicate 20 0) (by norm_num) hr rounds rfl
  have hlen : 2 ≤ rounds.length := by
    by_contra hlt
    have h1l : rounds.length = 1 := by
      have := List.length_pos_of_ne_nil h0
      omega
    obtain ⟨p, hp⟩ := List.length_eq_one_iff.mp h1l
    have hc := (h2 0 (List.replicate 20 0) p.2 rfl (by rw [hp]; rfl)).mpr (by rw [h1l])
    obtain ⟨hn, hT⟩ := h1 0 p (by rw [hp]; rfl)
    have hn2 : 2 ≤ p.1 := by rw [hn]; norm_num
    obtain ⟨v, hv, hg⟩ := hT.2.2.2 2 le_rfl (by norm_num)
    have h3 := hc 2 0 v rfl hv
    obtain ⟨h4, h5⟩ := c115_accuracy_two hn2 hg
    rw [abs_lt] at h3
    have := h3.1
    norm_num at this h4
    linarith
  refine ⟨rounds, hr, hlen, hl, fun k p hp => ?_, fun k p q hp hq => ?_⟩
  · obtain ⟨e, h⟩ := h1 k p hp
    exact ⟨by rw [e]; norm_num, h⟩
  · have := h2 (k + 1) p.2 q.2 (by rw [List.getElem?_cons_succ, List.getElem?_map, hp]; rfl)
      (by rw [List.getElem?_cons_succ, List.getElem?_map, hq]; rfl)
    rw [this]

/-! ## The constant of the figures -/

/-- **C115 (the constant).** The least upper bound of the estimates expected for three communities is 1.0926 to four decimals, as
printed and as drawn in the figures – but above the contour drawn (`1.0926 < γ < 1.09265`). -/
theorem c115_constant : ∃ γ, IsLUB (expectedGammas 3) γ ∧ 10926 / 10000 < γ ∧ γ < 109265 / 100000 := by
  obtain ⟨y, hy, hl⟩ := yGamma_three_lub (K := 3) le_rfl
  refine ⟨_, hl, ?_, yGamma_three_upper hy⟩
  refine lt_of_lt_of_le yGamma_three_lower (hl.1 ?_)
  rw [expectedGammas_eq]
  exact ⟨14 / 5, by norm_num, rfl⟩

/-! ## Lines and contours -/

variable {lambertw : Int → ℝ → ℝ}

theorem below_contour (hW : SoundLambertW lambertw) {γ x y : ℝ} (hx : 0 < x) (hy : 0 < y) (hne : x ≠ y) (hγ : 0 < γ) :
    (logMean x y < γ → y < parametricOmega lambertw γ x) ∧ (γ < logMean x y → parametricOmega lambertw γ x < y) := by
  have hm : 0 < logMean x y := by
    unfold logMean
    rcases lt_or_gt_of_ne hne with h | h
    · exact div_pos_of_neg_of_neg (by linarith) (by linarith [log_lt_log hx h])
    · exact div_pos (by linarith) (by linarith [log_lt_log hy h])
  have hxm : x ≠ logMean x y := by
    intro he
    obtain ⟨g, hg, _, hmin, hmax, _⟩ := c26_logarithmic_mean hx hy hne
    have := ((c27_degenerate_estimates x y).2.2.1 g).mp hg
    rw [← this.2.2.2] at he
    subst he
    rcases lt_or_gt_of_ne hne with h' | h'
    · rw [min_eq_left h'.le] at hmin; exact lt_irrefl _ hmin
    · rw [max_eq_left h'.le] at hmax; exact lt_irrefl _ hmax
  have hy' : y = parametricOmega lambertw (logMean x y) x :=
    ((c70_duality hW hm hx hxm).2.2 y).mp (((c27_degenerate_estimates x y).2.2.1 _).mpr ⟨hx, hy, hne, rfl⟩)
  constructor
  · intro h
    have := (c70_bands hW hm.le h hx).2
    rw [← hy'] at this
    exact this
  · intro h
    have := (c70_bands hW hγ.le h hx).2
    rw [← hy'] at this
    exact this

theorem line_mean_lt {K : Nat} (hK : 2 ≤ K) {x : ℝ} (h0 : 0 < x) (h1 : x < 1) :
    1 < possibleOmega K x ∧ logMean x (possibleOmega K x) < 1 := by
  have hKr : (2 : ℝ) ≤ K := by exact_mod_cast hK
  have h2 : 1 < possibleOmega K x := by unfold possibleOmega; rw [lt_div_iff₀ (by linarith)]; linarith
  refine ⟨h2, ?_⟩
  have h3 := logMean_lt_arith h0 (h1.trans h2)
  have h4 : x + possibleOmega K x ≤ 2 := by
    have : possibleOmega K x ≤ 2 - x := by
      unfold possibleOmega
      rw [div_le_iff₀ (by linarith)]
      nlinarith
    linarith
  unfold logMean
  rw [logMean_symm]
  linarith

/-- **C115 (the line of two communities).** The line of possible parameters for two communities touches the contour of the
estimate 1 exactly at `(1, 1)` and lies strictly below it elsewhere. -/
theorem c115_line_two (hW : SoundLambertW lambertw) {x : ℝ} (h0 : 0 < x) (h2 : x < 2) :
    possibleOmega 2 x ≤ parametricOmega lambertw 1 x ∧ (possibleOmega 2 x = parametricOmega lambertw 1 x ↔ x = 1) := by
  have hone : possibleOmega 2 1 = 1 := by unfold possibleOmega; norm_num
  rcases lt_trichotomy x 1 with h | rfl | h
  · obtain ⟨a, b⟩ := line_mean_lt (K := 2) le_rfl h0 h
    have := (below_contour hW h0 (by linarith) (by linarith) one_pos).1 b
    exact ⟨this.le, fun e => absurd e this.ne, fun e => absurd e h.ne⟩
  · rw [hone, (c70_diagonal hW one_pos).1]
    simp
  · obtain ⟨a, b, c⟩ := expectedGamma_line (K := 2) le_rfl h (by exact_mod_cast h2)
    have hr0 : 0 < possibleOmega 2 x / x := div_pos b h0
    have hr1 : possibleOmega 2 x / x < 1 := by rw [div_lt_one h0]; linarith
    rw [expectedGamma_eq hr0 hr1] at a
    have hlt : logMean x (possibleOmega 2 x) < 1 := by
      rw [← Except.ok.inj a]
      exact yGamma_two_lt (by rw [one_lt_div hr0]; exact hr1)
    have := (below_contour hW h0 b (by linarith) one_pos).1 hlt
    exact ⟨this.le, fun e => absurd e this.ne, fun e => absurd e h.ne'⟩

/-- **C115 (the line of three communities).** It lies strictly below the contour of the estimate 1.09265 everywhere, but at
some point it lies strictly above the contour of 1.0926, which is the one drawn. -/
theorem c115_line_three (hW : SoundLambertW lambertw) :
    (∀ x, 0 < x → x < 3 → possibleOmega 3 x < parametricOmega lambertw (109265 / 100000) x) ∧
    ∃ x, 1 < x ∧ x < 3 ∧ parametricOmega lambertw (10926 / 10000) x < possibleOmega 3 x := by
  constructor
  · intro x h0 h3
    rcases lt_trichotomy x 1 with h | rfl | h
    · obtain ⟨a, b⟩ := line_mean_lt (K := 3) (by norm_num) h0 h
      exact (below_contour hW h0 (by linarith) (by linarith) (by norm_num)).1 (by linarith)
    · have hone : possibleOmega 3 1 = 1 := by unfold possibleOmega; norm_num
      rw [hone]
      have := (c70_duality hW (γ := 109265 / 100000) (x := 1) (by norm_num) one_pos (by norm_num)).2.1.mp (by norm_num)
      linarith
    · obtain ⟨a, b, c⟩ := expectedGamma_line (K := 3) (by norm_num) h (by exact_mod_cast h3)
      have hr0 : 0 < possibleOmega 3 x / x := div_pos b h0
      have hr1 : possibleOmega 3 x / x < 1 := by rw [div_lt_one h0]; linarith
      rw [expectedGamma_eq hr0 hr1] at a
      have hlt : logMean x (possibleOmega 3 x) < 109265 / 100000 := by
        rw [← Except.ok.inj a]
        exact yGamma_three_upper (by rw [one_lt_div hr0]; exact hr1)
      exact (below_contour hW h0 b (by linarith) (by norm_num)).1 hlt
  · -- `x / line(x) = 14/5`
    have hx : (1 : ℝ) < 7 / 4 := by norm_num
    have hp : possibleOmega 3 (7 / 4) = 5 / 8 := by unfold possibleOmega; norm_num
    obtain ⟨a, b, c⟩ := expectedGamma_line (K := 3) (by norm_num) hx (by norm_num)
    have hr0 : 0 < possibleOmega 3 (7 / 4) / (7 / 4) := div_pos b (by norm_num)
    have hr1 : possibleOmega 3 (7 / 4) / (7 / 4) < 1 := by rw [hp]; norm_num
    rw [expectedGamma_eq hr0 hr1] at a
    refine ⟨7 / 4, hx, by norm_num, (below_contour hW (by norm_num) b (by rw [hp]; norm_num) (by norm_num)).2 ?_⟩
    rw [← Except.ok.inj a, hp]
    have := yGamma_three_lower
    norm_num at this ⊢
    exact this

/-! ## The figures -/

/-- **C115 (figure 6.1).** The figure draws the curves `K = 2, …, 8` at 1000 ratios strictly between 0 and 1, each point an
expected estimate and hence at most the least upper bound. -/
theorem c115_figure_curves : ∃ curves, figure61 = .ok curves ∧ curves.map Prod.fst = [2, 3, 4, 5, 6, 7, 8] ∧
    ∀ K pts, (K, pts) ∈ curves → pts.length = 1000 ∧ ∀ x g, (x, g) ∈ pts →
      0 < x ∧ x < 1 ∧ expectedGamma K x = .ok g ∧ ∀ γ, IsLUB (expectedGammas K) γ → g ≤ γ := by
  have h : figure61 = .ok ((List.range' 2 7).map fun K =>
      (K, (sampleRatios 1000).zip ((sampleRatios 1000).map fun x => yGamma K (1 / x)))) := by
    unfold figure61
    refine mapM_ok fun K _ => ?_
    rw [sampleRatios_evals (by norm_num), Py.ok_bind]
    rfl
  refine ⟨_, h, by simp [List.map_map, Function.comp_def, List.range'], ?_⟩
  intro K pts hm
  obtain ⟨K', _, he⟩ := List.mem_map.mp hm
  cases he
  refine ⟨by simp [sampleRatios, linspace_length], ?_⟩
  intro x g hxg
  obtain ⟨i, hi⟩ := List.getElem?_of_mem hxg
  rw [List.getElem?_zip_eq_some, List.getElem?_map] at hi
  have hxm := List.mem_of_getElem? hi.1
  obtain ⟨h0, h1⟩ := sampleRatios_mem (by norm_num) x hxm
  have h2 := hi.2
  rw [hi.1] at h2
  have : g = yGamma K (1 / x) := by simpa using h2.symm
  subst this
  have he := expectedGamma_eq (K := K) h0 h1
  exact ⟨h0, h1, he, fun γ hγ => hγ.1 ⟨x, h0, h1, he⟩⟩

theorem linspace_cell {lo hi : ℝ} {n : Nat} (hlt : lo < hi) (hn : 2 ≤ n) {x : ℝ} (h0 : lo ≤ x) (h1 : x ≤ hi) :
    ∃ (i : Nat), ∃ a b, (linspace lo hi n)[i]? = some a ∧ (linspace lo hi n)[i + 1]? = some b ∧
      ∃ t, 0 ≤ t ∧ t ≤ 1 ∧ x = a + t * (b - a) := by
  have hn1 : (0 : ℝ) < (n : ℝ) - 1 := by
    have : (2 : ℝ) ≤ n := by exact_mod_cast hn
    linarith
  set h := (hi - lo) / ((n : ℝ) - 1) with hh
  have hpos : 0 < h := div_pos (by linarith) hn1
  have hget : ∀ i < n, (linspace lo hi n)[i]? = some (lo + (i : ℝ) * h) := fun i hi' => by
    unfold linspace
    rw [List.getElem?_map, List.getElem?_range hi']
    rfl
  have hend : lo + ((n : ℝ) - 1) * h = hi := by rw [hh]; field_simp; ring
  have hq : 0 ≤ (x - lo) / h := div_nonneg (by linarith) hpos.le
  have hqn : (x - lo) / h ≤ (n : ℝ) - 1 := by
    rw [div_le_iff₀ hpos]; linarith
  have e : (x - lo) / h * h = x - lo := div_mul_cancel₀ _ hpos.ne'
  rcases lt_or_ge ⌊(x - lo) / h⌋₊ (n - 1) with hk | hk
  · refine ⟨⌊(x - lo) / h⌋₊, _, _, hget _ (by omega), hget _ (by omega), (x - lo) / h - ⌊(x - lo) / h⌋₊, ?_, ?_, ?_⟩
    · linarith [Nat.floor_le hq]
    · linarith [Nat.lt_floor_add_one ((x - lo) / h)]
    · push_cast; linarith
  · refine ⟨n - 2, _, _, hget _ (by omega), hget _ (by omega), 1, by norm_num, le_rfl, ?_⟩
    have hge : ((n : ℝ) - 1) ≤ (x - lo) / h := by
      refine le_trans ?_ (Nat.floor_le hq)
      have : ((n - 1 : Nat) : ℝ) ≤ (⌊(x - lo) / h⌋₊ : ℝ) := by exact_mod_cast hk
      rw [Nat.cast_sub (by omega)] at this
      simpa using this
    have := mul_le_mul_of_nonneg_right hge hpos.le
    rw [e] at this
    have hc : ((n - 2 + 1 : Nat) : ℝ) = (n : ℝ) - 1 := by
      rw [show n - 2 + 1 = n - 1 by omega, Nat.cast_sub (by omega)]; simp
    rw [hc]
    linarith

variable {G : Graph ℝ} {c : List Nat} {K : Nat} {θin θout : ℝ} {ws : List ℝ}

/-- **C115 (figure 6.3).** The filled areas contain the parameters estimated for every partition of every positively weighted network
into two (three) communities, as far as they lie within the limits of the axes. -/
theorem c115_filled (hG : G.WF) (hw : G.weight = some ws) (hpos : ∀ w ∈ ws, 0 < w)
    (hc : c.length = G.vcount) (hK : Contiguous c K) (h2 : 2 ≤ K)
    (hr : estimateSinglelayerSBM G c none = .ok (θin, θout)) (hx : θin ≤ 3) (hy : θout ≤ 2) :
    InFilled (filledAreas K).1 θin θout ∨ InFilled (filledAreas K).2 θin θout := by
  obtain ⟨hin0, hinK, hout0, hline, hline', hbal⟩ := c71_possible_parameters hG hw hpos hc hK h2 hr
  have hKr : (2 : ℝ) ≤ K := by exact_mod_cast h2
  have hlin : ∀ a b t : ℝ, possibleOmega K a + t * (possibleOmega K b - possibleOmega K a) = possibleOmega K (a + t * (b - a)) := by
    intro a b t
    unfold possibleOmega
    have : (K : ℝ) - 1 ≠ 0 := by linarith
    field_simp
    ring
  rcases le_total θin 1 with h | h
  · left
    obtain ⟨i, a, b, ha, hb, t, ht0, ht1, he⟩ := linspace_cell (n := 500) (lo := 0) (hi := 1) one_pos (by norm_num) hin0 h
    refine ⟨i, (a, possibleOmega K a, 2), (b, possibleOmega K b, 2), ?_, ?_, t, ht0, ht1, he, ?_, ?_⟩
    · simp only [filledAreas, List.getElem?_map, ha, Option.map_some]
    · simp only [filledAreas, List.getElem?_map, hb, Option.map_some]
    · refine (min_le_left _ _).trans ?_
      dsimp only
      rw [hlin, ← he]
      exact hline' h
    · refine le_trans ?_ (le_max_right _ _)
      dsimp only
      linarith
  · right
    obtain ⟨i, a, b, ha, hb, t, ht0, ht1, he⟩ := linspace_cell (n := 500) (lo := 1) (hi := 3) (by norm_num) (by norm_num) h hx
    refine ⟨i, (a, possibleOmega K a, 0), (b, possibleOmega K b, 0), ?_, ?_, t, ht0, ht1, he, ?_, ?_⟩
    · simp only [filledAreas, List.getElem?_map, ha, Option.map_some]
    · simp only [filledAreas, List.getElem?_map, hb, Option.map_some]
    · refine (min_le_right _ _).trans ?_
      dsimp only
      linarith
    · refine le_trans ?_ (le_max_left _ _)
      dsimp only
      rw [hlin, ← he]
      exact hline h

/-- **C115 (figures 6.2 and 6.3).** Line and contour are drawn at the same 500 abscissas.  Every drawn point of the line of two
communities strictly between `x = 0` and `x = 2` lies on or below the drawn contour of 1; every drawn point of the line of three
communities strictly between `x = 0` and `x = 3` lies below the contour of 1.09265, but at some abscissa the line drawn lies above the
contour drawn (of 1.0926). -/
theorem c115_drawn (hW : SoundLambertW lambertw) :
    ∃ l₂ c₂ l₃ c₃, omegaFigure lambertw = [(l₂, c₂), (l₃, c₃)] ∧ l₂.length = 500 ∧ c₂.length = 500 ∧ l₃.length = 500 ∧ c₃.length = 500 ∧
      (∀ (i : Nat) p q, l₂[i]? = some p → c₂[i]? = some q → p = (q.1, 2 - q.1) ∧ q.2 = parametricOmega lambertw 1 q.1 ∧
        (0 < p.1 → p.1 < 2 → p.2 ≤ q.2)) ∧
      (∀ (i : Nat) p q, l₃[i]? = some p → c₃[i]? = some q → p = (q.1, (3 - q.1) / 2) ∧
        q.2 = parametricOmega lambertw (10926 / 10000) q.1 ∧ (0 < p.1 → p.1 < 3 →
        p.2 < parametricOmega lambertw (109265 / 100000) p.1)) ∧
      ∃ (i : Nat), ∃ p q, l₃[i]? = some p ∧ c₃[i]? = some q ∧ 1 < p.1 ∧ p.1 < 3 ∧ q.2 < p.2 := by
  refine ⟨_, _, _, _, rfl, ?_, ?_, ?_, ?_, ?_, ?_, ?_⟩
  · simp [omegaAbscissa, linspace_length]
  · simp [omegaAbscissa, linspace_length]
  · simp [omegaAbscissa, linspace_length]
  · simp [omegaAbscissa, linspace_length]
  · intro i p q hp hq
    rw [List.getElem?_map] at hp hq
    obtain ⟨x, hx, rfl⟩ := Option.map_eq_some_iff.mp hp
    rw [hx] at hq
    cases hq
    exact ⟨by simp only [possibleOmega]; norm_num, rfl, fun h0 h2 => (c115_line_two hW h0 h2).1⟩
  · intro i p q hp hq
    rw [List.getElem?_map] at hp hq
    obtain ⟨x, hx, rfl⟩ := Option.map_eq_some_iff.mp hp
    rw [hx] at hq
    cases hq
    exact ⟨by simp only [possibleOmega]; norm_num, rfl, fun h0 h3 => (c115_line_three hW).1 x h0 h3⟩
  · have hx : omegaAbscissa[291]? = some (873 / 499) := by
      unfold omegaAbscissa linspace
      rw [List.getElem?_map, List.getElem?_range (by norm_num)]
      norm_num
    have h1 : (1 : ℝ) < 873 / 499 := by norm_num
    have hp : possibleOmega 3 (873 / 499) = 312 / 499 := by unfold possibleOmega; norm_num
    refine ⟨291, _, _, by rw [List.getElem?_map, hx]; rfl, by rw [List.getElem?_map, hx]; rfl, h1, by norm_num, ?_⟩
    obtain ⟨a, b, c⟩ := expectedGamma_line (K := 3) (by norm_num) h1 (by norm_num)
    have hr0 : 0 < possibleOmega 3 (873 / 499) / (873 / 499) := div_pos b (by norm_num)
    have hr1 : possibleOmega 3 (873 / 499) / (873 / 499) < 1 := by rw [hp]; norm_num
    rw [expectedGamma_eq hr0 hr1] at a
    refine (below_contour hW (by norm_num) b (by rw [hp]; norm_num) (by norm_num)).2 ?_
    rw [← Except.ok.inj a, hp]
    have := yGamma_three_drawn
    norm_num at this ⊢
    exact this

/-! ## Non-vacuity -/

/-- Sample tables with the number of points of the first round exist, and so does a sound Lambert W. -/
example : (∃ table, SampleTable 1024 table) ∧ ∃ lw, SoundLambertW lw :=
  ⟨(c115_round (by norm_num)).imp fun _ h => h.2, exists_lambertW⟩

/-- The accuracy after two million points: the sampled maximum for three communities is 1.0926 to within `1e-4`. -/
example {v : ℝ} (hv : IsGreatest (sampledGammas (2 ^ 21) 3) v) : |v - 10926 / 10000| < 1 / 10 ^ 4 := by
  obtain ⟨γ, hγ, h1, h2⟩ := c115_constant
  obtain ⟨h3, h4⟩ := c115_accuracy (by norm_num) le_rfl (by norm_num) hv hγ
  rw [abs_lt]
  norm_num at h3 ⊢
  constructor <;> linarith

end Verif.Props
