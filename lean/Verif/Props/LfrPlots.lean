import Mathlib.Data.List.Sort
import Mathlib.Tactic.Linarith
import Mathlib.Tactic.NormNum
import Mathlib.Tactic.Ring
import Mathlib.Tactic.Positivity
import Mathlib.Data.List.Forall2
import Mathlib.Algebra.Order.Round
import Verif.Spec.LfrPlots
import Verif.Props.LfrScores

/-!
# C91: the plots of the LFR benchmark
-/

namespace Verif.Props
open Verif Spec

theorem getD_of_lt {l : List ℝ} {i : Nat} (h : i < l.length) : l.getD i 0 = l[i] := by simp [List.getD, h]

theorem npSort_perm (data : List ℝ) : (npSort data).Perm data := List.mergeSort_perm _ _

theorem npSort_length (data : List ℝ) : (npSort data).length = data.length := (npSort_perm data).length_eq

theorem npSort_pairwise (data : List ℝ) : (npSort data).Pairwise (· ≤ ·) := by
  have := List.pairwise_mergeSort (le := fun a b : ℝ => decide (a ≤ b))
    (fun a b c h1 h2 => by simp only [decide_eq_true_eq] at *; exact le_trans h1 h2)
    (fun a b => by simp only [Bool.or_eq_true, decide_eq_true_eq]; exact le_total a b) data
  exact this.imp fun h => by simpa using h

/-- The sorted data, the last number repeated for ever. -/
noncomputable def sorted (data : List ℝ) (k : Nat) : ℝ := (npSort data).getD (min k (data.length - 1)) 0

theorem sorted_mono (data : List ℝ) : Monotone (sorted data) := by
  intro i j hij
  unfold sorted
  by_cases h0 : data.length = 0
  · rw [h0]; simp
  have hi : min i (data.length - 1) < (npSort data).length := by rw [npSort_length]; omega
  have hj : min j (data.length - 1) < (npSort data).length := by rw [npSort_length]; omega
  rw [getD_of_lt hi, getD_of_lt hj]
  rcases Nat.lt_or_ge (min i (data.length - 1)) (min j (data.length - 1)) with h | h
  · exact List.pairwise_iff_getElem.mp (npSort_pairwise data) _ _ hi hj h
  · have : min i (data.length - 1) = min j (data.length - 1) := by omega
    simp only [this]; exact le_refl _

/-- Linear interpolation. -/
noncomputable def interp (a : Nat → ℝ) (x : ℝ) : ℝ := a ⌊x⌋₊ + (a (⌊x⌋₊ + 1) - a ⌊x⌋₊) * (x - ⌊x⌋₊)

theorem interp_ge {a : Nat → ℝ} (ha : Monotone a) {x : ℝ} (hx : 0 ≤ x) : a ⌊x⌋₊ ≤ interp a x := by
  unfold interp
  have h1 := ha (Nat.le_succ ⌊x⌋₊)
  have h2 := Nat.floor_le hx
  have := mul_nonneg (sub_nonneg.mpr h1) (sub_nonneg.mpr h2)
  simp only [Nat.succ_eq_add_one] at this
  linarith

theorem interp_le_succ {a : Nat → ℝ} (ha : Monotone a) {x : ℝ} : interp a x ≤ a (⌊x⌋₊ + 1) := by
  unfold interp
  have h1 := ha (Nat.le_succ ⌊x⌋₊)
  have h2 := Nat.lt_floor_add_one x
  simp only [Nat.succ_eq_add_one] at h1
  nlinarith

theorem interp_le_ceil {a : Nat → ℝ} (ha : Monotone a) {x : ℝ} (hx : 0 ≤ x) : interp a x ≤ a ⌈x⌉₊ := by
  by_cases h : (⌊x⌋₊ : ℝ) = x
  · have : ⌈x⌉₊ = ⌊x⌋₊ := by
      conv_lhs => rw [← h]
      exact Nat.ceil_natCast _
    rw [this]
    unfold interp
    rw [h]; simp
  · refine (interp_le_succ ha).trans (ha ?_)
    have h1 := Nat.floor_le hx
    have h2 : (⌊x⌋₊ : ℝ) < ⌈x⌉₊ := lt_of_lt_of_le (lt_of_le_of_ne h1 h) (Nat.le_ceil x)
    have : ⌊x⌋₊ < ⌈x⌉₊ := by exact_mod_cast h2
    omega

theorem interp_mono {a : Nat → ℝ} (ha : Monotone a) {x y : ℝ} (hx : 0 ≤ x) (hxy : x ≤ y) : interp a x ≤ interp a y := by
  rcases (Nat.floor_mono hxy).lt_or_eq with h | h
  · exact (interp_le_succ ha).trans ((ha h).trans (interp_ge ha (hx.trans hxy)))
  · unfold interp
    rw [h]
    have := ha (Nat.le_succ ⌊y⌋₊)
    simp only [Nat.succ_eq_add_one] at this
    nlinarith

theorem percentile_interp {data : List ℝ} {q : ℝ} (_h0 : 0 ≤ q) (h1 : q ≤ 100) :
    npPercentile data q = interp (sorted data) (((data.length - 1 : Nat) : ℝ) * (q / 100)) := by
  unfold npPercentile interp sorted
  simp only
  set pos := ((data.length - 1 : Nat) : ℝ) * (q / 100) with hpos
  have hle : pos ≤ ((data.length - 1 : Nat) : ℝ) := by
    rw [hpos]
    have : q / 100 ≤ 1 := by linarith
    have hn : (0 : ℝ) ≤ ((data.length - 1 : Nat) : ℝ) := Nat.cast_nonneg _
    nlinarith
  have hf : ⌊pos⌋₊ ≤ data.length - 1 := Nat.floor_le_of_le hle
  rw [min_eq_left hf]

theorem median_percentile {data : List ℝ} (h : data ≠ []) : npMedian data = npPercentile data 50 := by
  have hpos : 0 < data.length := List.length_pos_iff.mpr h
  have hmed : npMedian data = if data.length % 2 = 1 then sorted data (data.length / 2)
      else (sorted data (data.length / 2 - 1) + sorted data (data.length / 2)) / 2 := by
    unfold npMedian sorted
    simp only
    rw [min_eq_left (by omega), min_eq_left (by omega)]
  rw [hmed, percentile_interp (by norm_num) (by norm_num)]
  split
  · rename_i hodd
    obtain ⟨m, hm⟩ : ∃ m, data.length = 2 * m + 1 := ⟨data.length / 2, by omega⟩
    have hx : ((data.length - 1 : Nat) : ℝ) * (50 / 100) = (m : ℝ) := by
      rw [hm]
      push_cast [show 2 * m + 1 - 1 = 2 * m by omega]
      ring
    rw [hx]
    unfold interp
    rw [Nat.floor_natCast, show data.length / 2 = m by omega]
    simp
  · rename_i heven
    obtain ⟨m, hm⟩ : ∃ m, data.length = 2 * (m + 1) := ⟨data.length / 2 - 1, by omega⟩
    have hx : ((data.length - 1 : Nat) : ℝ) * (50 / 100) = (m : ℝ) + 1 / 2 := by
      rw [hm]
      push_cast [show 2 * (m + 1) - 1 = 2 * m + 1 by omega]
      ring
    have hfl : ⌊(m : ℝ) + 1 / 2⌋₊ = m := by
      rw [Nat.floor_eq_iff (by positivity)]
      constructor <;> linarith
    rw [hx]
    unfold interp
    rw [hfl, show data.length / 2 - 1 = m by omega, show data.length / 2 = m + 1 by omega]
    ring

theorem count_below {data : List ℝ} {k : Nat} (hk : k < data.length) {x : ℝ} (h : sorted data k ≤ x) : k + 1 ≤ atMost data x := by
  unfold atMost
  rw [← (npSort_perm data).countP_eq]
  have hlen := npSort_length data
  have hall : ∀ y ∈ (npSort data).take (k + 1), decide (y ≤ x) = true := by
    intro y hy
    obtain ⟨i, hi, rfl⟩ := List.getElem_of_mem hy
    rw [List.length_take] at hi
    have hi' : i < (npSort data).length := by omega
    rw [List.getElem_take, decide_eq_true_eq]
    have h1 := sorted_mono data (show i ≤ k by omega)
    unfold sorted at h1 h
    rw [min_eq_left (show i ≤ data.length - 1 by omega), getD_of_lt hi'] at h1
    exact h1.trans h
  have h1 := List.countP_eq_length.mpr hall
  rw [List.length_take, min_eq_left (by omega)] at h1
  rw [← h1]
  exact (List.take_sublist _ _).countP_le

theorem count_above {data : List ℝ} {k : Nat} (hk : k < data.length) {x : ℝ} (h : x ≤ sorted data k) :
    data.length - k ≤ atLeast data x := by
  unfold atLeast
  rw [← (npSort_perm data).countP_eq]
  have hlen := npSort_length data
  have hall : ∀ y ∈ (npSort data).drop k, decide (x ≤ y) = true := by
    intro y hy
    obtain ⟨i, hi, rfl⟩ := List.getElem_of_mem hy
    rw [List.length_drop] at hi
    have hi' : k + i < (npSort data).length := by omega
    rw [List.getElem_drop, decide_eq_true_eq]
    have h1 := sorted_mono data (show k ≤ k + i by omega)
    unfold sorted at h1 h
    rw [min_eq_left (show k + i ≤ data.length - 1 by omega), getD_of_lt hi'] at h1
    exact h.trans h1
  have h1 := List.countP_eq_length.mpr hall
  rw [List.length_drop, hlen] at h1
  rw [← h1]
  exact (List.drop_sublist _ _).countP_le

theorem sorted_mem {data : List ℝ} (h : data ≠ []) (k : Nat) : sorted data k ∈ data := by
  have hpos : 0 < data.length := List.length_pos_iff.mpr h
  unfold sorted
  have hi : min k (data.length - 1) < (npSort data).length := by rw [npSort_length]; omega
  rw [getD_of_lt hi]
  exact (npSort_perm data).mem_iff.mp (List.getElem_mem hi)

/-- Counts around a percentile. -/
theorem percentile_counts {data : List ℝ} (h : data ≠ []) {q : ℝ} (h0 : 0 ≤ q) (h1 : q ≤ 100) :
    ((data.length - 1 : Nat) : ℝ) * (q / 100) < atMost data (npPercentile data q) ∧
    ((data.length - 1 : Nat) : ℝ) * (1 - q / 100) < atLeast data (npPercentile data q) := by
  have hpos : 0 < data.length := List.length_pos_iff.mpr h
  rw [percentile_interp h0 h1]
  set pos := ((data.length - 1 : Nat) : ℝ) * (q / 100) with hp
  have hn : (0 : ℝ) ≤ ((data.length - 1 : Nat) : ℝ) := Nat.cast_nonneg _
  have hpos0 : 0 ≤ pos := mul_nonneg hn (by linarith)
  have hle : pos ≤ ((data.length - 1 : Nat) : ℝ) := by
    have : q / 100 ≤ 1 := by linarith
    nlinarith
  have hf : ⌊pos⌋₊ ≤ data.length - 1 := Nat.floor_le_of_le hle
  have hc : ⌈pos⌉₊ ≤ data.length - 1 := Nat.ceil_le.mpr hle
  have c1 := count_below (data := data) (by omega) (interp_ge (sorted_mono data) hpos0)
  have c2 := count_above (data := data) (by omega) (interp_le_ceil (sorted_mono data) hpos0)
  constructor
  · calc pos < ⌊pos⌋₊ + 1 := Nat.lt_floor_add_one pos
      _ ≤ _ := by exact_mod_cast c1
  · have h2 := Nat.ceil_lt_add_one hpos0
    have c2' : ((data.length : ℝ)) - (⌈pos⌉₊ : ℝ) ≤ atLeast data (interp (sorted data) pos) := by
      have : data.length ≤ atLeast data (interp (sorted data) pos) + ⌈pos⌉₊ := by omega
      have : (data.length : ℝ) ≤ (atLeast data (interp (sorted data) pos) : ℝ) + (⌈pos⌉₊ : ℝ) := by exact_mod_cast this
      linarith
    have hlen : ((data.length - 1 : Nat) : ℝ) = (data.length : ℝ) - 1 := by
      rw [Nat.cast_sub (by omega)]; simp
    have : ((data.length - 1 : Nat) : ℝ) * (1 - q / 100) = ((data.length - 1 : Nat) : ℝ) - pos := by rw [hp]; ring
    rw [this, hlen]
    linarith

/-- **C91.** For data that is not empty, the median and quartiles plotted show the data; in particular the error bars are never
negative, which matplotlib would refuse. -/
theorem c91_shows {data : List ℝ} (h : data ≠ []) :
    Shows data (npMedian data) (npMedian data - npPercentile data 25) (npPercentile data 75 - npMedian data) := by
  have hpos : 0 < data.length := List.length_pos_iff.mpr h
  have hlen : ((data.length - 1 : Nat) : ℝ) = (data.length : ℝ) - 1 := by
    rw [Nat.cast_sub (by omega)]; simp
  have hn : (0 : ℝ) ≤ ((data.length - 1 : Nat) : ℝ) := Nat.cast_nonneg _
  rw [median_percentile h]
  obtain ⟨a1, a2⟩ := percentile_counts h (q := 50) (by norm_num) (by norm_num)
  obtain ⟨b1, -⟩ := percentile_counts h (q := 25) (by norm_num) (by norm_num)
  obtain ⟨-, c2⟩ := percentile_counts h (q := 75) (by norm_num) (by norm_num)
  rw [hlen] at a1 a2 b1 c2
  have e1 : npPercentile data 50 - (npPercentile data 50 - npPercentile data 25) = npPercentile data 25 := by ring
  have e2 : npPercentile data 50 + (npPercentile data 75 - npPercentile data 50) = npPercentile data 75 := by ring
  have i1 : npPercentile data 25 ≤ npPercentile data 50 := by
    rw [percentile_interp (by norm_num) (by norm_num), percentile_interp (by norm_num) (by norm_num)]
    exact interp_mono (sorted_mono data) (mul_nonneg hn (by norm_num)) (mul_le_mul_of_nonneg_left (by norm_num) hn)
  have i2 : npPercentile data 50 ≤ npPercentile data 75 := by
    rw [percentile_interp (by norm_num) (by norm_num), percentile_interp (by norm_num) (by norm_num)]
    exact interp_mono (sorted_mono data) (mul_nonneg hn (by norm_num)) (mul_le_mul_of_nonneg_left (by norm_num) hn)
  refine ⟨?_, ?_, ?_, ?_, by linarith, by linarith, ?_⟩
  · have : (data.length : ℝ) < ((2 * atMost data (npPercentile data 50) + 1 : Nat) : ℝ) := by push_cast; linarith
    have : data.length < 2 * atMost data (npPercentile data 50) + 1 := by exact_mod_cast this
    omega
  · have : (data.length : ℝ) < ((2 * atLeast data (npPercentile data 50) + 1 : Nat) : ℝ) := by push_cast; linarith
    have : data.length < 2 * atLeast data (npPercentile data 50) + 1 := by exact_mod_cast this
    omega
  · rw [e1]
    have : (data.length : ℝ) < ((4 * atMost data (npPercentile data 25) + 1 : Nat) : ℝ) := by push_cast; linarith
    have : data.length < 4 * atMost data (npPercentile data 25) + 1 := by exact_mod_cast this
    omega
  · rw [e2]
    have : (data.length : ℝ) < ((4 * atLeast data (npPercentile data 75) + 1 : Nat) : ℝ) := by push_cast; linarith
    have : data.length < 4 * atLeast data (npPercentile data 75) + 1 := by exact_mod_cast this
    omega
  · rw [e1, e2]
    refine ⟨_, sorted_mem h ⌊((data.length - 1 : Nat) : ℝ) * (25 / 100)⌋₊, _, sorted_mem h ⌈((data.length - 1 : Nat) : ℝ) * (75 / 100)⌉₊, ?_, ?_⟩
    · rw [percentile_interp (by norm_num) (by norm_num)]
      exact interp_ge (sorted_mono data) (mul_nonneg hn (by norm_num))
    · rw [percentile_interp (by norm_num) (by norm_num)]
      exact interp_le_ceil (sorted_mono data) (mul_nonneg hn (by norm_num))

theorem foldl_append (ls : List (List ℝ)) (acc : List ℝ) : ls.foldl (fun data l => data ++ l) acc = acc ++ ls.flatten := by
  induction ls generalizing acc with
  | nil => simp
  | cons l ls ih => simp [ih]

theorem foldl_count (ls : List (List ℝ)) (k : Nat) :
    ls.foldl (fun k l => if l.length > 0 then k + 1 else k) k = k + ls.countP fun l => decide (l ≠ []) := by
  induction ls generalizing k with
  | nil => simp
  | cons l ls ih =>
    rw [List.foldl_cons, ih, List.countP_cons]
    cases l <;> simp
    omega

theorem panelLoop_ok (items : List (ℝ × List (List ℝ))) (p : Panel) (h : ∀ row ∈ items, row.2 ≠ []) :
    panelLoop items p = .ok ⟨p.mus ++ (withData items).map Prod.fst,
      p.medians ++ (withData items).map (fun row => npMedian row.2.flatten),
      p.yerrs ++ (withData items).map (fun row => (npMedian row.2.flatten - npPercentile row.2.flatten 25,
        npPercentile row.2.flatten 75 - npMedian row.2.flatten)),
      p.keys, p.fractions ++ items.map fun row => (row.2.countP (fun l => decide (l ≠ [])) : ℝ) / (row.2.length : ℝ)⟩ := by
  induction items generalizing p with
  | nil => simp [panelLoop, withData]
  | cons row items ih =>
    obtain ⟨mu, ls⟩ := row
    have hne : ls ≠ [] := h (mu, ls) (by simp)
    unfold panelLoop
    simp only [foldl_append, foldl_count, List.nil_append, Nat.zero_add]
    rw [if_neg (by simpa using hne)]
    by_cases hd : ls.flatten = []
    · rw [if_neg (by rw [hd]; simp), ih _ fun r hr => h r (by simp [hr])]
      have : withData ((mu, ls) :: items) = withData items := by
        unfold withData
        rw [List.filter_cons_of_neg (by simp [hd])]
      rw [this]
      simp
    · rw [if_pos (List.length_pos_iff.mpr hd), ih _ fun r hr => h r (by simp [hr])]
      have : withData ((mu, ls) :: items) = (mu, ls) :: withData items := by
        unfold withData
        rw [List.filter_cons_of_pos (by simpa using hd)]
      rw [this]
      simp

theorem panelLoop_error {items : List (ℝ × List (List ℝ))} (p : Panel) (h : ∃ row ∈ items, row.2 = []) :
    panelLoop items p = .error .zeroDivisionError := by
  induction items generalizing p with
  | nil => simp at h
  | cons row items ih =>
    obtain ⟨mu, ls⟩ := row
    unfold panelLoop
    simp only
    split
    · rfl
    · rename_i hls
      have h' : ∃ row ∈ items, row.2 = [] := by
        obtain ⟨r, hr, hr'⟩ := h
        rcases List.mem_cons.mp hr with rfl | hr
        · exact absurd (by simp only at hr'; rw [hr']; rfl) hls
        · exact ⟨r, hr, hr'⟩
      split
      · exact ih _ h'
      · exact ih _ h'

/-- **C91.** The numbers plotted for results with at least one graph per mixing parameter: the points are at the mixing
parameters with data, in their order, and show the data of all their graphs together; the fractions are at all mixing
parameters, and each is the share of graphs with data: between 0 and 1, and 1 exactly if every graph has data.  Without graphs
for some mixing parameter the script raises `ZeroDivisionError`. -/
theorem c91_panel (dict : List (ℝ × List (List ℝ))) :
    ((∀ row ∈ dict, row.2 ≠ []) → ∃ p, lfrPanel dict = .ok p ∧ p.mus = (withData dict).map Prod.fst ∧
      p.medians.length = p.mus.length ∧
      List.Forall₂ (fun row (point : ℝ × ℝ × ℝ) => Shows row.2.flatten point.1 point.2.1 point.2.2) (withData dict)
        (p.medians.zip p.yerrs) ∧
      p.keys = dict.map Prod.fst ∧
      List.Forall₂ (fun row f => f = ((row.2.filter fun l => decide (l ≠ [])).length : ℝ) / (row.2.length : ℝ) ∧ 0 ≤ f ∧ f ≤ 1 ∧
        (f = 1 ↔ ∀ l ∈ row.2, l ≠ [])) dict p.fractions) ∧
    ((∃ row ∈ dict, row.2 = []) → lfrPanel dict = .error .zeroDivisionError) := by
  refine ⟨fun h => ⟨_, panelLoop_ok dict _ h, by simp, by simp, ?_, rfl, ?_⟩, panelLoop_error _⟩
  · simp only [List.nil_append, List.zip_map', List.forall₂_map_right_iff, List.forall₂_same]
    intro row hrow
    unfold withData at hrow
    exact c91_shows (by simpa using (List.mem_filter.mp hrow).2)
  · simp only [List.nil_append, List.forall₂_map_right_iff, List.forall₂_same]
    intro row hrow
    have hpos : (0 : ℝ) < row.2.length := by exact_mod_cast List.length_pos_iff.mpr (h row hrow)
    have hle : row.2.countP (fun l => decide (l ≠ [])) ≤ row.2.length := List.countP_le_length
    refine ⟨by rw [List.countP_eq_length_filter], by positivity, ?_, ?_⟩
    · rw [div_le_one hpos]; exact_mod_cast hle
    · rw [div_eq_one_iff_eq hpos.ne', Nat.cast_inj, List.countP_eq_length]
      simp

/-- **C91.** The four panels are in different places of the two by two figure. -/
theorem c91_positions : ∀ i < 4, (0 ≤ (panelPosition i).1 ∧ (panelPosition i).1 < 2 ∧ (panelPosition i).2 < 2) ∧
    ∀ j < 4, panelPosition i = panelPosition j → i = j := by
  decide

theorem fin_lists {ls : List (List (Fl ℝ))} (h : ∀ l ∈ ls, ∀ s ∈ l, ∃ r : ℝ, s = .fin r ∧ 0 ≤ r ∧ r ≤ 1) :
    ∃ rs : List (List ℝ), ls = rs.map (List.map Fl.fin) ∧ ∀ r ∈ rs.flatten, 0 ≤ r ∧ r ≤ 1 := by
  have h1 : ∀ l : List (Fl ℝ), (∀ s ∈ l, ∃ r : ℝ, s = .fin r ∧ 0 ≤ r ∧ r ≤ 1) → ∃ rs : List ℝ, l = rs.map Fl.fin ∧ ∀ r ∈ rs, 0 ≤ r ∧ r ≤ 1 := by
    intro l
    induction l with
    | nil => intro _; exact ⟨[], rfl, by simp⟩
    | cons s l ih =>
      intro h
      obtain ⟨r, rfl, hr⟩ := h s (by simp)
      obtain ⟨rs, rfl, hrs⟩ := ih fun s hs => h s (by simp [hs])
      refine ⟨r :: rs, rfl, fun x hx => ?_⟩
      rcases List.mem_cons.mp hx with rfl | hx
      · exact hr
      · exact hrs x hx
  induction ls with
  | nil => exact ⟨[], rfl, by simp⟩
  | cons l ls ih =>
    obtain ⟨r, rfl, hr⟩ := h1 l (h l (by simp))
    obtain ⟨rs, rfl, hrs⟩ := ih fun l hl => h l (by simp [hl])
    refine ⟨r :: rs, rfl, fun x hx => ?_⟩
    rw [List.flatten_cons, List.mem_append] at hx
    exact hx.elim (hr x) (hrs x)

/-- **C91.** Whatever runs and interruptions produced complete results: if no graph file is for zero graphs, each of the four
dictionaries is plotted without an error, with every error bar inside `[0, 1]`. -/
theorem c91_stored {fmt : ℝ → String} {Generated : ℝ → Graph ℝ × List Nat → Prop}
    {d : Disk (Graph ℝ × List Nat) (List (Fl ℝ))} (h : History fmt Generated PossibleScores emptyDisk d)
    (hnum : ∀ name gs, d.graphs (0, name) ≠ .full gs) {P : Plots (List (Fl ℝ))} (hP : d.results = .full P) :
    ∀ dict ∈ [P.plot1, P.plot2, P.plot3, P.plot4], ∃ real p, dict = real.map (fun row => (row.1, row.2.map (List.map Fl.fin))) ∧
      lfrPanel real = .ok p ∧ ∀ point ∈ p.medians.zip p.yerrs,
        0 ≤ point.1 - point.2.1 ∧ point.1 - point.2.1 ≤ point.1 ∧ point.1 ≤ point.1 + point.2.2 ∧ point.1 + point.2.2 ≤ 1 := by
  intro dict hdict
  have hrows := c90_stored_scores h (.inr hP) dict hdict
  have key : ∀ dict : List (ℝ × List (List (Fl ℝ))), (∀ row ∈ dict,
      (∃ num gs, d.graphs (num, fmt row.1) = .full gs ∧ gs.length = num ∧ row.2.length = num) ∧
      ∀ scores ∈ row.2, ∀ s ∈ scores, ∃ r : ℝ, s = .fin r ∧ 0 ≤ r ∧ r ≤ 1) →
      ∃ real : List (ℝ × List (List ℝ)), dict = real.map (fun row => (row.1, row.2.map (List.map Fl.fin))) ∧
        (∀ row ∈ real, row.2 ≠ []) ∧ ∀ row ∈ real, ∀ x ∈ row.2.flatten, 0 ≤ x ∧ x ≤ 1 := by
    intro dict
    induction dict with
    | nil => intro _; exact ⟨[], rfl, by simp, by simp⟩
    | cons row dict ih =>
      intro hr
      obtain ⟨real, rfl, h1, h2⟩ := ih fun r hm => hr r (by simp [hm])
      obtain ⟨⟨num, gs, hg, hl, hn⟩, hs⟩ := hr row (by simp)
      obtain ⟨rs, hrs, hrange⟩ := fin_lists hs
      obtain ⟨mu, ls⟩ := row
      simp only at hrs hn hg
      subst hrs
      refine ⟨(mu, rs) :: real, rfl, ?_, ?_⟩
      · intro r hm
        rcases List.mem_cons.mp hm with rfl | hm
        · rintro h0
          simp only at h0
          subst h0
          simp only [List.map_nil, List.length_nil] at hn
          subst hn
          exact hnum _ _ hg
        · exact h1 r hm
      · intro r hm
        rcases List.mem_cons.mp hm with rfl | hm
        · exact hrange
        · exact h2 r hm
  obtain ⟨real, rfl, h1, h2⟩ := key dict hrows
  obtain ⟨p, hp, -, -, hshow, -, -⟩ := (c91_panel real).1 h1
  refine ⟨real, p, rfl, hp, fun point hpt => ?_⟩
  obtain ⟨i, hi⟩ := List.getElem?_of_mem hpt
  obtain ⟨hil, rfl⟩ := List.getElem?_eq_some_iff.mp hi
  rw [List.forall₂_iff_get] at hshow
  have hiw : i < (withData real).length := by rw [hshow.1]; exact hil
  have hs := hshow.2 i hiw hil
  have hmem : (withData real).get ⟨i, hiw⟩ ∈ real := List.mem_of_mem_filter (List.get_mem _ _)
  obtain ⟨lo, hlo, hi', hhi, r1, r2⟩ := hs.range
  simp only [List.get_eq_getElem] at hs r1 r2
  have b1 := (h2 _ hmem lo hlo).1
  have b2 := (h2 _ hmem hi' hhi).2
  have d1 := hs.down_nonneg
  have d2 := hs.up_nonneg
  exact ⟨b1.trans r1, by linarith, by linarith, r2.trans b2⟩

/-! ### Concrete cases -/

example : npMedian [1, 0] = 1 / 2 := by
  have : npSort [1, 0] = [0, 1] := by
    refine List.Perm.eq_of_pairwise (le := (· ≤ ·)) (fun a b _ _ => le_antisymm) (npSort_pairwise _) (by simp) ?_
    exact (npSort_perm _).trans (List.Perm.swap _ _ _)
  unfold npMedian
  rw [this]
  norm_num

/-- Two mixing parameters, the second without data. -/
example : ∃ p, lfrPanel [(1, [[1, 0], []]), (2, [[], []])] = .ok p ∧ p.mus = [1] ∧ p.fractions = [1 / 2, 0] := by
  refine ⟨_, panelLoop_ok _ _ (by simp), ?_, ?_⟩
  · simp [withData]
  · simp [List.countP_cons]

end Verif.Props
