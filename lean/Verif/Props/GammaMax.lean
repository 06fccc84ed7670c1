import Verif.Proofs.GammaMax
import Mathlib.Analysis.SpecialFunctions.Log.Basic
import Mathlib.Topology.Algebra.Order.Archimedean
import Mathlib.Analysis.SpecificLimits.Basic
import Mathlib.Tactic.LinearCombination
import Verif.Props.MaxGamma

/-!
# C98: the largest expected gamma estimate as a function of the number of communities
-/

namespace Verif.Props
open Verif Verif.Spec Real

variable {minimize : (ℝ → Py ℝ) → ℝ → ℝ → Py ℝ} {K : Nat} {eps v w : ℝ}

theorem lub_exists (hK : 2 ≤ K) : ∃ v, 1 ≤ v ∧ IsLUB (expectedGammas K) v := by
  rcases hK.eq_or_lt with rfl | h
  · exact ⟨1, le_rfl, yGamma_two_lub⟩
  · obtain ⟨y, hy, hl⟩ := yGamma_three_lub h
    refine ⟨_, ?_, hl⟩
    have h1 := one_lt_yGamma h
    rw [expectedGammas_eq] at hl
    exact h1.le.trans (hl.1 ⟨9 / 4, by show (1 : ℝ) < 9 / 4; norm_num, rfl⟩)

/-- **C98.** With an exact minimiser `gamma_max(K)` does not raise for `K ≥ 2`, and it is the least upper bound of the gamma
estimates expected for `K` balanced assortative communities. -/
theorem c98_maximum (hm : ExactMinimizer minimize) (hK : 2 ≤ K) :
    ∃ v, gammaMax minimize K eps = .ok v ∧ IsLUB (expectedGammas K) v := by
  obtain ⟨u, hu1, hu⟩ := lub_exists hK
  classical
  have hex : ∀ x, ∃ z, (do let y ← clippedGamma K x; return -y : Py ℝ) = .ok z ∧
      ((∃ g ∈ expectedGammas K, z = -g) ∨ z = 0) := by
    intro x
    unfold clippedGamma
    by_cases h : 0 < x ∧ x < 1
    · rw [if_neg (not_not.mpr h), expectedGamma_eq h.1 h.2]
      exact ⟨_, rfl, Or.inl ⟨yGamma K (1 / x), ⟨x, h.1, h.2, expectedGamma_eq h.1 h.2⟩, rfl⟩⟩
    · rw [if_pos h]
      exact ⟨-0, rfl, Or.inr neg_zero⟩
  choose g hg1 hg2 using hex
  have hlow : -u ∈ lowerBounds (Set.range g) := by
    rintro z ⟨x, rfl⟩
    rcases hg2 x with ⟨y, hy, h⟩ | h
    · rw [h]; exact neg_le_neg (hu.1 hy)
    · rw [h]; linarith
  obtain ⟨m, hm1, hm2⟩ := hm _ g eps (1 - eps) hg1 ⟨_, hlow⟩
  refine ⟨-m, ?_, ?_⟩
  · unfold gammaMax
    rw [hm1]
    rfl
  · have hsub : ∀ y ∈ expectedGammas K, -y ∈ Set.range g := by
      rintro y ⟨x, h0, h1, h⟩
      refine ⟨x, ?_⟩
      have h3 := hg1 x
      unfold clippedGamma at h3
      rw [if_neg (not_not.mpr ⟨h0, h1⟩), h] at h3
      exact (Except.ok.inj h3).symm
    constructor
    · intro y hy
      have := hm2.1 (hsub y hy)
      linarith
    · intro b hb
      have := hu.2 hb
      have := hm2.2 hlow
      linarith

/-- **C98.** What the curve means for the library: no assortative partition with `K` communities of any graph with positive
weights has a gamma estimate above `gamma_max(K)`. -/
theorem c98_estimates {G : Graph ℝ} {ws : List ℝ} {c : List Nat} {θin θout g : ℝ} (hm : ExactMinimizer minimize)
    (hv : gammaMax minimize K eps = .ok v) (hG : G.WF) (hw : G.weight = some ws) (hpos : ∀ w ∈ ws, 0 < w)
    (hc : c.length = G.vcount) (hK : Contiguous c K) (h2 : 2 ≤ K)
    (hr : estimateSinglelayerSBM G c none = .ok (θin, θout)) (hlt : θout < θin)
    (hg : gammaFromParameters θin θout = some (.fin g)) : g ≤ v := by
  obtain ⟨v', hv', hl⟩ := c98_maximum (eps := eps) hm h2
  rw [hv] at hv'
  cases hv'
  obtain ⟨⟨x, y, h0, h1, h3, h4⟩, -⟩ := c71_maximum_gamma hG hw hpos hc hK h2 hr hlt hg
  exact h4.trans (hl.1 ⟨x, h0, h1, h3⟩)

/-- **C98.** `gamma_max(2) = 1`, which no ratio attains; for `K ≥ 3` it is above 1 and some ratio attains it. -/
theorem c98_attained (hm : ExactMinimizer minimize) :
    (gammaMax minimize 2 eps = .ok 1 ∧ ∀ x, 0 < x → x < 1 → expectedGamma 2 x ≠ .ok 1) ∧
    ∀ K, 3 ≤ K → ∃ v, gammaMax minimize K eps = .ok v ∧ 1 < v ∧ ∃ x, 0 < x ∧ x < 1 ∧ expectedGamma K x = .ok v := by
  refine ⟨⟨?_, fun x h0 h1 h => ?_⟩, fun K hK => ?_⟩
  · obtain ⟨v, h, hl⟩ := c98_maximum (eps := eps) hm le_rfl
    rw [h, hl.unique yGamma_two_lub]
  · rw [expectedGamma_eq h0 h1] at h
    have := yGamma_two_lt (y := 1 / x) (by rw [one_lt_div h0]; exact h1)
    rw [Except.ok.inj h] at this
    exact lt_irrefl _ this
  · obtain ⟨v, h, hl⟩ := c98_maximum (eps := eps) hm (by omega : 2 ≤ K)
    obtain ⟨y, hy, hl'⟩ := yGamma_three_lub hK
    have hvy := hl.unique hl'
    refine ⟨v, h, ?_, ?_⟩
    · rw [expectedGammas_eq] at hl
      exact (one_lt_yGamma hK).trans_le (hl.1 ⟨9 / 4, by show (1 : ℝ) < 9 / 4; norm_num, rfl⟩)
    · have hmem : v ∈ expectedGammas K := by rw [expectedGammas_eq, hvy]; exact ⟨y, hy, rfl⟩
      exact hmem

/-- **C98.** Its size: between `K (K - 1) / ((2 K - 1) log K)` and `K / log (K + 1)`, and at most `K / 2` – so it grows beyond all
bounds, but slower than any multiple of `K`. -/
theorem c98_bounds (hm : ExactMinimizer minimize) (hK : 2 ≤ K) (hv : gammaMax minimize K eps = .ok v) :
    K * (K - 1) / ((2 * K - 1) * log K) ≤ v ∧ v ≤ K / log (K + 1) ∧ v ≤ K / 2 := by
  obtain ⟨v', hv', hl⟩ := c98_maximum (eps := eps) hm hK
  rw [hv] at hv'
  cases hv'
  have hKr : (2 : ℝ) ≤ K := by exact_mod_cast hK
  rw [expectedGammas_eq] at hl
  refine ⟨?_, ?_, ?_⟩
  · have h1 := hl.1 ⟨(K : ℝ), by show (1 : ℝ) < K; linarith, rfl⟩
    refine le_of_eq_of_le ?_ h1
    unfold yGamma
    rw [div_div, show (2 * (K : ℝ) - 1) = K + K - 1 by ring]
  · refine hl.2 ?_
    rintro g ⟨y, hy, rfl⟩
    exact (yGamma_upper (by omega) hy).le
  · refine hl.2 ?_
    rintro g ⟨y, hy, rfl⟩
    exact (yGamma_half hK hy).le

/-- **C98.** It is strictly increasing in `K`, and its quotient by `K` is strictly decreasing. -/
theorem c98_monotone (hm : ExactMinimizer minimize) (hK : 2 ≤ K) (hv : gammaMax minimize K eps = .ok v)
    (hw : gammaMax minimize (K + 1) eps = .ok w) : v < w ∧ w / (K + 1 : ℕ) < v / K := by
  obtain ⟨v', hv', hl⟩ := c98_maximum (eps := eps) hm hK
  rw [hv] at hv'
  cases hv'
  obtain ⟨w', hw', hl2⟩ := c98_maximum (eps := eps) hm (by omega : 2 ≤ K + 1)
  rw [hw] at hw'
  cases hw'
  have hKr : (2 : ℝ) ≤ K := by exact_mod_cast hK
  have hl2' := hl2
  rw [expectedGammas_eq] at hl2'
  constructor
  · rcases hK.eq_or_lt with rfl | h3
    · have := hl.unique yGamma_two_lub
      rw [this]
      exact (one_lt_yGamma (K := 3) le_rfl).trans_le (hl2'.1 ⟨9 / 4, by show (1 : ℝ) < 9 / 4; norm_num, rfl⟩)
    · obtain ⟨y, hy, hly⟩ := yGamma_three_lub h3
      rw [hl.unique hly]
      exact (yGamma_succ (by omega) hy).1.trans_le (hl2'.1 ⟨y, hy, rfl⟩)
  · obtain ⟨y, hy, hly⟩ := yGamma_three_lub (by omega : 3 ≤ K + 1)
    have h1 := (yGamma_succ (K := K) (by omega) hy).2
    rw [← hl2.unique hly] at h1
    rw [expectedGammas_eq] at hl
    have h2 := hl.1 ⟨y, hy, rfl⟩
    push_cast
    rw [div_lt_div_iff₀ (by linarith) (by linarith)]
    have h3 : yGamma K y * ((K + 1) / K) * K = yGamma K y * (K + 1) := by field_simp
    have h4 : w * K < yGamma K y * ((K + 1) / K) * K := mul_lt_mul_of_pos_right h1 (by linarith)
    have h5 : yGamma K y * ((K : ℝ) + 1) ≤ v * (K + 1) := mul_le_mul_of_nonneg_right h2 (by linarith)
    linarith

theorem mapM_ok_ok {α β : Type} {f : α → Py β} {g : α → β} {l : List α} (h : ∀ x ∈ l, f x = .ok (g x)) :
    l.mapM f = .ok (l.map g) := by
  induction l with
  | nil => rfl
  | cons a l ih =>
    rw [List.mapM_cons, h a List.mem_cons_self, ih fun x hx => h x (List.mem_cons_of_mem _ hx)]
    rfl

/-- **C98.** The three panels, for `Ks` from 2 to `n`: the first shows the central difference quotient of `gamma_max`, which is
positive and below `gamma_max(K-1)/(K-1)`, the second the second difference; and the third, titled as the third difference, shows
the second difference again. -/
theorem c98_panels (hm : ExactMinimizer minimize) {n : Nat} : ∃ γ : Nat → ℝ,
    (∀ K, 2 ≤ K → gammaMax minimize K eps = .ok (γ K)) ∧
    derivativePanels (gammaMax minimize · eps) (List.range' 2 n) =
      .ok (((List.range' 2 n).drop 1).map fun K => (γ (K + 1) - γ (K - 1)) / 2,
        ((List.range' 2 n).drop 1).map fun K => γ (K + 1) - 2 * γ K + γ (K - 1),
        ((List.range' 2 n).drop 2).map fun K => γ (K + 1) - 2 * γ K + γ (K - 1)) ∧
    ∀ K ∈ (List.range' 2 n).drop 1, 0 < (γ (K + 1) - γ (K - 1)) / 2 ∧
      (γ (K + 1) - γ (K - 1)) / 2 < γ (K - 1) / (K - 1 : ℕ) := by
  classical
  have hex : ∀ K, ∃ v, 2 ≤ K → gammaMax minimize K eps = .ok v := by
    intro K
    by_cases h : 2 ≤ K
    · obtain ⟨v, hv, -⟩ := c98_maximum (eps := eps) hm h
      exact ⟨v, fun _ => hv⟩
    · exact ⟨0, fun h' => absurd h' h⟩
  choose γ hγ using hex
  have hdrop : ∀ k, (List.range' 2 n).drop k = List.range' (2 + k) (n - k) := by
    intro k
    rw [List.drop_range']
    simp
  have hmem : ∀ k, ∀ K ∈ (List.range' 2 n).drop k, 2 + k ≤ K := by
    intro k K hK
    rw [hdrop, List.mem_range'_1] at hK
    exact hK.1
  refine ⟨γ, hγ, ?_, ?_⟩
  · have e1 : ∀ K ∈ (List.range' 2 n).drop 1, fprimeEstimate (gammaMax minimize · eps) K =
        .ok ((γ (K + 1) - γ (K - 1)) / 2) := by
      intro K hK
      have := hmem 1 K hK
      unfold fprimeEstimate
      dsimp only
      rw [hγ (K + 1) (by omega), Py.ok_bind, hγ (K - 1) (by omega), Py.ok_bind]
      rfl
    have e2 : ∀ K, 3 ≤ K → fprime2Estimate (gammaMax minimize · eps) K = .ok (γ (K + 1) - 2 * γ K + γ (K - 1)) := by
      intro K hK
      unfold fprime2Estimate
      dsimp only
      rw [hγ (K + 1) (by omega), Py.ok_bind, hγ K (by omega), Py.ok_bind, hγ (K - 1) (by omega), Py.ok_bind, div_one]
      rfl
    unfold derivativePanels
    rw [mapM_ok_ok e1, Py.ok_bind, mapM_ok_ok fun K hK => e2 K (hmem 1 K hK), Py.ok_bind,
      mapM_ok_ok fun K hK => e2 K (by have := hmem 2 K hK; omega), Py.ok_bind]
    rfl
  · intro K hK
    have h3 := hmem 1 K hK
    have a1 := c98_monotone hm (by omega : 2 ≤ K - 1) (hγ (K - 1) (by omega)) (hγ (K - 1 + 1) (by omega))
    have a2 := c98_monotone hm (by omega : 2 ≤ K) (hγ K (by omega)) (hγ (K + 1) (by omega))
    rw [Nat.sub_add_cancel (by omega : 1 ≤ K)] at a1
    refine ⟨by linarith [a1.1, a2.1], ?_⟩
    obtain ⟨j, rfl⟩ : ∃ j, K = j + 1 := ⟨K - 1, by omega⟩
    rw [Nat.add_sub_cancel] at a1 ⊢
    have hj : (0 : ℝ) < j := by
      have : 0 < j := by omega
      exact_mod_cast this
    have b1 := a1.2
    have b2 := a2.2
    push_cast at b1 b2
    rw [div_lt_div_iff₀ (by linarith) (by linarith)] at b1 b2
    rw [div_lt_div_iff₀ two_pos hj]
    -- γ(j+2) (j+1) < γ(j+1) (j+2),  γ(j+1) j < γ j (j+1)
    have c1 : (γ (j + 1 + 1) - γ j) * j * (j + 1) < γ j * 2 * (j + 1) := by
      have d1 := mul_lt_mul_of_pos_right b2 hj
      have d2 := mul_lt_mul_of_pos_right b1 (by linarith : (0 : ℝ) < (j + 1 + 1))
      nlinarith
    exact lt_of_mul_lt_mul_right c1 (by linarith)

theorem no_such_curve {I : Nat → ℝ} (hpos : ∀ n, 0 < I n) (hlim : Filter.Tendsto I Filter.atTop (nhds 0))
    (h : ∀ n, (I (n + 3) - I (n + 2)) - (I (n + 1) - I n) = 2 * (I (n + 2) - I (n + 1))) : False := by
  set s := sqrt 2 with hs
  have hss : s * s = 2 := mul_self_sqrt (by norm_num)
  have hs0 : 1 < s := by
    have h1 : 0 ≤ s := sqrt_nonneg 2
    by_contra hle
    nlinarith [not_lt.mp hle]
  have hl : ∀ k, Filter.Tendsto (fun n => I (n + k)) Filter.atTop (nhds 0) := fun k =>
    hlim.comp (Filter.tendsto_add_atTop_nat k)
  -- the growing mode vanishes
  set e : Nat → ℝ := fun n => (I (n + 2) - I (n + 1)) - (1 - s) * (I (n + 1) - I n) with he
  have hrec : ∀ n, e (n + 1) = (1 + s) * e n := by
    intro n
    have h1 := h n
    simp only [he]
    have h2 : I (n + 1 + 2) = I (n + 3) := rfl
    have h3 : I (n + 1 + 1) = I (n + 2) := rfl
    rw [h2, h3]
    linear_combination h1 - (I (n + 1) - I n) * hss
  have hpow : ∀ n, e n = (1 + s) ^ n * e 0 := by
    intro n
    induction n with
    | zero => simp
    | succ n ih => rw [hrec, ih]; ring
  have hel : Filter.Tendsto (fun n => |e n|) Filter.atTop (nhds 0) := by
    have : Filter.Tendsto e Filter.atTop (nhds 0) := by
      have h2 := ((hl 2).sub (hl 1)).sub (((hl 1).sub (hl 0)).const_mul (1 - s))
      simpa using h2
    simpa using this.abs
  have he0 : e 0 = 0 := by
    have : |e 0| ≤ 0 := by
      refine ge_of_tendsto hel (Filter.Eventually.of_forall fun n => ?_)
      rw [hpow n, abs_mul]
      have h1 : (1 : ℝ) ≤ |(1 + s) ^ n| := by
        rw [abs_of_nonneg (by positivity)]
        exact one_le_pow₀ (by linarith)
      nlinarith [abs_nonneg (e 0)]
    exact abs_eq_zero.mp (le_antisymm this (abs_nonneg _))
  have hen : ∀ n, e n = 0 := fun n => by rw [hpow n, he0, mul_zero]
  -- the other mode has alternating signs
  have hJ : ∀ n, I (n + 1) - (1 - s) * I n = I 1 - (1 - s) * I 0 := by
    intro n
    induction n with
    | zero => rfl
    | succ n ih =>
      have h1 := hen n
      simp only [he] at h1
      have h3 : I (n + 1 + 1) = I (n + 2) := rfl
      rw [h3, ← ih]
      linear_combination h1
  have hJl : Filter.Tendsto (fun n => I (n + 1) - (1 - s) * I n) Filter.atTop (nhds 0) := by
    have h2 := (hl 1).sub ((hl 0).const_mul (1 - s))
    simpa using h2
  have hJ0 : I 1 - (1 - s) * I 0 = 0 := by
    refine tendsto_nhds_unique (l := Filter.atTop) (f := fun _ : ℕ => I 1 - (1 - s) * I 0) tendsto_const_nhds ?_
    exact hJl.congr fun n => hJ n
  nlinarith [hpos 0, hpos 1]

/-- **C98.** What the third panel should show is different: the third difference of `gamma_max` is not the plotted second difference
for every `K ≥ 4`. -/
theorem c98_third_panel (hm : ExactMinimizer minimize) :
    ∃ K, 4 ≤ K ∧ fprime3Estimate (gammaMax minimize · eps) K ≠ fprime2Estimate (gammaMax minimize · eps) K := by
  by_contra hcon
  push Not at hcon
  obtain ⟨γ, hγ, -⟩ := c98_panels (eps := eps) (n := 0) hm
  have hmono : ∀ n : ℕ, γ (n + 2) < γ (n + 3) ∧ γ (n + 3) - γ (n + 2) ≤ 1 / log ((n : ℝ) + 3) := by
    intro n
    obtain ⟨h1, h2⟩ := c98_monotone (K := n + 2) hm (by omega) (hγ (n + 2) (by omega)) (hγ (n + 2 + 1) (by omega))
    obtain ⟨-, h3, -⟩ := c98_bounds (K := n + 2) hm (by omega) (hγ (n + 2) (by omega))
    refine ⟨h1, ?_⟩
    have hn : (0 : ℝ) ≤ n := Nat.cast_nonneg n
    push_cast at h2 h3
    have hlog : 0 < log ((n : ℝ) + 3) := log_pos (by linarith)
    rw [show (n : ℝ) + 2 + 1 = n + 3 by ring] at h2 h3
    rw [div_lt_div_iff₀ (by linarith) (by linarith)] at h2
    rw [le_div_iff₀ hlog] at h3 ⊢
    have h4 : γ (n + 2 + 1) = γ (n + 3) := rfl
    rw [h4] at h2
    have h5 : (γ (n + 3) - γ (n + 2)) * (n + 2) < γ (n + 2) := by nlinarith
    have h6 : (γ (n + 3) - γ (n + 2)) * (n + 2) * log ((n : ℝ) + 3) < γ (n + 2) * log ((n : ℝ) + 3) :=
      mul_lt_mul_of_pos_right h5 hlog
    have h7 : (γ (n + 3) - γ (n + 2)) * log ((n : ℝ) + 3) * (n + 2) < 1 * (n + 2) := by linarith
    exact (lt_of_mul_lt_mul_right h7 (by linarith)).le
  refine no_such_curve (I := fun n => γ (n + 3) - γ (n + 2)) (fun n => by linarith [(hmono n).1]) ?_ ?_
  · refine squeeze_zero (g := fun n : ℕ => 1 / log ((n : ℝ) + 3)) (fun n => by linarith [(hmono n).1])
      (fun n => (hmono n).2) ?_
    have h1 : Filter.Tendsto (fun n : ℕ => (n : ℝ) + 3) Filter.atTop Filter.atTop :=
      Filter.tendsto_atTop_add_const_right _ _ tendsto_natCast_atTop_atTop
    have h2 := (tendsto_log_atTop.comp h1).inv_tendsto_atTop
    refine h2.congr fun n => ?_
    simp [Function.comp_def]
  · intro n
    have h1 := hcon (n + 4) (by omega)
    unfold fprime3Estimate fprime2Estimate at h1
    dsimp only at h1
    rw [hγ (n + 4 + 2) (by omega), Py.ok_bind, hγ (n + 4 + 1) (by omega), Py.ok_bind, hγ (n + 4 - 1) (by omega), Py.ok_bind,
      hγ (n + 4 - 2) (by omega), Py.ok_bind, Py.ok_bind, hγ (n + 4) (by omega), Py.ok_bind, Py.ok_bind] at h1
    have h2 := Except.ok.inj h1
    have e1 : n + 4 - 1 = n + 3 := by omega
    have e2 : n + 4 - 2 = n + 2 := by omega
    rw [e1, e2] at h2
    show γ (n + 3 + 3) - γ (n + 3 + 2) - (γ (n + 2 + 3) - γ (n + 2 + 2)) - (γ (n + 1 + 3) - γ (n + 1 + 2) - _) = _
    have e3 : γ (n + 3 + 3) = γ (n + 4 + 2) := rfl
    have e4 : γ (n + 3 + 2) = γ (n + 4 + 1) := rfl
    have e5 : γ (n + 2 + 3) = γ (n + 4 + 1) := rfl
    have e6 : γ (n + 2 + 2) = γ (n + 4) := rfl
    have e7 : γ (n + 1 + 3) = γ (n + 4) := rfl
    have e8 : γ (n + 1 + 2) = γ (n + 3) := rfl
    rw [e3, e4, e5, e6, e7, e8]
    linarith

/-- **C98.** The tangents go through the point of the curve they are drawn at. -/
theorem c98_tangent {gm : Nat → Py ℝ} {s i : ℝ} (h : tangent gm K = .ok (s, i)) :
    gm K = .ok (i + s * K) ∧ fprimeEstimate gm K = .ok s := by
  unfold tangent at h
  obtain ⟨s', h1, h⟩ := Py.bind_ok' h
  obtain ⟨g, h2, h⟩ := Py.bind_ok' h
  cases h
  exact ⟨by rw [h2]; congr 1; ring, h1⟩

/-- An exact minimiser exists. -/
example : ∃ minimize, ExactMinimizer minimize := by
  classical
  refine ⟨fun f _ _ => if h : ∃ v, IsGLB {z | ∃ x, f x = .ok z} v then .ok h.choose else .error .assertionError, ?_⟩
  intro f g a b hf hb
  have hset : {z | ∃ x, f x = .ok z} = Set.range g := by
    ext z
    constructor
    · rintro ⟨x, hx⟩
      rw [hf x] at hx
      exact ⟨x, Except.ok.inj hx⟩
    · rintro ⟨x, rfl⟩
      exact ⟨x, hf x⟩
  have hex : ∃ v, IsGLB {z | ∃ x, f x = .ok z} v := by
    rw [hset]
    exact ⟨_, isGLB_csInf (Set.range_nonempty g) hb⟩
  refine ⟨hex.choose, dif_pos hex, ?_⟩
  rw [← hset]
  exact hex.choose_spec

end Verif.Props
