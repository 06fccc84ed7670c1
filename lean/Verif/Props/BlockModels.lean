import Verif.Proofs.BlockModels
import Verif.Props.Bistable
import Verif.Props.Prune

/-!
# C88: the block models of the experiments on their expected networks
-/

namespace Verif.Props
open Verif Verif.Spec Verif.Proofs Finset Real

variable {n B q : Nat} {M : List (List ℝ)} {m : Nat → Nat} {k : ℝ}

/-- logarithmic means scale -/
theorem logMean_smul {a b x : ℝ} (hx : 0 < x) (ha : 0 < a) (hb : 0 < b) : logMean (a / x) (b / x) = logMean a b / x := by
  unfold logMean
  rw [log_div ha.ne' hx.ne', log_div hb.ne' hx.ne']
  rw [show a / x - b / x = (a - b) / x by ring, show log a - log x - (log b - log x) = log a - log b by ring]
  rw [div_div, div_div, mul_comm]

theorem handshake {es : List (Nat × Nat)} {n : Nat} (h : ∀ e ∈ es, e.1 < n ∧ e.2 < n) :
    ((List.range n).map fun v => ((es.countP (fun e => e.1 = v) + es.countP (fun e => e.2 = v) : Nat) : ℝ)).sum =
      2 * es.length := by
  rw [list_range_sum]
  induction es with
  | nil => simp
  | cons e es ih =>
    have h1 := (h e (by simp)).1
    have h2 := (h e (by simp)).2
    have ih := ih fun x hx => h x (List.mem_cons_of_mem _ hx)
    simp only [List.countP_cons, List.length_cons, decide_eq_true_eq]
    push_cast at ih ⊢
    simp only [sum_add_distrib, sum_ite_eq, mem_range, if_pos h1, if_pos h2] at ih ⊢
    linarith

/-! ### Newman's model -/

/-- the true gamma of a drawn graph -/
theorem c88_newman_true_gamma {G : Graph ℝ} (hG : G.WF) (hq : 2 ≤ q) (hv : G.vcount = 250 * q) (hm : 0 < G.ecount) :
    newmanTrueGamma G q = .ok (logMean (16 / 249 * ((250 * q) ^ 2 / (2 * G.ecount)))
      (8 / (250 * (q - 1)) * ((250 * q) ^ 2 / (2 * G.ecount)))) := by
  have h1 : (2 : ℝ) ≤ q := by exact_mod_cast hq
  have hmr : (0 : ℝ) < G.ecount := by exact_mod_cast hm
  have hsum : (G.allDegrees.map fun (d : Nat) => (d : ℝ)).sum = 2 * G.ecount := by
    unfold Graph.allDegrees
    rw [List.map_map]
    exact handshake hG.1
  have hlen : (G.allDegrees.length : ℝ) = 250 * q := by
    unfold Graph.allDegrees
    rw [List.length_map, List.length_range, hv]
    push_cast; ring
  have hp := newman_p hq
  have hpi : 0 < newmanPIn q := by rw [hp.1]; norm_num
  have hpo : 0 < newmanPOut q := by rw [hp.2]; exact div_pos (by norm_num) (by nlinarith)
  have hne : newmanPOut q < newmanPIn q := by
    rw [hp.1, hp.2, div_lt_div_iff₀ (by nlinarith) (by norm_num)]
    nlinarith
  have e : ∀ p : ℝ, p * (2 * G.ecount) / (2 * G.ecount / (250 * q) * (2 * G.ecount / (250 * q))) =
      p * ((250 * q) ^ 2 / (2 * G.ecount)) := by
    intro p
    field_simp
  have hc : 0 < ((250 * (q : ℝ)) ^ 2 / (2 * G.ecount)) := by positivity
  unfold newmanTrueGamma
  rw [hsum, hlen]
  have hq0 : (250 * (q : ℝ)) ≠ 0 := by linarith
  have hkk : (2 * (G.ecount : ℝ) / (250 * q)) * (2 * G.ecount / (250 * q)) ≠ 0 := by positivity
  simp only [pyDiv, pyLog, if_neg hq0, Py.ok_bind, if_neg hkk, e, if_pos (mul_pos hpi hc), if_pos (mul_pos hpo hc)]
  have hl : log (newmanPIn q * ((250 * (q : ℝ)) ^ 2 / (2 * G.ecount))) -
      log (newmanPOut q * ((250 * (q : ℝ)) ^ 2 / (2 * G.ecount))) ≠ 0 := by
    rw [sub_ne_zero]
    exact (log_lt_log (mul_pos hpo hc) (mul_lt_mul_of_pos_right hne hc)).ne'
  rw [if_neg hl]
  unfold logMean
  rw [hp.1, hp.2]

/-- **C88 (Newman's model).** On the expected network of the test's block model (`q ≥ 2` blocks of 250 vertices), with the
`q` blocks as partition, the estimates are `ω_in = 2q/3`, `ω_out = q/(3(q-1))`, a vertex expects 16 neighbours in its own
block and 8 in all the others together, and: the "true gamma" for a graph with the expected number `3000 q` of edges is
above the gamma estimate, by a factor below `250/249`. -/
theorem c88_newman_estimate {test : Graph ℝ → Bool} (hq : 2 ≤ q)
    (ht : test (expectedNetwork q (newmanPref q) 250) = true) :
    wTotal (weightedEdgesOf (expectedNetwork q (newmanPref q) 250)) = 3000 * q ∧
    (∀ r < q, 249 * entry (newmanPref q) r r = 16 ∧ 250 * ∑ s ∈ (range q).erase r, entry (newmanPref q) r s = 8) ∧
    estimateSinglelayerSBM (expectedNetwork q (newmanPref q) 250) (blocksOf q 250) none = .ok (2 * q / 3, q / (3 * (q - 1))) ∧
    ∃ g, gammaEstimate test (expectedNetwork q (newmanPref q) 250) (blocksOf q 250) =
        .ok (some (.fin g), expectedNetwork q (newmanPref q) 250) ∧
      ∀ G : Graph ℝ, G.WF → G.vcount = 250 * q → G.ecount = 3000 * q →
        ∃ t, newmanTrueGamma G q = .ok t ∧ g < t ∧ t < 250 / 249 * g := by
  have h1 : (2 : ℝ) ≤ q := by exact_mod_cast hq
  obtain ⟨B, hB⟩ : ∃ B, B = 250 := ⟨_, rfl⟩
  rw [← hB] at ht ⊢
  have hb : (B : ℝ) = 250 := by rw [hB]; norm_num
  have hreg := newman_regular hq hB
  have hp := newman_p hq
  have hq1 : (q : ℝ) - 1 ≠ 0 := by linarith
  have hp2 : 1 < partLen (blockLabels q B id) := by rw [partLen_blocks (by omega)]; omega
  have htot : 2 * wTotal (weightedEdgesOf (expectedNetwork q (newmanPref q) B)) = 6000 * q := by
    rw [regular_total hreg, hb]; ring
  have hin : 2 * wInside (weightedEdgesOf (expectedNetwork q (newmanPref q) B)) (blockLabels q B id) = 4000 * q := by
    rw [expected_inside hreg.1]
    have : ∀ r ∈ range q, (∑ s ∈ range q, if id r = id s then entry (newmanPref q) r s else 0) = 16 / 249 := by
      intro r hr
      simp only [id, sum_ite_eq, if_pos hr]
      rw [newman_entry (mem_range.mp hr) (mem_range.mp hr), if_pos rfl, hp.1]
    have h' : ∀ r ∈ range q, entry (newmanPref q) r r = 16 / 249 := by
      intro r hr
      rw [newman_entry (mem_range.mp hr) (mem_range.mp hr), if_pos rfl, hp.1]
    rw [sum_congr rfl this, sum_congr rfl h', sum_const, card_range, nsmul_eq_mul, hb]
    ring
  have hS : (∑ r ∈ range q, ∑ s ∈ range q, if id r = id s then (1 : ℝ) else 0) = q := by
    have : ∀ r ∈ range q, (∑ s ∈ range q, if id r = id s then (1 : ℝ) else 0) = 1 := by
      intro r hr
      simp only [id, sum_ite_eq, if_pos hr]
    rw [sum_congr rfl this, sum_const, card_range, nsmul_eq_mul, mul_one]
  have hest : estimateSinglelayerSBM (expectedNetwork q (newmanPref q) B) (blocksOf q B) none =
      .ok (2 * q / 3, q / (3 * (q - 1))) := by
    have := regular_estimate (by omega) (by omega) (by norm_num) hreg hp2 hin hS (by linarith)
      (by nlinarith)
    rw [blocksOf_labels, this, hb]
    have hd : (q : ℝ) ^ 2 - q ≠ 0 := by nlinarith
    congr 2
    · field_simp; ring
    · rw [div_eq_div_iff (by positivity) (by positivity)]; ring
  have hx : (0 : ℝ) < 2 * q / 3 := by positivity
  have hy : (0 : ℝ) < q / (3 * (q - 1)) := div_pos (by linarith) (by linarith)
  have hyx : (q : ℝ) / (3 * (q - 1)) < 2 * q / 3 := by
    rw [div_lt_div_iff₀ (by linarith) (by norm_num)]; nlinarith
  refine ⟨by linarith, ?_, hest, logMean (2 * q / 3) (q / (3 * (q - 1))), ?_, ?_⟩
  · intro r hr
    rw [sum_erase_eq_sub (mem_range.mpr hr)]
    have := hreg.2 r hr
    rw [hb] at this
    rw [newman_entry hr hr, if_pos rfl, hp.1] at this ⊢
    constructor <;> linarith
  · rw [gammaEstimate_of ht (by simp [blocksOf, expectedNetwork]) hest]
    have := ((c27_degenerate_estimates (2 * (q : ℝ) / 3) (q / (3 * (q - 1)))).2.2.1 _).mpr ⟨hx, hy, hyx.ne', rfl⟩
    rw [this]
  · intro G hG hv hm
    rw [hB] at hv
    have hmr : (G.ecount : ℝ) = 3000 * q := by rw [hm]; push_cast; ring
    refine ⟨_, c88_newman_true_gamma hG hq hv (by omega), ?_⟩
    have e1 : 16 / 249 * ((250 * (q : ℝ)) ^ 2 / (2 * G.ecount)) = 250 / 249 * (2 * q / 3) := by
      rw [hmr]; field_simp; ring
    have e2 : 8 / (250 * ((q : ℝ) - 1)) * ((250 * (q : ℝ)) ^ 2 / (2 * G.ecount)) = q / (3 * (q - 1)) := by
      rw [hmr]; field_simp; ring
    rw [e1, e2]
    have hx' : (0 : ℝ) < 250 / 249 * (2 * q / 3) := by positivity
    have hlt : 2 * (q : ℝ) / 3 < 250 / 249 * (2 * q / 3) := by linarith
    have hy' : (0 : ℝ) < 250 / 249 * (q / (3 * (q - 1))) := mul_pos (by norm_num) hy
    constructor
    · exact logMean_strictMono hy hx hyx.ne' (hyx.trans hlt).ne' hlt
    · have e3 : 250 / 249 * logMean (2 * (q : ℝ) / 3) (q / (3 * (q - 1))) =
          logMean (250 / 249 * (2 * q / 3)) (250 / 249 * (q / (3 * (q - 1)))) := by
        have := logMean_smul (a := 2 * (q : ℝ) / 3) (b := q / (3 * (q - 1))) (x := 249 / 250) (by norm_num) hx hy
        rw [show 250 / 249 * (2 * (q : ℝ) / 3) = 2 * q / 3 / (249 / 250) by ring,
          show 250 / 249 * ((q : ℝ) / (3 * (q - 1))) = q / (3 * (q - 1)) / (249 / 250) by ring, this]
        ring
      rw [e3]
      unfold logMean
      rw [logMean_symm, logMean_symm (250 / 249 * (2 * (q : ℝ) / 3)) (250 / 249 * (q / (3 * (q - 1))))]
      exact logMean_strictMono hx' hy (hyx.trans hlt).ne (by nlinarith) (by linarith)

/-- **C88 (Newman's model, optimum).** For every `q ≥ 2` and every resolution between `ω_out = q/(3(q-1))` and
`(250/249)·ω_in = (250/249)·2q/3` (in particular at the gamma estimate and at the true gamma of `c88_newman_estimate`), no
partition of the vertices of the expected network has higher modularity than the `q` blocks; strictly between the bounds
every partition other than the blocks (up to labels) is strictly worse. -/
theorem c88_newman_best (hq : 2 ≤ q) {γ : ℝ} (c : List Nat) :
    (q / (3 * (q - 1)) ≤ γ → γ ≤ 250 / 249 * (2 * q / 3) →
      wModularity (q * 250) (weightedEdgesOf (expectedNetwork q (newmanPref q) 250)) c γ ≤
        wModularity (q * 250) (weightedEdgesOf (expectedNetwork q (newmanPref q) 250)) (blocksOf q 250) γ) ∧
    (q / (3 * (q - 1)) < γ → γ < 250 / 249 * (2 * q / 3) → c.length = q * 250 →
      ¬ SamePartition c (blocksOf q 250) →
      wModularity (q * 250) (weightedEdgesOf (expectedNetwork q (newmanPref q) 250)) c γ <
        wModularity (q * 250) (weightedEdgesOf (expectedNetwork q (newmanPref q) 250)) (blocksOf q 250) γ) := by
  have h1 : (2 : ℝ) ≤ q := by exact_mod_cast hq
  obtain ⟨B, hB⟩ : ∃ B, B = 250 := ⟨_, rfl⟩
  rw [← hB]
  have hb : (B : ℝ) = 250 := by rw [hB]; norm_num
  have hreg := newman_regular hq hB
  have hp := newman_p hq
  have hc0 : (0 : ℝ) < 24 / (q * B) := by rw [hb]; positivity
  have hin : newmanPIn q = 250 / 249 * (2 * q / 3) * (24 / (q * B)) := by rw [hp.1, hb]; field_simp; ring
  have hout : newmanPOut q = q / (3 * (q - 1)) * (24 / (q * B)) := by
    have : (q : ℝ) - 1 ≠ 0 := by linarith
    rw [hp.2, hb]; field_simp; ring
  refine ⟨fun hlo hhi => ?_, fun hlo hhi hlen hne => ?_⟩
  · refine regular_best (m := id) (by omega) (by norm_num) hreg ?_ ?_ c
    · intro r hr s hs e
      obtain rfl : r = s := e
      rw [newman_entry hr hr, if_pos rfl, hin]
      exact mul_le_mul_of_nonneg_right hhi hc0.le
    · intro r hr s hs e
      have e' : ¬ r = s := e
      rw [newman_entry hr hs, if_neg e', hout]
      exact mul_le_mul_of_nonneg_right hlo hc0.le
  · refine regular_best_strict (m := id) (by omega) (by norm_num) hreg ?_ ?_ hlen hne
    · intro r hr s hs e
      obtain rfl : r = s := e
      rw [newman_entry hr hr, if_pos rfl, hin]
      exact mul_lt_mul_of_pos_right hhi hc0
    · intro r hr s hs e
      have e' : ¬ r = s := e
      rw [newman_entry hr hs, if_neg e', hout]
      exact mul_lt_mul_of_pos_right hlo hc0

/-! ### The hierarchical model -/

theorem hierarchicalK_pos (hB : 0 < B) : 0 < hierarchicalK B := by
  have h1 : (1 : ℝ) ≤ B := by exact_mod_cast hB
  have : (6 : ℝ) / B ≤ 6 := div_le_self (by norm_num) h1
  unfold hierarchicalK
  linarith

theorem hierarchical_values (hB : 0 < B) : hierarchicalP1 (9 * B) = 3 / 4 / hierarchicalK B * (hierarchicalK B / ((9 : ℕ) * B)) ∧
    hierarchicalP2 (9 * B) = 27 / 2 / hierarchicalK B * (hierarchicalK B / ((9 : ℕ) * B)) ∧
    hierarchicalP3 (9 * B) = 54 / hierarchicalK B * (hierarchicalK B / ((9 : ℕ) * B)) := by
  have hk := (hierarchicalK_pos hB).ne'
  have hB' : (B : ℝ) ≠ 0 := by exact_mod_cast hB.ne'
  unfold hierarchicalP1 hierarchicalP2 hierarchicalP3
  push_cast
  refine ⟨?_, ?_, ?_⟩ <;> field_simp <;> norm_num

/-- **C88 (hierarchical model, degrees).** In the model on `N = 9B` vertices a vertex expects half a neighbour outside its
large community, three in the rest of its large community, and `6 - 6/B` in its small one (the source says six). -/
theorem c88_hierarchical_degrees (hB : 0 < B) : 6 * B * hierarchicalP1 (9 * B) = 1 / 2 ∧ 2 * B * hierarchicalP2 (9 * B) = 3 ∧
    (B - 1) * hierarchicalP3 (9 * B) = 6 - 6 / B ∧
    ∀ v < 9 * B, wDegree (9 * B) (weightedEdgesOf (expectedNetwork 9 (hierarchicalPref (9 * B)) B)) v = 19 / 2 - 6 / B := by
  have hB' : (B : ℝ) ≠ 0 := by exact_mod_cast hB.ne'
  refine ⟨?_, ?_, ?_, fun v hv => regular_degree (hierarchical_regular hB) hv⟩
  · unfold hierarchicalP1; push_cast; field_simp; norm_num
  · unfold hierarchicalP2; push_cast; field_simp
  · unfold hierarchicalP3; push_cast; field_simp

/-- **C88 (hierarchical model, optimum).** Let `k` be the expected degree.  On the expected network of the hierarchical model,
among all partitions of the `9B` vertices, modularity is highest for the whole graph when `γ ≤ 0.75/k`, for the ground truth
with three communities when `0.75/k ≤ γ ≤ 13.5/k`, and for the one with nine when `13.5/k ≤ γ ≤ 54/k`; strictly between these
bounds every other partition is strictly worse. -/
theorem c88_hierarchical_best (hB : 0 < B) (hk : k = 19 / 2 - 6 / B) {γ : ℝ} {Q : List Nat → ℝ}
    (hQ : Q = fun c => wModularity (9 * B) (weightedEdgesOf (expectedNetwork 9 (hierarchicalPref (9 * B)) B)) c γ) (c : List Nat) :
    (γ ≤ 3 / 4 / k → Q c ≤ Q (List.replicate (9 * B) 0)) ∧
    (3 / 4 / k ≤ γ → γ ≤ 27 / 2 / k → Q c ≤ Q (groundTruth3 (9 * B))) ∧
    (27 / 2 / k ≤ γ → γ ≤ 54 / k → Q c ≤ Q (groundTruth9 (9 * B))) ∧
    (c.length = 9 * B →
      (γ < 3 / 4 / k → ¬ SamePartition c (List.replicate (9 * B) 0) → Q c < Q (List.replicate (9 * B) 0)) ∧
      (3 / 4 / k < γ → γ < 27 / 2 / k → ¬ SamePartition c (groundTruth3 (9 * B)) → Q c < Q (groundTruth3 (9 * B))) ∧
      (27 / 2 / k < γ → γ < 54 / k → ¬ SamePartition c (groundTruth9 (9 * B)) → Q c < Q (groundTruth9 (9 * B)))) := by
  have hreg := hierarchical_regular hB
  have hk0 := hierarchicalK_pos hB
  obtain ⟨v1, v2, v3⟩ := hierarchical_values hB
  have hkk : k = hierarchicalK B := hk
  rw [hkk]
  have hc0 : (0 : ℝ) < hierarchicalK B / ((9 : ℕ) * B) := by
    have : (0 : ℝ) < B := by exact_mod_cast hB
    positivity
  have hone : List.replicate (9 * B) 0 = blockLabels 9 B (fun _ => 0) := by
    unfold blockLabels
    rw [List.map_const', List.length_range]
  have o12 : 3 / 4 / hierarchicalK B < 27 / 2 / hierarchicalK B := by
    rw [div_lt_div_iff_of_pos_right hk0]; norm_num
  have o23 : 27 / 2 / hierarchicalK B < 54 / hierarchicalK B := by
    rw [div_lt_div_iff_of_pos_right hk0]; norm_num
  have le : ∀ {x y : ℝ}, x ≤ y → x * (hierarchicalK B / ((9 : ℕ) * B)) ≤ y * (hierarchicalK B / ((9 : ℕ) * B)) :=
    fun h => mul_le_mul_of_nonneg_right h hc0.le
  have lt : ∀ {x y : ℝ}, x < y → x * (hierarchicalK B / ((9 : ℕ) * B)) < y * (hierarchicalK B / ((9 : ℕ) * B)) :=
    fun h => mul_lt_mul_of_pos_right h hc0
  subst hQ
  rw [gt9_labels, gt3_labels, hone]
  simp only
  have entries : ∀ {r s : Nat}, r < 9 → s < 9 → (r = s ∧ entry (hierarchicalPref (9 * B)) r s = hierarchicalP3 (9 * B)) ∨
      (r ≠ s ∧ r / 3 = s / 3 ∧ entry (hierarchicalPref (9 * B)) r s = hierarchicalP2 (9 * B)) ∨
      (r ≠ s ∧ r / 3 ≠ s / 3 ∧ entry (hierarchicalPref (9 * B)) r s = hierarchicalP1 (9 * B)) := by
    intro r s hr hs
    rw [hierarchical_entry hr hs]
    by_cases h : s = r
    · left; exact ⟨h.symm, if_pos h⟩
    · by_cases h' : s / 3 = r / 3
      · right; left; exact ⟨Ne.symm h, h'.symm, by rw [if_neg h, if_pos h']⟩
      · right; right; exact ⟨Ne.symm h, Ne.symm h', by rw [if_neg h, if_neg h']⟩
  refine ⟨fun hhi => ?_, fun hlo hhi => ?_, fun hlo hhi => ?_, fun hlen => ⟨fun hhi hne => ?_, fun hlo hhi hne => ?_,
    fun hlo hhi hne => ?_⟩⟩
  · refine regular_best (by norm_num) hk0.ne' hreg (fun r hr s hs e => ?_) (fun r hr s hs e => absurd rfl e) c
    rcases entries hr hs with ⟨-, h⟩ | ⟨-, -, h⟩ | ⟨-, -, h⟩ <;> rw [h]
    · rw [v3]; exact le (by linarith)
    · rw [v2]; exact le (by linarith)
    · rw [v1]; exact le hhi
  · refine regular_best (m := fun r => r / 3) (by norm_num) hk0.ne' hreg (fun r hr s hs e => ?_) (fun r hr s hs e => ?_) c
    · rcases entries hr hs with ⟨-, h⟩ | ⟨-, -, h⟩ | ⟨-, h', -⟩
      · rw [h, v3]; exact le (by linarith)
      · rw [h, v2]; exact le hhi
      · exact absurd e h'
    · rcases entries hr hs with ⟨h', -⟩ | ⟨-, h', -⟩ | ⟨-, -, h⟩
      · exact absurd (by rw [h']) e
      · exact absurd h' e
      · rw [h, v1]; exact le hlo
  · refine regular_best (m := id) (by norm_num) hk0.ne' hreg (fun r hr s hs e => ?_) (fun r hr s hs e => ?_) c
    · rcases entries hr hs with ⟨-, h⟩ | ⟨h', -⟩ | ⟨h', -⟩
      · rw [h, v3]; exact le hhi
      · exact absurd e h'
      · exact absurd e h'
    · rcases entries hr hs with ⟨h', -⟩ | ⟨-, -, h⟩ | ⟨-, -, h⟩
      · exact absurd h' e
      · rw [h, v2]; exact le hlo
      · rw [h, v1]; exact le (by linarith)
  · refine regular_best_strict (by norm_num) hk0.ne' hreg (fun r hr s hs e => ?_) (fun r hr s hs e => absurd rfl e) hlen hne
    rcases entries hr hs with ⟨-, h⟩ | ⟨-, -, h⟩ | ⟨-, -, h⟩ <;> rw [h]
    · rw [v3]; exact lt (by linarith)
    · rw [v2]; exact lt (by linarith)
    · rw [v1]; exact lt hhi
  · refine regular_best_strict (m := fun r => r / 3) (by norm_num) hk0.ne' hreg (fun r hr s hs e => ?_)
      (fun r hr s hs e => ?_) hlen hne
    · rcases entries hr hs with ⟨-, h⟩ | ⟨-, -, h⟩ | ⟨-, h', -⟩
      · rw [h, v3]; exact lt (by linarith)
      · rw [h, v2]; exact lt hhi
      · exact absurd e h'
    · rcases entries hr hs with ⟨h', -⟩ | ⟨-, h', -⟩ | ⟨-, -, h⟩
      · exact absurd (by rw [h']) e
      · exact absurd h' e
      · rw [h, v1]; exact lt hlo
  · refine regular_best_strict (m := id) (by norm_num) hk0.ne' hreg (fun r hr s hs e => ?_) (fun r hr s hs e => ?_) hlen hne
    · rcases entries hr hs with ⟨-, h⟩ | ⟨h', -⟩ | ⟨h', -⟩
      · rw [h, v3]; exact lt hhi
      · exact absurd e h'
      · exact absurd e h'
    · rcases entries hr hs with ⟨h', -⟩ | ⟨-, -, h⟩ | ⟨-, -, h⟩
      · exact absurd h' e
      · rw [h, v2]; exact lt hlo
      · rw [h, v1]; exact lt (by linarith)

theorem hierarchical_sums (hB : 0 < B) :
    2 * wInside (weightedEdgesOf (expectedNetwork 9 (hierarchicalPref (9 * B)) B)) (blockLabels 9 B id) = 54 * B - 54 ∧
    2 * wInside (weightedEdgesOf (expectedNetwork 9 (hierarchicalPref (9 * B)) B)) (blockLabels 9 B fun r => r / 3) =
      81 * B - 54 := by
  have hreg := hierarchical_regular hB
  have hB' : (B : ℝ) ≠ 0 := by exact_mod_cast hB.ne'
  have hd : ∑ r ∈ range 9, entry (hierarchicalPref (9 * B)) r r = 9 * hierarchicalP3 (9 * B) := by
    rw [sum_congr rfl fun r hr => (hierarchical_entry (mem_range.mp hr) (mem_range.mp hr)).trans (if_pos rfl),
      sum_const, card_range, nsmul_eq_mul]
    norm_num
  constructor
  · rw [expected_inside hreg.1, hd]
    have : ∀ r ∈ range 9, (∑ s ∈ range 9, if id r = id s then entry (hierarchicalPref (9 * B)) r s else 0) =
        hierarchicalP3 (9 * B) := by
      intro r hr
      simp only [id, sum_ite_eq, if_pos hr]
      exact (hierarchical_entry (mem_range.mp hr) (mem_range.mp hr)).trans (if_pos rfl)
    rw [sum_congr rfl this, sum_const, card_range, nsmul_eq_mul]
    unfold hierarchicalP3
    push_cast
    field_simp
    ring
  · rw [expected_inside hreg.1, hd]
    have : ∀ r ∈ range 9, (∑ s ∈ range 9, if (fun r => r / 3) r = (fun r => r / 3) s then entry (hierarchicalPref (9 * B)) r s else 0) =
        hierarchicalP3 (9 * B) + 2 * hierarchicalP2 (9 * B) := by
      intro r hr
      have h9 := mem_range.mp hr
      have e : ∀ s ∈ range 9, (if (fun r => r / 3) r = (fun r => r / 3) s then entry (hierarchicalPref (9 * B)) r s else 0) =
          if r / 3 = s / 3 then (if s = r then hierarchicalP3 (9 * B) else hierarchicalP2 (9 * B)) else 0 := by
        intro s hs
        simp only
        by_cases h : r / 3 = s / 3
        · rw [if_pos h, if_pos h, hierarchical_entry h9 (mem_range.mp hs)]
          by_cases h' : s = r
          · rw [if_pos h', if_pos h']
          · rw [if_neg h', if_neg h', if_pos h.symm]
        · rw [if_neg h, if_neg h]
      rw [sum_congr rfl e]
      clear e
      interval_cases r <;> simp [sum_range_succ] <;> ring
    rw [sum_congr rfl this, sum_const, card_range, nsmul_eq_mul]
    unfold hierarchicalP3 hierarchicalP2
    push_cast
    field_simp
    ring

theorem hierarchical_counts : (∑ r ∈ range 9, ∑ s ∈ range 9, if id r = id s then (1 : ℝ) else 0) = 9 ∧
    (∑ r ∈ range 9, ∑ s ∈ range 9, if (fun r => r / 3) r = (fun r => r / 3) s then (1 : ℝ) else 0) = 27 := by
  have h9 : (∑ r ∈ range 9, ∑ s ∈ range 9, if id r = id s then 1 else 0) = 9 := by decide
  have h3 : (∑ r ∈ range 9, ∑ s ∈ range 9, if (fun r => r / 3) r = (fun r => r / 3) s then 1 else 0) = 27 := by decide
  exact ⟨by exact_mod_cast h9, by exact_mod_cast h3⟩

/-- the estimates of the two ground truths -/
theorem hierarchical_estimates (hB : 0 < B) :
    estimateSinglelayerSBM (expectedNetwork 9 (hierarchicalPref (9 * B)) B) (groundTruth9 (9 * B)) none =
      .ok ((54 - 54 / B) / hierarchicalK B, 63 / 16 / hierarchicalK B) ∧
    estimateSinglelayerSBM (expectedNetwork 9 (hierarchicalPref (9 * B)) B) (groundTruth3 (9 * B)) none =
      .ok ((27 - 18 / B) / hierarchicalK B, 3 / 4 / hierarchicalK B) := by
  have hreg := hierarchical_regular hB
  have hk0 := (hierarchicalK_pos hB).ne'
  have hB' : (B : ℝ) ≠ 0 := by exact_mod_cast hB.ne'
  obtain ⟨i9, i3⟩ := hierarchical_sums hB
  obtain ⟨c9, c3⟩ := hierarchical_counts
  have hKB : 9 * B * hierarchicalK B = 171 / 2 * B - 54 := by unfold hierarchicalK; field_simp; ring
  rw [gt9_labels, gt3_labels]
  constructor
  · have p9 : 1 < partLen (blockLabels 9 B id) := by rw [partLen_blocks hB]; norm_num
    rw [regular_estimate hB (by norm_num) hk0 hreg p9 i9 c9 (by norm_num) (by norm_num)]
    congr 2
    · field_simp; push_cast; ring
    · push_cast
      rw [hKB, div_eq_div_iff (by positivity) hk0]; ring
  · have p3 : 1 < partLen (blockLabels 9 B fun r => r / 3) := by
      rw [partLen_contiguous (K := 3)]
      · norm_num
      · intro k
        rw [mem_blockLabels hB]
        constructor
        · rintro ⟨r, hr, rfl⟩; omega
        · intro hk; exact ⟨3 * k, by omega, by omega⟩
    rw [regular_estimate hB (by norm_num) hk0 hreg p3 i3 c3 (by norm_num) (by norm_num)]
    congr 2
    · field_simp; push_cast; ring
    · push_cast
      rw [hKB, div_eq_div_iff (by positivity) hk0]; ring

/-- **C88 (hierarchical model, stability).** For blocks of at least three vertices both ground truths are stable on the
expected network: their gamma estimates lie strictly inside the intervals in which they are the best partition
(`c88_hierarchical_best`), and all of this inside the script's window of resolutions.  For blocks of two vertices the ground
truth with nine communities is not stable. -/
theorem c88_hierarchical_stable {test : Graph ℝ → Bool} (hk : k = 19 / 2 - 6 / B) {G : Graph ℝ}
    (hG : G = expectedNetwork 9 (hierarchicalPref (9 * B)) B) (ht : test G = true) :
    (3 ≤ B → ∃ g3 g9, gammaEstimate test G (groundTruth3 (9 * B)) = .ok (some (.fin g3), G) ∧
      gammaEstimate test G (groundTruth9 (9 * B)) = .ok (some (.fin g9), G) ∧
      hierarchicalWindow.1 < 3 / 4 / k ∧ 3 / 4 / k < g3 ∧ g3 < 27 / 2 / k ∧ 27 / 2 / k < g9 ∧
      g9 < hierarchicalWindow.2 ∧ hierarchicalWindow.2 < 54 / k) ∧
    (B = 2 → ∃ g9, gammaEstimate test G (groundTruth9 (9 * B)) = .ok (some (.fin g9), G) ∧ g9 < 27 / 2 / k) := by
  have est : 2 ≤ B → ∀ {x y : ℝ} {c : List Nat}, c.length = 9 * B → 0 < x → 0 < y → y ≠ x →
      estimateSinglelayerSBM G c none = .ok (x / k, y / k) →
      gammaEstimate test G c = .ok (some (.fin (logMean x y / k)), G) := by
    intro h2 x y c hc hx hy hne he
    have hk0 : 0 < k := by rw [hk]; exact hierarchicalK_pos (by omega)
    rw [gammaEstimate_of ht (by rw [hc, hG]; rfl) he]
    have := ((c27_degenerate_estimates (x / k) (y / k)).2.2.1 (logMean x y / k)).mpr
      ⟨by positivity, by positivity, fun h => hne (by field_simp at h; exact h.symm), (logMean_smul hk0 hx hy).symm⟩
    rw [this]
  have hkd : k = hierarchicalK B := hk
  constructor
  · intro h3
    have hB3 : (3 : ℝ) ≤ B := by exact_mod_cast h3
    have hk0 : 0 < k := by rw [hkd]; exact hierarchicalK_pos (by omega)
    obtain ⟨e9, e3⟩ := hierarchical_estimates (B := B) (by omega)
    rw [← hkd, ← hG] at e9 e3
    have t1 : (54 : ℝ) / B ≤ 18 := by rw [div_le_iff₀ (by linarith)]; linarith
    have t2 : (18 : ℝ) / B ≤ 6 := by rw [div_le_iff₀ (by linarith)]; linarith
    have t3 : (6 : ℝ) / B ≤ 2 := by rw [div_le_iff₀ (by linarith)]; linarith
    have p1 : (0 : ℝ) < 54 / B := by positivity
    have p2 : (0 : ℝ) < 18 / B := by positivity
    have p3 : (0 : ℝ) < 6 / B := by positivity
    have l9 : (groundTruth9 (9 * B)).length = 9 * B := by simp [groundTruth9]
    have l3 : (groundTruth3 (9 * B)).length = 9 * B := by simp [groundTruth3]
    refine ⟨logMean (27 - 18 / B) (3 / 4) / k, logMean (54 - 54 / B) (63 / 16) / k,
      est (by omega) l3 (by linarith) (by norm_num) (by linarith) e3,
      est (by omega) l9 (by linarith) (by norm_num) (by linarith) e9, ?_, ?_, ?_, ?_, ?_, ?_⟩
    · show (0 : ℝ) < 3 / 4 / k
      positivity
    · rw [div_lt_div_iff_of_pos_right hk0]
      have := (logMean_between (a := 27 - 18 / (B : ℝ)) (b := 3 / 4) (by linarith) (by norm_num) (by linarith)).1
      rwa [min_eq_right (by linarith)] at this
    · rw [div_lt_div_iff_of_pos_right hk0]
      refine lt_of_le_of_lt (logMean_mono (a' := 27) (b' := 3 / 4) (by norm_num) (by linarith) (by linarith) le_rfl (by linarith)) ?_
      have := logMean_lt_arith (a := (27 : ℝ)) (b := 3 / 4) (by norm_num) (by norm_num)
      refine logMean_lt_of (n := 1) (k := 3) (by norm_num) (by norm_num) (by norm_num) (by norm_num) (by norm_num) (by norm_num)
    · rw [div_lt_div_iff_of_pos_right hk0]
      refine lt_of_lt_of_le ?_ (logMean_mono (a := 36) (b := 63 / 16) (by norm_num) (by norm_num) (by linarith) le_rfl (by norm_num))
      exact lt_logMean_of (n := 4) (k := 9) (by norm_num) (by norm_num) (by norm_num) (by norm_num) (by norm_num) (by norm_num)
    · show _ < (5 : ℝ) / 2
      rw [div_lt_iff₀ hk0, hk]
      rcases Nat.lt_or_ge B 4 with h | h
      · obtain rfl : B = 3 := by omega
        have : logMean (54 - 54 / ((3 : ℕ) : ℝ)) (63 / 16) < 15 := by
          norm_num
          exact logMean_lt_of (n := 5) (k := 11) (by norm_num) (by norm_num) (by norm_num) (by norm_num) (by norm_num) (by norm_num)
        norm_num at this ⊢
        linarith
      · have hB4 : (4 : ℝ) ≤ B := by exact_mod_cast h
        have t4 : (6 : ℝ) / B ≤ 3 / 2 := by rw [div_le_iff₀ (by linarith)]; linarith
        have : logMean (54 - 54 / (B : ℝ)) (63 / 16) < 20 := by
          refine lt_of_le_of_lt (logMean_mono (a' := 54) (b' := 63 / 16) (by norm_num) (by linarith) (by linarith) le_rfl (by linarith)) ?_
          exact logMean_lt_of (n := 5) (k := 13) (by norm_num) (by norm_num) (by norm_num) (by norm_num) (by norm_num) (by norm_num)
        linarith
    · show (5 : ℝ) / 2 < _
      rw [lt_div_iff₀ hk0, hk]
      linarith
  · rintro rfl
    obtain ⟨e9, -⟩ := hierarchical_estimates (B := 2) (by omega)
    rw [← hkd, ← hG] at e9
    have hk0 : 0 < k := by rw [hkd]; exact hierarchicalK_pos (by omega)
    refine ⟨_, est (by omega) (by simp [groundTruth9]) (by norm_num) (by norm_num) (by norm_num) e9, ?_⟩
    rw [div_lt_div_iff_of_pos_right hk0]
    norm_num
    exact logMean_lt_of (n := 10) (k := 19) (by norm_num) (by norm_num) (by norm_num) (by norm_num) (by norm_num) (by norm_num)

/-! ### The hypotheses are met -/

/-- the script's default `N = 450` gives blocks of 50 vertices -/
example : ∃ g3 g9 : ℝ, gammaEstimate (fun _ => true) (expectedNetwork 9 (hierarchicalPref (9 * 50)) 50) (groundTruth3 (9 * 50)) =
      .ok (some (.fin g3), expectedNetwork 9 (hierarchicalPref (9 * 50)) 50) ∧ 0 < g3 ∧ g3 < g9 := by
  obtain ⟨g3, g9, h1, h2, h3, h4, h5, h6, -⟩ :=
    (c88_hierarchical_stable (test := fun _ => true) (B := 50) rfl rfl rfl).1 (by norm_num)
  refine ⟨g3, g9, h1, lt_trans ?_ h4, h5.trans h6⟩
  norm_num

/-- a graph as required by the true gamma: two blocks of 250 vertices, 6000 (parallel) edges -/
example : ∃ t g : ℝ, newmanTrueGamma ⟨250 * 2, false, List.replicate (3000 * 2) (0, 1), none⟩ 2 = .ok t ∧ g < t := by
  obtain ⟨-, -, -, g, -, h⟩ := c88_newman_estimate (test := fun _ => true) (q := 2) (le_refl _) rfl
  obtain ⟨t, ht, hg, -⟩ := h ⟨250 * 2, false, List.replicate (3000 * 2) (0, 1), none⟩
    ⟨fun e he => by rw [List.eq_of_mem_replicate he]; decide, fun ws h => by cases h⟩ rfl (List.length_replicate ..)
  exact ⟨t, g, ht, hg⟩

end Verif.Props
