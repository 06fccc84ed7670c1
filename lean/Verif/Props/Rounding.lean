import Verif.Spec.Rounding
import Verif.Proofs.Champ2DFrom
import Verif.Props.Prune

/-!
# Property C123: `CHAMP_2D` with rounded coefficients
-/

namespace Verif.Props
open Verif Verif.Spec Finset

section
variable {α : Type} [DecidableEq α] {env : ChampEnv} {G : Graph ℝ} {parts : List (List α)} {A P : List ℝ} {γ₀ γf δ : ℝ}
  {ranges : List (ℝ × ℝ × List α)}

theorem zip_length (hc : CloseCoefs δ G parts A P) : (A.zip P).length = parts.length := by
  rw [List.length_zip, hc.1, hc.2.1, min_self]

theorem zip_get {i : Nat} {ap : ℝ × ℝ} (h : (A.zip P)[i]? = some ap) : A[i]? = some ap.1 ∧ P[i]? = some ap.2 := by
  obtain ⟨a, p⟩ := ap
  rw [List.getElem?_zip_eq_some] at h
  exact h

theorem close_pnn (hc : CloseCoefs δ G parts A P) : ∀ ap ∈ A.zip P, 0 ≤ ap.2 := by
  intro ap hap
  obtain ⟨i, hi⟩ := List.mem_iff_getElem?.mp hap
  obtain ⟨h1, h2⟩ := zip_get hi
  have hil : i < parts.length := by rw [← zip_length hc]; exact (List.getElem?_eq_some_iff.mp hi).1
  exact (hc.2.2 i _ _ _ (List.getElem?_eq_getElem hil) h1 h2).2.2

/-- the value computed for a partition is close to its modularity -/
theorem close_value (hc : CloseCoefs δ G parts A P) {i : Nat} {c : List α} {ap : ℝ × ℝ} (h1 : parts[i]? = some c)
    (h2 : (A.zip P)[i]? = some ap) (γ : ℝ) : |ap.1 - ap.2 * γ - modularity G γ c| ≤ slack δ G γ / 2 := by
  obtain ⟨hA, hP⟩ := zip_get h2
  obtain ⟨e1, e2, -⟩ := hc.2.2 i _ _ _ h1 hA hP
  rw [modularity_affine]
  have e : ap.1 - ap.2 * γ - (withinAdj G c - γ * withinNull G c) =
      (ap.1 - withinAdj G c) - γ * (ap.2 - withinNull G c) := by ring
  rw [e]
  refine (abs_sub _ _).trans ?_
  rw [abs_mul]
  have := mul_le_mul_of_nonneg_left e2 (abs_nonneg γ)
  unfold slack
  linarith

theorem close_get (hc : CloseCoefs δ G parts A P) {c : List α} (h : c ∈ parts) :
    ∃ (i : Nat) (ap : ℝ × ℝ), parts[i]? = some c ∧ (A.zip P)[i]? = some ap := by
  obtain ⟨i, hi⟩ := List.mem_iff_getElem?.mp h
  have : i < (A.zip P).length := by rw [zip_length hc]; exact (List.getElem?_eq_some_iff.mp hi).1
  exact ⟨i, _, hi, List.getElem?_eq_getElem this⟩

/-- **C123 (nearly optimal).** With coefficients that are off by at most `δ`, every returned range lies in the window and its
partition is, throughout the range, within `slack` of the best modularity of any input. -/
theorem c123_nearly_optimal (hq : ExactQhull env.qhull) (hc : CloseCoefs δ G parts A P)
    (h : champ2DFrom env parts A P γ₀ γf = (some (.ok ranges) : Option _)) :
    ∀ r ∈ ranges, γ₀ ≤ r.1 ∧ r.1 < r.2.1 ∧ r.2.1 ≤ γf ∧ r.2.2 ∈ parts ∧
      ∀ γ, r.1 ≤ γ → γ ≤ r.2.1 → ∀ c ∈ parts, modularity G γ c ≤ modularity G γ r.2.2 + slack δ G γ := by
  obtain ⟨-, keys, lo, hi, part, coef, -, hr, hk, -, -⟩ := champ2DFrom_facts hq rfl (zip_length hc) (close_pnn hc) h
  intro r hmem
  rw [hr, mem_pySortedBy] at hmem
  obtain ⟨j, hj, rfl⟩ := List.mem_map.mp hmem
  obtain ⟨h1, h2, h3, h4⟩ := hk j hj
  refine ⟨((h4 (lo j)).mp ⟨le_rfl, h3.le⟩).1.1, h3, ((h4 (hi j)).mp ⟨h3.le, le_rfl⟩).1.2, List.mem_of_getElem? h1,
    fun γ g1 g2 c hcp => ?_⟩
  obtain ⟨i, ap, hi1, hi2⟩ := close_get hc hcp
  have e1 := abs_le.mp (close_value hc hi1 hi2 γ)
  have e2 := abs_le.mp (close_value hc h1 h2 γ)
  have e3 := ((h4 γ).mp ⟨g1, g2⟩).2 ap (List.mem_of_getElem? hi2)
  simp only at e2 ⊢
  linarith [e1.1, e2.2]

/-- **C123 (tiling).** The ranges still tile the window exactly. -/
theorem c123_tiling (hq : ExactQhull env.qhull) (hc : CloseCoefs δ G parts A P)
    (h : champ2DFrom env parts A P γ₀ γf = (some (.ok ranges) : Option _)) :
    (ranges.head?.map fun r => r.1) = some γ₀ ∧ (ranges.getLast?.map fun r => r.2.1) = some γf ∧
      ranges.IsChain (fun r s => r.2.1 = s.1) := by
  obtain ⟨h1, h2, h3, -⟩ := champ2DFrom_tiling hq rfl (zip_length hc) (close_pnn hc) h
  exact ⟨h1, h2, h3⟩

/-- **C123 (clear optima).** A partition that beats all the others by more than the slack at a resolution inside the window is
returned, with a range that contains this resolution. -/
theorem c123_clear_optimum (hq : ExactQhull env.qhull) (hc : CloseCoefs δ G parts A P)
    (h : champ2DFrom env parts A P γ₀ γf = (some (.ok ranges) : Option _)) {c : List α} (hcp : c ∈ parts) {γ : ℝ}
    (h0 : γ₀ < γ) (hf : γ < γf)
    (hopt : ∀ c' ∈ parts, c' ≠ c → modularity G γ c' + slack δ G γ < modularity G γ c) :
    ∃ r ∈ ranges, r.1 ≤ γ ∧ γ ≤ r.2.1 ∧ r.2.2 = c := by
  obtain ⟨-, keys, lo, hi, part, coef, -, hr, hk, -, hcov⟩ := champ2DFrom_facts hq rfl (zip_length hc) (close_pnn hc) h
  obtain ⟨j, hj, hmax⟩ := hcov γ h0 hf
  obtain ⟨h1, h2, h3, h4⟩ := hk j hj
  obtain ⟨g1, g2⟩ := (h4 γ).mpr ⟨⟨h0.le, hf.le⟩, hmax⟩
  have hrm : (lo j, hi j, part j) ∈ ranges := by rw [hr, mem_pySortedBy]; exact List.mem_map.mpr ⟨j, hj, rfl⟩
  refine ⟨_, hrm, g1, g2, ?_⟩
  by_contra hne
  have := hopt _ (List.mem_of_getElem? h1) hne
  have := (c123_nearly_optimal hq hc h _ hrm).2.2.2.2 γ g1 g2 c hcp
  linarith

/-- **C123 (breakpoints).** Where one range ends and the next begins, the modularities of the two partitions differ by at most
the slack; if the slopes of their modularities differ, this is within `slack / |difference of the slopes|` of the resolution
where the modularities are equal. -/
theorem c123_breakpoints (hq : ExactQhull env.qhull) (hc : CloseCoefs δ G parts A P)
    (h : champ2DFrom env parts A P γ₀ γf = (some (.ok ranges) : Option _)) :
    ranges.IsChain fun r s => r.2.1 = s.1 ∧
      |modularity G s.1 r.2.2 - modularity G s.1 s.2.2| ≤ slack δ G s.1 ∧
      ∀ γ, modularity G γ r.2.2 = modularity G γ s.2.2 → withinNull G r.2.2 ≠ withinNull G s.2.2 →
        |s.1 - γ| ≤ slack δ G s.1 / |withinNull G r.2.2 - withinNull G s.2.2| := by
  have hmem : ∀ r ∈ ranges, _ := c123_nearly_optimal hq hc h
  have hch := (c123_tiling hq hc h).2.2
  rw [List.isChain_iff_getElem] at hch ⊢
  intro i hi
  have e := hch i hi
  obtain ⟨r1, r2, r3, r4, r5⟩ := hmem _ (List.getElem_mem (by omega : i < ranges.length))
  obtain ⟨s1, s2, s3, s4, s5⟩ := hmem _ (List.getElem_mem hi)
  have hd : |modularity G (ranges[i + 1]).1 (ranges[i]).2.2 - modularity G (ranges[i + 1]).1 (ranges[i + 1]).2.2| ≤
      slack δ G (ranges[i + 1]).1 := by
    have u := r5 (ranges[i + 1]).1 (by linarith) (by linarith) _ s4
    have v := s5 (ranges[i + 1]).1 le_rfl s2.le _ r4
    rw [abs_le]
    constructor <;> linarith
  refine ⟨e, hd, fun γ hγ hne => ?_⟩
  rw [le_div_iff₀ (abs_pos.mpr (sub_ne_zero.mpr hne)), ← abs_mul]
  refine le_trans (le_of_eq ?_) hd
  rw [← abs_neg]
  congr 1
  simp only [modularity_affine] at hγ ⊢
  linarith

end

/-! ### Rounding -/

section
variable {α : Type} [DecidableEq α] {env : ChampEnv} {G : Graph ℝ} {parts : List (List α)} {γ₀ γf u : ℝ} {fl : ℝ → ℝ}
  {st : Bool} {ranges : List (ℝ × ℝ × List α)}

/-- without rounding it is `CHAMP_2D` -/
theorem c123_exact (env : ChampEnv) (G : Graph ℝ) (parts : List (List α)) (γ₀ γf : ℝ) (st : Bool) :
    champ2DRounded id env G parts γ₀ γf st = champ2D env G parts γ₀ γf st := by
  unfold champ2DRounded champ2D champ2DFrom
  simp only [List.map_id]

theorem rounded_coefs (hu : 0 ≤ u) (hu1 : u ≤ 1) (hfl : RoundsWithin u fl) :
    CloseCoefs u G parts ((parts.map (withinAdj G)).map fl) ((parts.map (withinNull G)).map fl) := by
  refine ⟨by simp, by simp, fun i c a p h1 h2 h3 => ?_⟩
  rw [List.map_map, List.getElem?_map, h1] at h2 h3
  cases h2; cases h3
  have e1 := hfl (withinAdj G c)
  have e2 := hfl (withinNull G c)
  rw [abs_of_nonneg (Verif.withinAdj_nonneg G c)] at e1
  rw [abs_of_nonneg (withinNull_nonneg G c)] at e2
  refine ⟨e1.trans (mul_le_mul_of_nonneg_left (withinAdj_le G c) hu),
    e2.trans (mul_le_mul_of_nonneg_left (withinNull_le G c) hu), ?_⟩
  have := mul_le_mul_of_nonneg_right hu1 (withinNull_nonneg G c)
  have := (abs_le.mp e2).1
  simp only [Function.comp]
  linarith

theorem rounded_from (he : SoundEnv env) (hG : G.WF) (hp : ∀ c ∈ parts, c.length = G.vcount) (hne : parts ≠ [])
    (h : champ2DRounded fl env G parts γ₀ γf st = (some (.ok ranges) : Option _)) :
    champ2DFrom env parts ((parts.map (withinAdj G)).map fl) ((parts.map (withinNull G)).map fl) γ₀ γf =
      (some (.ok ranges) : Option _) := by
  unfold champ2DRounded at h
  rw [if_neg fun h0 => hne (List.length_eq_zero_iff.mp h0), Run.bind_ok] at h
  obtain ⟨AP, hAP, h⟩ := h
  rw [Run.bind_ok] at h
  obtain ⟨P, hP, h⟩ := h
  rw [Run.ofPy_ok] at hP
  obtain ⟨-, hA, hPn⟩ := champ2D_coefs hG hp hne (Or.inr ⟨he.rounding, he.sched⟩) hAP hP
  rwa [hA, hPn] at h

/-- **C123 (rounding).** With all coefficients rounded, `CHAMP_2D` returns ranges that tile the window, each with an input
partition whose modularity is, throughout the range, within `2 u (1 + |γ|)` times the total of the best of all inputs. -/
theorem c123_rounded (he : SoundEnv env) (hu : 0 ≤ u) (hu1 : u ≤ 1) (hfl : RoundsWithin u fl) (hG : G.WF)
    (hp : ∀ c ∈ parts, c.length = G.vcount) (hne : parts ≠ [])
    (h : champ2DRounded fl env G parts γ₀ γf st = (some (.ok ranges) : Option _)) :
    (ranges.head?.map fun r => r.1) = some γ₀ ∧ (ranges.getLast?.map fun r => r.2.1) = some γf ∧
    ranges.IsChain (fun r s => r.2.1 = s.1) ∧
    ∀ r ∈ ranges, r.1 < r.2.1 ∧ r.2.2 ∈ parts ∧ ∀ γ, r.1 ≤ γ → γ ≤ r.2.1 → ∀ c ∈ parts,
      modularity G γ c ≤ modularity G γ r.2.2 + 2 * (u * (1 + |γ|) * total G) := by
  have hc := rounded_coefs (G := G) (parts := parts) hu hu1 hfl
  have hr := rounded_from he hG hp hne h
  obtain ⟨h1, h2, h3⟩ := c123_tiling he.qhull hc hr
  refine ⟨h1, h2, h3, fun r hrm => ?_⟩
  obtain ⟨-, g2, -, g4, g5⟩ := c123_nearly_optimal he.qhull hc hr r hrm
  exact ⟨g2, g4, g5⟩

/-- **C123 (rounding, clear optima).** A partition that is better than all others by more than this is not lost. -/
theorem c123_rounded_keeps (he : SoundEnv env) (hu : 0 ≤ u) (hu1 : u ≤ 1) (hfl : RoundsWithin u fl) (hG : G.WF)
    (hp : ∀ c ∈ parts, c.length = G.vcount)
    (h : champ2DRounded fl env G parts γ₀ γf st = (some (.ok ranges) : Option _)) {c : List α} (hcp : c ∈ parts) {γ : ℝ}
    (h0 : γ₀ < γ) (hf : γ < γf)
    (hopt : ∀ c' ∈ parts, c' ≠ c → modularity G γ c' + 2 * (u * (1 + |γ|) * total G) < modularity G γ c) :
    ∃ r ∈ ranges, r.1 ≤ γ ∧ γ ≤ r.2.1 ∧ r.2.2 = c :=
  c123_clear_optimum he.qhull (rounded_coefs hu hu1 hfl) (rounded_from he hG hp (List.ne_nil_of_mem hcp) h) hcp h0 hf hopt

/-- distinct null-model coefficients differ by at least one over the total -/
theorem null_gap (hG : G.WF) (hm : 0 < G.ecount) {p q : List α} (hp : p.length = G.vcount) (hq : q.length = G.vcount)
    (hne : withinNull G p ≠ withinNull G q) : 1 / (total G : ℝ) ≤ |withinNull G p - withinNull G q| := by
  have hT : (0 : ℝ) < total G := by
    have : 0 < total G := by rw [total_eq (F := ℝ) hG]; split <;> omega
    exact_mod_cast this
  have hint : ∀ r : List α, ∃ n : Nat, withinNull G r = n / (total G : ℝ) := by
    intro r
    refine ⟨∑ i ∈ range G.vcount, ∑ j ∈ range G.vcount, if r[i]? = r[j]? then colSum G i * rowSum G j else 0, ?_⟩
    unfold withinNull
    push_cast
    rw [Finset.sum_div]
    refine Finset.sum_congr rfl fun i _ => ?_
    rw [Finset.sum_div]
    refine Finset.sum_congr rfl fun j _ => ?_
    split <;> simp
  obtain ⟨a, ha⟩ := hint p
  obtain ⟨b, hb⟩ := hint q
  rw [ha, hb] at hne ⊢
  rw [← sub_div, abs_div, abs_of_pos hT]
  refine div_le_div_of_nonneg_right ?_ hT.le
  have hab : (a : ℤ) - b ≠ 0 := by
    intro h0
    have : (a : ℤ) = b := by omega
    apply hne
    have : (a : ℝ) = b := by exact_mod_cast this
    rw [this]
  have := Int.one_le_abs hab
  exact_mod_cast this

/-- **C123 (rounding, breakpoints).** Every breakpoint between two partitions with different slopes is within
`2 u (1 + γ) total²` of the resolution where their modularities are equal. -/
theorem c123_rounded_breakpoints (he : SoundEnv env) (hu : 0 ≤ u) (hu1 : u ≤ 1) (hfl : RoundsWithin u fl) (hG : G.WF)
    (hm : 0 < G.ecount) (hp : ∀ c ∈ parts, c.length = G.vcount) (hne : parts ≠ [])
    (h : champ2DRounded fl env G parts γ₀ γf st = (some (.ok ranges) : Option _)) :
    ranges.IsChain fun r s => r.2.1 = s.1 ∧ ∀ γ, modularity G γ r.2.2 = modularity G γ s.2.2 →
      withinNull G r.2.2 ≠ withinNull G s.2.2 → |s.1 - γ| ≤ 2 * (u * (1 + |s.1|) * (total G : ℝ) ^ 2) := by
  have hc := rounded_coefs (G := G) (parts := parts) hu hu1 hfl
  have hr := rounded_from he hG hp hne h
  have hmem : ∀ r ∈ ranges, _ := c123_nearly_optimal he.qhull hc hr
  have hT : (0 : ℝ) < total G := by
    have : 0 < total G := by rw [total_eq (F := ℝ) hG]; split <;> omega
    exact_mod_cast this
  have hch := c123_breakpoints he.qhull hc hr
  rw [List.isChain_iff_getElem] at hch ⊢
  intro i hi
  obtain ⟨e1, -, e3⟩ := hch i hi
  refine ⟨e1, fun γ hγ hn => (e3 γ hγ hn).trans ?_⟩
  have hr4 := (hmem _ (List.getElem_mem (by omega : i < ranges.length))).2.2.2.1
  have hs4 := (hmem _ (List.getElem_mem hi)).2.2.2.1
  have gap := null_gap hG hm (hp _ hr4) (hp _ hs4) hn
  have hpos : 0 < |withinNull G (ranges[i]).2.2 - withinNull G (ranges[i + 1]).2.2| := lt_of_lt_of_le (by positivity) gap
  rw [div_le_iff₀ hpos]
  have hs : slack u G (ranges[i + 1]).1 = 2 * (u * (1 + |(ranges[i + 1]).1|) * (total G : ℝ) ^ 2) * (1 / total G) := by
    unfold slack; field_simp
  rw [hs]
  exact mul_le_mul_of_nonneg_left gap (by positivity)

theorem from_returns (he : ExactEnv env) {A P : List ℝ} {L : List (ℝ × ℝ)} (hzip : A.zip P = L)
    (hlen : L.length = parts.length) (hPpos : ∀ ap ∈ L, 0 < ap.2) (hne : parts ≠ []) (hγ : γ₀ < γf) :
    ∃ ranges, champ2DFrom env parts A P γ₀ γf = (some (.ok ranges) : Option _) := by
  have hLne : L ≠ [] := by
    intro h; rw [h] at hlen; exact hne (List.length_eq_zero_iff.mp hlen.symm)
  obtain ⟨at', hat, hatm⟩ := exists_max_list L (fun ap => ap.1 - ap.2 * γ₀) hLne
  obtain ⟨ab, hab, habm⟩ := exists_max_list L (fun ap => -(ap.1 - ap.2 * γf)) hLne
  have htop : pyMax (L.map fun ap => ap.1 - ap.2 * γ₀) = .ok (at'.1 - at'.2 * γ₀) := by
    rw [pyMax_ok]
    refine ⟨List.mem_map.mpr ⟨at', hat, rfl⟩, fun x hx => ?_⟩
    obtain ⟨ap, hap, rfl⟩ := List.mem_map.mp hx
    exact hatm ap hap
  have hbot : pyMin (L.map fun ap => ap.1 - ap.2 * γf) = .ok (ab.1 - ab.2 * γf) := by
    rw [pyMin_ok]
    refine ⟨List.mem_map.mpr ⟨ab, hab, rfl⟩, fun x hx => ?_⟩
    obtain ⟨ap, hap, rfl⟩ := List.mem_map.mp hx
    have := habm ap hap
    linarith
  refine (champ2DFrom_run he hzip hlen htop hbot).1 ?_
  set g := (γ₀ + γf) / 2 with hg
  obtain ⟨am, ham, hamm⟩ := exists_max_list L (fun ap => ap.1 - ap.2 * g) hLne
  have h1 : am.1 - am.2 * g < at'.1 - at'.2 * γ₀ := by
    have e1 := hatm am ham
    have e2 := mul_lt_mul_of_pos_left (show γ₀ < g by rw [hg]; linarith) (hPpos am ham)
    linarith
  have h2 : ab.1 - ab.2 * γf < am.1 - am.2 * g := by
    have e1 := hamm ab hab
    have e2 := mul_lt_mul_of_pos_left (show g < γf by rw [hg]; linarith) (hPpos ab hab)
    linarith
  refine ⟨![g, ((am.1 - am.2 * g) + (at'.1 - at'.2 * γ₀)) / 2], ?_⟩
  rw [interior2D]
  simp only [Matrix.cons_val_zero, Matrix.cons_val_one]
  refine ⟨fun ap hap => ?_, by linarith, by linarith, by rw [hg]; linarith, by rw [hg]; linarith⟩
  have := hamm ap hap
  linarith

/-- **C123 (rounding).** With exact linear programming it returns whenever the exact computation is known to (C17). -/
theorem c123_rounded_returns (he : ExactEnv env) (hu1 : u < 1) (hfl : RoundsWithin u fl) (hG : G.WF)
    (hd : G.directed = false) (hm : 0 < G.ecount) (hp : ∀ c ∈ parts, c.length = G.vcount) (hne : parts ≠ []) (hγ : γ₀ < γf)
    (st : Bool) : ∃ ranges, champ2DRounded fl env G parts γ₀ γf st = (some (.ok ranges) : Option _) := by
  obtain ⟨ranges, h⟩ := from_returns (A := (parts.map (withinAdj G)).map fl) (P := (parts.map (withinNull G)).map fl) he rfl
    (by simp) (fun ap hap => by
      rw [List.map_map, List.map_map, List.zip_map'] at hap
      obtain ⟨c, hc, rfl⟩ := List.mem_map.mp hap
      have hpos := withinNull_pos hG hd hm (hp c hc)
      have := (abs_le.mp (hfl (withinNull G c))).1
      rw [abs_of_pos hpos] at this
      have := mul_lt_mul_of_pos_right hu1 hpos
      simp only [Function.comp]
      linarith) hne hγ
  refine ⟨ranges, ?_⟩
  unfold champ2DRounded
  rw [if_neg fun h0 => hne (List.length_eq_zero_iff.mp h0), Run.bind_ok]
  refine ⟨(_, _), serial_to_driver he.toSoundEnv (coefficients2D_ok hG hm hp), ?_⟩
  rw [Run.bind_ok]
  refine ⟨parts.map (withinNull G), ?_, h⟩
  rw [Run.ofPy_ok, requireFinite_ok, List.map_map]; rfl

end

/-! ### Concrete cases -/

/-- chopping everything to one part in a thousand below -/
theorem chop_rounds : RoundsWithin (1 / 1000) fun x => x * (999 / 1000) := by
  intro x
  rw [show x * (999 / 1000) - x = -(1 / 1000 * x) by ring, abs_neg, abs_mul, abs_of_pos (by norm_num : (0 : ℝ) < 1 / 1000)]

/-- three partitions of a small graph, coefficients rounded to three digits: at resolution 1 the partition into two
communities is still found -/
example : ∃ ranges, champ2DRounded (fun x => x * (999 / 1000)) exactEnv gReal threeParts 0 2 false =
      (some (.ok ranges) : Option _) ∧ ∃ r ∈ ranges, r.1 ≤ 1 ∧ 1 ≤ r.2.1 ∧ r.2.2 = [7, 7, 2, 2, 2] := by
  obtain ⟨r, h⟩ := c123_rounded_returns (u := 1 / 1000) exactEnv_exact (by norm_num) chop_rounds gReal_wf rfl (by decide)
    (by decide : ∀ p ∈ threeParts, p.length = gReal.vcount) (by decide) (by norm_num : (0 : ℝ) < 2) false
  refine ⟨r, h, c123_rounded_keeps exactEnv_exact.toSoundEnv (by norm_num) (by norm_num) chop_rounds gReal_wf (by decide) h
    (by decide) (by norm_num) (by norm_num) ?_⟩
  obtain ⟨hA, hP, hA1, hP1, hA0, hP0⟩ := gReal_coefs
  have hT : total gReal = 10 := by rw [total_eq (F := ℝ) gReal_wf]; decide
  intro c hc hne
  simp only [threeParts, List.mem_cons, List.not_mem_nil, or_false] at hc
  rw [hT]
  rcases hc with rfl | rfl | rfl
  · rw [modularity_affine, modularity_affine, hA, hP, hA1, hP1]; norm_num
  · exact absurd rfl hne
  · rw [modularity_affine, modularity_affine, hA, hP, hA0, hP0]; norm_num

end Verif.Props
