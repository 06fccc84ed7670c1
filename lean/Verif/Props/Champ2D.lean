import Verif.Proofs.Champ2DMore

/-!
# Properties C17–C20: `CHAMP_2D`

`SoundEnv env`: exact halfspace intersection, arbitrary LP solver and sampler, any worker count and any complete
schedule.  `modularity` is the matrix definition of `Verif.Spec.Modularity`.
-/

namespace Verif.Props
open Verif Verif.Spec

variable {α : Type} [DecidableEq α] {env : ChampEnv} {G : Graph ℝ} {parts : List (List α)} {γ₀ γf : ℝ} {st : Bool}
  {ranges : List (ℝ × ℝ × List α)}

/-- **C17.** Every returned range is a non-degenerate interval inside the window, its partition is one of the inputs, and
the interval is *exactly* the set of resolutions of the window at which that partition is optimal among the inputs. -/
theorem c17_ranges_correct (he : SoundEnv env) (hG : G.WF) (hp : ∀ c ∈ parts, c.length = G.vcount)
    (h : champ2D env G parts γ₀ γf st = (some (.ok ranges) : Option _)) :
    ∀ r ∈ ranges, γ₀ ≤ r.1 ∧ r.1 < r.2.1 ∧ r.2.1 ≤ γf ∧ r.2.2 ∈ parts ∧
      ∀ γ, (r.1 ≤ γ ∧ γ ≤ r.2.1) ↔
        (γ₀ ≤ γ ∧ γ ≤ γf) ∧ ∀ c ∈ parts, modularity G γ c ≤ modularity G γ r.2.2 := by
  by_cases hne : parts = []
  · subst hne
    have : champ2D env G ([] : List (List α)) γ₀ γf st = (some (.ok []) : Option _) := rfl
    rw [this] at h
    cases h
    simp
  obtain ⟨hγ, -, keys, lo, hi, part, hnd, hr, hk, hdist, hcov⟩ :=
    champ2D_facts he.qhull hG hp hne (Or.inr ⟨he.rounding, he.sched⟩) h
  intro r hmem
  rw [hr, mem_pySortedBy] at hmem
  obtain ⟨j, hj, rfl⟩ := List.mem_map.mp hmem
  obtain ⟨h1, h2, h3⟩ := hk j hj
  exact ⟨((h3 (lo j)).mp ⟨le_refl _, h2.le⟩).1.1, h2, ((h3 (hi j)).mp ⟨h2.le, le_refl _⟩).1.2,
    List.mem_of_getElem? h1, h3⟩

/-- **C17.** With exact LP solving, an undirected graph with an edge, at least one partition and a non-empty window:
`CHAMP_2D` returns. -/
theorem c17_returns (he : ExactEnv env) (hG : G.WF) (hd : G.directed = false) (hm : 0 < G.ecount)
    (hp : ∀ c ∈ parts, c.length = G.vcount) (hne : parts ≠ []) (hγ : γ₀ < γf) (st : Bool) :
    ∃ ranges, champ2D env G parts γ₀ γf st = (some (.ok ranges) : Option _) := by
  have hLne : coefs2D G parts ≠ [] := by
    intro h; exact hne (List.map_eq_nil_iff.mp h)
  have hPpos : ∀ ap ∈ coefs2D G parts, 0 < ap.2 := by
    intro ap hap
    obtain ⟨c, hc, rfl⟩ := List.mem_map.mp hap
    exact withinNull_pos hG hd hm (hp c hc)
  obtain ⟨at', hat, hatm⟩ := exists_max_list (coefs2D G parts) (fun ap => ap.1 - ap.2 * γ₀) hLne
  obtain ⟨ab, hab, habm⟩ := exists_max_list (coefs2D G parts) (fun ap => -(ap.1 - ap.2 * γf)) hLne
  have htop : pyMax ((coefs2D G parts).map fun ap => ap.1 - ap.2 * γ₀) = .ok (at'.1 - at'.2 * γ₀) := by
    rw [pyMax_ok]
    refine ⟨List.mem_map.mpr ⟨at', hat, rfl⟩, fun x hx => ?_⟩
    obtain ⟨ap, hap, rfl⟩ := List.mem_map.mp hx
    exact hatm ap hap
  have hbot : pyMin ((coefs2D G parts).map fun ap => ap.1 - ap.2 * γf) = .ok (ab.1 - ab.2 * γf) := by
    rw [pyMin_ok]
    refine ⟨List.mem_map.mpr ⟨ab, hab, rfl⟩, fun x hx => ?_⟩
    obtain ⟨ap, hap, rfl⟩ := List.mem_map.mp hx
    have := habm ap hap
    linarith
  refine (champ2D_from_coefs he hG hm hp hne htop hbot).1 ?_
  set g := (γ₀ + γf) / 2 with hg
  obtain ⟨am, ham, hamm⟩ := exists_max_list (coefs2D G parts) (fun ap => ap.1 - ap.2 * g) hLne
  have h1 : am.1 - am.2 * g < at'.1 - at'.2 * γ₀ := by
    have e1 := hatm am ham
    have e2 := mul_lt_mul_of_pos_left (show γ₀ < g by rw [hg]; linarith) (hPpos am ham)
    linarith
  have h2 : ab.1 - ab.2 * γf < am.1 - am.2 * g := by
    have e1 := hamm ab hab
    have e2 := mul_lt_mul_of_pos_left (show g < γf by rw [hg]; linarith) (hPpos ab hab)
    linarith
  refine ⟨![g, ((am.1 - am.2 * g) + (at'.1 - at'.2 * γ₀)) / 2], ?_⟩
  rw [interior2D]
  simp only [Matrix.cons_val_zero, Matrix.cons_val_one]
  refine ⟨fun ap hap => ?_, by linarith, by linarith, by rw [hg]; linarith, by rw [hg]; linarith⟩
  have := hamm ap hap
  linarith

/-- **C17.** An empty window (`gamma_0 ≥ gamma_f`) always raises `ValueError`. -/
theorem c17_empty_window_raises (he : ExactEnv env) (hG : G.WF) (hm : 0 < G.ecount)
    (hp : ∀ c ∈ parts, c.length = G.vcount) (hne : parts ≠ []) (hγ : γf ≤ γ₀) (st : Bool) :
    ∃ msg, champ2D env G parts γ₀ γf st = (some (.error (.valueError msg)) : Option _) := by
  have hLne : coefs2D G parts ≠ [] := by
    intro h; exact hne (List.map_eq_nil_iff.mp h)
  obtain ⟨at', hat, hatm⟩ := exists_max_list (coefs2D G parts) (fun ap => ap.1 - ap.2 * γ₀) hLne
  obtain ⟨ab, hab, habm⟩ := exists_max_list (coefs2D G parts) (fun ap => -(ap.1 - ap.2 * γf)) hLne
  have htop : pyMax ((coefs2D G parts).map fun ap => ap.1 - ap.2 * γ₀) = .ok (at'.1 - at'.2 * γ₀) := by
    rw [pyMax_ok]
    refine ⟨List.mem_map.mpr ⟨at', hat, rfl⟩, fun x hx => ?_⟩
    obtain ⟨ap, hap, rfl⟩ := List.mem_map.mp hx
    exact hatm ap hap
  have hbot : pyMin ((coefs2D G parts).map fun ap => ap.1 - ap.2 * γf) = .ok (ab.1 - ab.2 * γf) := by
    rw [pyMin_ok]
    refine ⟨List.mem_map.mpr ⟨ab, hab, rfl⟩, fun x hx => ?_⟩
    obtain ⟨ap, hap, rfl⟩ := List.mem_map.mp hx
    have := habm ap hap
    linarith
  refine (champ2D_from_coefs he hG hm hp hne htop hbot).2 ?_
  rintro ⟨x, hx⟩
  obtain ⟨-, -, -, h1, h2⟩ := interior2D.mp hx
  linarith

/-- **C18.** Every resolution of the closed window lies in some returned range; the partition returned with that range
attains the best modularity among all inputs there. -/
theorem c18_ranges_cover (he : SoundEnv env) (hG : G.WF) (hp : ∀ c ∈ parts, c.length = G.vcount) (hne : parts ≠ [])
    (h : champ2D env G parts γ₀ γf st = (some (.ok ranges) : Option _)) {γ : ℝ} (h0 : γ₀ ≤ γ) (hf : γ ≤ γf) :
    ∃ r ∈ ranges, r.1 ≤ γ ∧ γ ≤ r.2.1 ∧ ∀ c ∈ parts, modularity G γ c ≤ modularity G γ r.2.2 := by
  have hsound := c17_ranges_correct he hG hp h
  suffices hs : ∃ r ∈ ranges, r.1 ≤ γ ∧ γ ≤ r.2.1 by
    obtain ⟨r, hr, h1, h2⟩ := hs
    exact ⟨r, hr, h1, h2, (((hsound r hr).2.2.2.2 γ).mp ⟨h1, h2⟩).2⟩
  obtain ⟨hγ, -, keys, lo, hi, part, hnd, hr, hk, hdist, hcov⟩ :=
    champ2D_facts he.qhull hG hp hne (Or.inr ⟨he.rounding, he.sched⟩) h
  obtain ⟨t1, t2, -, -⟩ := champ2D_tiling he hG hp hne h
  rcases eq_or_lt_of_le h0 with rfl | h0
  · obtain ⟨r, hr', e⟩ := Option.map_eq_some_iff.mp t1
    have hm := List.mem_of_head? hr'
    exact ⟨r, hm, e.le, by have := (hsound r hm).2.1; linarith⟩
  rcases eq_or_lt_of_le hf with rfl | hf
  · obtain ⟨r, hr', e⟩ := Option.map_eq_some_iff.mp t2
    have hm := List.mem_of_getLast? hr'
    exact ⟨r, hm, by have := (hsound r hm).2.1; linarith, e.ge⟩
  obtain ⟨j, hj, hopt⟩ := hcov γ h0 hf
  exact ⟨_, by rw [hr, mem_pySortedBy]; exact List.mem_map.mpr ⟨j, hj, rfl⟩,
    ((hk j hj).2.2 γ).mpr ⟨⟨h0.le, hf.le⟩, hopt⟩⟩

/-- **C19.** The returned ranges are a sorted tiling of the window: the first starts at `gamma_0`, the last ends at
`gamma_f`, each starts exactly where the previous one ends. -/
theorem c19_sorted_tiling (he : SoundEnv env) (hG : G.WF) (hp : ∀ c ∈ parts, c.length = G.vcount) (hne : parts ≠ [])
    (h : champ2D env G parts γ₀ γf st = (some (.ok ranges) : Option _)) :
    (ranges.head?.map fun r => r.1) = some γ₀ ∧ (ranges.getLast?.map fun r => r.2.1) = some γf ∧
      ranges.IsChain (fun r s => r.2.1 = s.1) ∧ ranges.Pairwise fun r s => r.1 < s.1 := by
  obtain ⟨h1, h2, h3, h4⟩ := champ2D_tiling he hG hp hne h
  refine ⟨h1, h2, h3, ?_⟩
  refine List.Pairwise.imp_of_mem ?_ h4
  intro r s hr hs hrs
  have := (c17_ranges_correct he hG hp h r hr).2.1
  linarith

/-- **C20.** No input position is returned twice, and two returned partitions never have the same modularity at every
resolution. -/
theorem c20_no_duplicates (he : SoundEnv env) (hG : G.WF) (hp : ∀ c ∈ parts, c.length = G.vcount)
    (h : champ2D env G parts γ₀ γf st = (some (.ok ranges) : Option _)) :
    (∃ pos : List Nat, pos.Nodup ∧ List.Forall₂ (fun j r => parts[j]? = some r.2.2) pos ranges) ∧
      ranges.Pairwise fun r s => ∃ γ, modularity G γ r.2.2 ≠ modularity G γ s.2.2 := by
  by_cases hne : parts = []
  · subst hne
    have : champ2D env G ([] : List (List α)) γ₀ γf st = (some (.ok []) : Option _) := rfl
    rw [this] at h
    cases h
    exact ⟨⟨[], List.nodup_nil, List.Forall₂.nil⟩, List.Pairwise.nil⟩
  obtain ⟨hγ, -, keys, lo, hi, part, hnd, hr, hk, hdist, hcov⟩ :=
    champ2D_facts he.qhull hG hp hne (Or.inr ⟨he.rounding, he.sched⟩) h
  have hmap : (pySortedBy lo keys).map (fun j => (lo j, hi j, part j)) = ranges := by
    rw [hr]
    unfold pySortedBy
    exact List.map_insertionSort _ _ _ _ fun _ _ _ _ => Iff.rfl
  have hperm := pySortedBy_perm lo keys
  constructor
  · refine ⟨pySortedBy lo keys, hperm.nodup_iff.mpr hnd, ?_⟩
    rw [← hmap, List.forall₂_map_right_iff, List.forall₂_same]
    intro j hj
    exact (hk j (hperm.mem_iff.mp hj)).1
  · rw [← hmap, List.pairwise_map]
    refine List.Pairwise.imp_of_mem ?_ (hperm.nodup_iff.mpr hnd)
    intro j k hj hk' hjk
    by_contra hc
    push Not at hc
    refine hdist j (hperm.mem_iff.mp hj) k (hperm.mem_iff.mp hk') hjk ?_
    have e0 := hc 0
    have e1 := hc 1
    simp only [modularity_affine] at e0 e1
    constructor <;> linarith

/-- **C20.** A returned partition beats, at every interior resolution of its range, every input whose modularity differs
from its own somewhere. -/
theorem c20_returned_strictly_optimal (he : SoundEnv env) (hG : G.WF) (hp : ∀ c ∈ parts, c.length = G.vcount)
    (h : champ2D env G parts γ₀ γf st = (some (.ok ranges) : Option _)) :
    ∀ r ∈ ranges, ∀ γ, r.1 < γ → γ < r.2.1 → ∀ c ∈ parts,
      (∃ γ', modularity G γ' c ≠ modularity G γ' r.2.2) → modularity G γ c < modularity G γ r.2.2 := by
  intro r hr γ g1 g2 c hc hdiff
  obtain ⟨-, hlt, -, -, hiff⟩ := c17_ranges_correct he hG hp h r hr
  by_contra hle
  push Not at hle
  obtain ⟨γ', hγ'⟩ := hdiff
  apply hγ'
  have l := ((hiff r.1).mp ⟨le_refl _, hlt.le⟩).2 c hc
  have u := ((hiff r.2.1).mp ⟨hlt.le, le_refl _⟩).2 c hc
  simp only [modularity_affine] at l u hle ⊢
  obtain ⟨e1, e2⟩ := same_of_touch l u g1 g2 hle
  rw [e1, e2]

/-- **C20.** An input that is, at some resolution of the window, strictly better than every input whose modularity
differs from its own somewhere is returned, or an input with the same modularity everywhere is, in a range containing
that resolution. -/
theorem c20_strictly_optimal_returned (he : SoundEnv env) (hG : G.WF) (hp : ∀ c ∈ parts, c.length = G.vcount)
    (h : champ2D env G parts γ₀ γf st = (some (.ok ranges) : Option _)) {c : List α} (hc : c ∈ parts) {γ : ℝ}
    (h0 : γ₀ ≤ γ) (hf : γ ≤ γf)
    (hopt : ∀ c' ∈ parts, (∃ γ', modularity G γ' c' ≠ modularity G γ' c) → modularity G γ c' < modularity G γ c) :
    ∃ r ∈ ranges, r.1 ≤ γ ∧ γ ≤ r.2.1 ∧ ∀ γ', modularity G γ' r.2.2 = modularity G γ' c := by
  obtain ⟨r, hr, h1, h2, h3⟩ := c18_ranges_cover he hG hp (List.ne_nil_of_mem hc) h h0 hf
  refine ⟨r, hr, h1, h2, ?_⟩
  by_contra hne
  push Not at hne
  have := hopt r.2.2 (c17_ranges_correct he hG hp h r hr).2.2.2.1 hne
  have := h3 c hc
  linarith

/-! ### Witnesses -/

/-- An environment meeting every contract. -/
noncomputable def exactEnv : ChampEnv where
  sample := fun _ _ m => List.range m
  linprog := exactSolver
  qhull := exactQhull
  cpu := 3
  rnd := fun a b => a / b
  sched := [2, 0, 1]

theorem exactEnv_exact : ExactEnv exactEnv where
  qhull := exactQhull_exact
  workers := by decide
  rounding := ⟨fun a a' h => Nat.div_le_div_right h, fun k => Nat.mul_div_cancel k (by decide)⟩
  sched := by
    intro i hi
    have hi : i < 3 := hi
    show i ∈ [2, 0, 1]
    interval_cases i <;> simp
  linprog := exactSolver_exact
  sample := range_samples

/-- A square with a pendant edge, over the reals. -/
def gReal : Graph ℝ := ⟨5, false, [(0, 1), (1, 2), (2, 3), (3, 0), (3, 4)], none⟩
theorem gReal_wf : gReal.WF := ⟨by decide, by intro ws h; cases h⟩

example : ∃ ranges, champ2D exactEnv gReal [[0, 0, 0, 0, 0], [0, 0, 1, 1, 1], [0, 1, 2, 3, 4]] 0 2 false =
    (some (.ok ranges) : Option _) :=
  c17_returns exactEnv_exact gReal_wf rfl (by decide) (by decide) (by decide) (by norm_num) _

/-- One directed edge. -/
def gEdge : Graph ℝ := ⟨2, true, [(0, 1)], none⟩
theorem gEdge_wf : gEdge.WF := ⟨by decide, by intro ws h; cases h⟩

/-- **C17 (limit of `c17_returns`).** The hypothesis `directed = false` matters: on the directed graph with the single
edge `0 → 1`, the partition into singletons has `A_hat = P_hat = 0`, the feasible region is flat, and `CHAMP_2D` raises
`ValueError` on every window, although that partition is (trivially) optimal everywhere. -/
theorem c17_directed_singletons_raise (he : ExactEnv env) (st : Bool) (γ₀ γf : ℝ) :
    ∃ msg, champ2D env gEdge [[0, 1]] γ₀ γf st = (some (.error (.valueError msg)) : Option _) := by
  have hA : withinAdj gEdge ([0, 1] : List Nat) = 0 := by
    simp [withinAdj, gEdge, adj, Finset.sum_range_succ]
  have hN : withinNull gEdge ([0, 1] : List Nat) = 0 := by
    simp [withinNull, gEdge, adj, colSum, rowSum, Finset.sum_range_succ]
  have hL : coefs2D gEdge ([[0, 1]] : List (List Nat)) = [(0, 0)] := by
    simp [coefs2D, hA, hN]
  refine (champ2D_from_coefs (top := 0) (bottom := 0) he gEdge_wf (by decide) (by decide) (by simp) ?_ ?_).2 ?_
  · rw [hL, pyMax_ok]; simp
  · rw [hL, pyMin_ok]; simp
  · rintro ⟨x, hx⟩
    obtain ⟨-, h1, h2, -⟩ := interior2D.mp hx
    linarith

end Verif.Props
