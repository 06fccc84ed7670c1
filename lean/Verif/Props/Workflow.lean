import Verif.Spec.Workflow
import Verif.Props.Drivers
import Verif.Props.FixedPoint
import Verif.Props.Lfr

/-!
# C94: what the documented workflow guarantees

`repeated_parallel_leiden_from_gammas` (or its multilayer analogue) followed by pruning.
-/

set_option linter.unusedSectionVars false

namespace Verif.Props
open Verif Verif.Spec

variable {x y : Execution} {G G' G'' : Graph ℝ} {gammas : List (Fl ℝ)} {γ₀ γf : ℝ} {restrict : Option Nat}
  {st st' : Bool} {out out' : List (List Nat)}

/-- The two steps of a run that returned. -/
theorem workflow_steps (hx : SoundExecution x gammas.length)
    (h : findAndPrune x G gammas γ₀ γf restrict st = (some (.ok (out, G')) : Option _)) :
    ∃ S found, RunsFound x G gammas found ∧ (∀ c, c ∈ S ↔ ∃ d ∈ found, canon d = c) ∧
      (∀ d ∈ found, d.length = G.vcount) ∧
      pruneToStable x.prune G (.memberships (x.iterate S)) γ₀ γf restrict st = (some (.ok (out, G')) : Option _) := by
  unfold findAndPrune at h
  obtain ⟨S, hS, h2⟩ := Run.bind_ok.mp h
  obtain ⟨found, hf, hc⟩ := (c51_parallel G gammas x.cpu x.workers hx.order S).mp (Run.ofPy_ok.mp hS)
  refine ⟨S, found, hf, canonicalSetOf_iff.mp hc, ?_, h2⟩
  intro d hd
  obtain ⟨j, hj⟩ := List.getElem?_of_mem hd
  have hlt : j < gammas.length := by
    rw [← hf.1]; exact (List.getElem?_eq_some_iff.mp hj).1
  have := hx.produces.1 _ _ _ _ (hf.2 j gammas[j] d (List.getElem?_eq_getElem hlt) hj)
  rw [this, (defaulted_shape x.leiden.test G).1]

/-- The candidates of pruning are the partitions found, in canonical form. -/
theorem workflow_candidate (hx : SoundExecution x gammas.length) {S : Finset (List Nat)} {found : List (List Nat)}
    (hS : ∀ c, c ∈ S ↔ ∃ d ∈ found, canon d = c) (p : List Nat) :
    Candidate (x.iterate S) restrict p ↔ ∃ d, Candidate found restrict d ∧ canon d = p := by
  constructor
  · rintro ⟨hp, hK⟩
    obtain ⟨d, hd, rfl⟩ := (hS p).mp ((hx.iterate S p).mp hp)
    exact ⟨d, ⟨hd, fun K h => by rw [← dedup_length_same (canon_same d)]; exact hK K h⟩, rfl⟩
  · rintro ⟨d, ⟨hd, hK⟩, rfl⟩
    exact ⟨(hx.iterate S _).mpr ((hS _).mpr ⟨d, hd, rfl⟩),
      fun K h => by rw [dedup_length_same (canon_same d)]; exact hK K h⟩

/-- **C94 (what is returned).** Whatever the number of processors, the state of the workers, the order in which their
results arrive, the order of the set, the LP solver and the sampler: every returned partition was found by one of the runs
(and has the requested number of communities), and at its own gamma estimate, which lies in the window, none of the
partitions found (with that number of communities) is better. -/
theorem c94_sound (hx : SoundExecution x gammas.length) (hG : G.WF)
    (h : findAndPrune x G gammas γ₀ γf restrict st = (some (.ok (out, G')) : Option _)) :
    ∃ found, RunsFound x G gammas found ∧ ∀ c ∈ out, FirstAppearanceOrder c ∧
      (∃ d, Candidate found restrict d ∧ SamePartition c d) ∧
      ∃ γ, gammaEstimate x.prune.test G c = .ok (some (.fin γ), G') ∧ γ₀ ≤ γ ∧ γ ≤ γf ∧
        ∀ q, Candidate found restrict q → modularity G γ q ≤ modularity G γ c := by
  obtain ⟨S, found, hf, hS, hlen, h2⟩ := workflow_steps hx h
  have hp : ∀ p ∈ x.iterate S, p.length = G.vcount := by
    intro p hp
    obtain ⟨d, hd, rfl⟩ := (hS p).mp ((hx.iterate S p).mp hp)
    rw [canon_length]; exact hlen d hd
  refine ⟨found, hf, fun c hc => ?_⟩
  obtain ⟨⟨p, hpc, hpr⟩, γ, hg, h0, h1, hb⟩ := c38_sound hx.prune hG hp h2 c hc
  rw [sortedTuple_eq] at hpr
  obtain rfl := Except.ok.inj hpr
  obtain ⟨d, hd, hdp⟩ := (workflow_candidate hx hS p).mp hpc
  refine ⟨canon_firstAppearance p, ⟨d, hd, ?_⟩, γ, hg, h0, h1, fun q hq => ?_⟩
  · exact (canon_same p).trans (hdp ▸ canon_same d)
  · rw [← modularity_canon (hlen q hq.1)]
    exact hb _ ((workflow_candidate hx hS _).mpr ⟨q, hq, rfl⟩)

theorem workflow_deterministic (hx : SoundExecution x gammas.length) (hy : SoundExecution y gammas.length)
    (hl : x.leiden = y.leiden) (hdet : Deterministic x.leiden) {found found' : List (List Nat)}
    (hf : RunsFound x G gammas found) (hf' : RunsFound y G gammas found') : found = found' := by
  refine List.ext_getElem? fun j => ?_
  by_cases hj : j < gammas.length
  · have a1 : j < found.length := by rw [hf.1]; exact hj
    have a2 : j < found'.length := by rw [hf'.1]; exact hj
    have e1 := hf.2 j _ _ (List.getElem?_eq_getElem hj) (List.getElem?_eq_getElem a1)
    have e2 := hf'.2 j _ _ (List.getElem?_eq_getElem hj) (List.getElem?_eq_getElem a2)
    simp only [← hl] at e1 e2
    rw [hdet.1 _ ((x.workers (j / poolChunkSize x.cpu gammas.length)).calls +
      j % poolChunkSize x.cpu gammas.length), e1] at e2
    rw [List.getElem?_eq_getElem a1, List.getElem?_eq_getElem a2, Except.ok.inj e2]
  · rw [List.getElem?_eq_none (by rw [hf.1]; omega), List.getElem?_eq_none (by rw [hf'.1]; omega)]

/-- **C94 (reproducible).** With an optimiser without randomness any two executions – with different numbers of processors,
histories of the workers, completion orders, set orders, LP solvers, samplers and threading – return the same partitions,
if the partitions found that differ have different modularity. -/
theorem c94_schedule (hx : SoundExecution x gammas.length) (hy : SoundExecution y gammas.length)
    (hl : x.leiden = y.leiden) (hdet : Deterministic x.leiden) (hG : G.WF)
    (hdist : ∀ found, RunsFound x G gammas found → ∀ p ∈ found, ∀ q ∈ found, SameModularity G p q → SamePartition p q)
    (h : findAndPrune x G gammas γ₀ γf restrict st = (some (.ok (out, G')) : Option _))
    (h' : findAndPrune y G gammas γ₀ γf restrict st' = (some (.ok (out', G'')) : Option _)) :
    ∀ c, c ∈ out ↔ c ∈ out' := by
  obtain ⟨S, found, hf, hS, hlen, h2⟩ := workflow_steps hx h
  obtain ⟨S', found', hf', hS', hlen', h2'⟩ := workflow_steps hy h'
  obtain rfl := workflow_deterministic hx hy hl hdet hf hf'
  obtain rfl : S = S' := by ext c; rw [hS, hS']
  have hp : ∀ p ∈ x.iterate S, p.length = G.vcount := by
    intro p hp
    obtain ⟨d, hd, rfl⟩ := (hS p).mp ((hx.iterate S p).mp hp)
    rw [canon_length]; exact hlen d hd
  have hmem : ∀ p, p ∈ x.iterate S ↔ p ∈ y.iterate S := fun p => (hx.iterate S p).trans (hy.iterate S p).symm
  refine c40_labels_duplicates_order hx.prune hy.prune (by rw [hx.test, hy.test, hl]) hG hp
    (fun p h => hp p ((hmem p).mpr h)) (fun p h => ⟨p, (hmem p).mp h, rfl, fun _ _ _ _ => Iff.rfl⟩)
    (fun p h => ⟨p, (hmem p).mpr h, rfl, fun _ _ _ _ => Iff.rfl⟩) ?_ h2 h2'
  intro p q hpc hqc hs
  obtain ⟨d, hd, rfl⟩ := (workflow_candidate hx hS p).mp hpc
  obtain ⟨e, he, rfl⟩ := (workflow_candidate hx hS q).mp hqc
  have := hdist found hf d hd.1 e he.1 fun γ => by
    rw [← modularity_canon (hlen d hd.1), hs γ, modularity_canon (hlen e he.1)]
  rw [(canon_eq_iff d e).mpr this]
  exact ⟨rfl, fun _ _ _ _ => Iff.rfl⟩

/-- **C94 (reproducible, unweighted graphs).** On an unweighted undirected graph no condition on the partitions found is
needed: each partition returned by one execution has a counterpart returned by the other with exactly the same modularity at
every resolution. -/
theorem c94_schedule_unweighted (hx : SoundExecution x gammas.length) (hy : SoundExecution y gammas.length)
    (hl : x.leiden = y.leiden) (hdet : Deterministic x.leiden) (hG : G.WF) (hd : G.directed = false) (hm : 0 < G.ecount)
    (hw : CountsAsUnweighted x.leiden.test G)
    (h : findAndPrune x G gammas γ₀ γf restrict st = (some (.ok (out, G')) : Option _))
    (h' : findAndPrune y G gammas γ₀ γf restrict st' = (some (.ok (out', G'')) : Option _)) :
    ∀ c ∈ out, ∃ c' ∈ out', SameModularity G c c' := by
  obtain ⟨S, found, hf, hS, hlen, h2⟩ := workflow_steps hx h
  obtain ⟨S', found', hf', hS', hlen', h2'⟩ := workflow_steps hy h'
  obtain rfl := workflow_deterministic hx hy hl hdet hf hf'
  obtain rfl : S = S' := by ext c; rw [hS, hS']
  have hp : ∀ p ∈ x.iterate S, p.length = G.vcount := by
    intro p hp
    obtain ⟨d, hd, rfl⟩ := (hS p).mp ((hx.iterate S p).mp hp)
    rw [canon_length]; exact hlen d hd
  have hmem : ∀ p, p ∈ x.iterate S ↔ p ∈ y.iterate S := fun p => (hx.iterate S p).trans (hy.iterate S p).symm
  exact c40_up_to_coefficients hx.prune hy.prune (by rw [hx.test, hy.test, hl]) hG hd hm (by rw [hx.test]; exact hw) hp
    (fun p h => hp p ((hmem p).mpr h)) (fun p h => ⟨p, (hmem p).mp h, rfl, fun _ _ _ _ => Iff.rfl⟩)
    (fun p h => ⟨p, (hmem p).mpr h, rfl, fun _ _ _ _ => Iff.rfl⟩) h2 h2'

/-- **C94 (the workflow completes).** If Leiden returns for every gamma, the LP solver is exact, the graph is undirected, every
vertex has an edge and the weights igraph reports are positive, then the workflow returns; nothing is raised. -/
theorem c94_returns (hx : SoundExecution x gammas.length) (hex : ExactEnv x.prune.toChampEnv)
    (hfind : ∀ i, ∀ γ ∈ gammas, ∃ c, x.leiden.findPartition i (defaulted x.leiden.test G) γ = .ok c) (hG : G.WF)
    (hd : G.directed = false) (hv : 0 < G.vcount) (hiso : ∀ v < G.vcount, ∃ e ∈ G.edges, e.1 = v ∨ e.2 = v)
    (hw : x.leiden.test G = true → ∃ ws, G.weight = some ws ∧ ∀ w ∈ ws, 0 < w) (hγ : γ₀ < γf) :
    ∃ out G', findAndPrune x G gammas γ₀ γf restrict st = (some (.ok (out, G')) : Option _) := by
  classical
  choose! f hf using hfind
  let found : List (List Nat) := gammas.zipIdx.map fun gj =>
    f ((x.workers (gj.2 / poolChunkSize x.cpu gammas.length)).calls + gj.2 % poolChunkSize x.cpu gammas.length) gj.1
  have hfound : RunsFound x G gammas found := by
    refine ⟨by simp [found], ?_⟩
    intro j γ c hj hc
    simp only [found, List.getElem?_map, List.getElem?_zipIdx, hj, Option.map_some, Option.some.injEq, Nat.zero_add] at hc
    rw [← hc]
    exact hf _ _ (List.mem_of_getElem? hj)
  have hS : CanonicalSetOf (found.map canon).toFinset found := by
    rw [canonicalSetOf_iff]
    intro c
    simp
  have h1 := (c51_parallel G gammas x.cpu x.workers hx.order _).mpr ⟨found, hfound, hS⟩
  have hp : ∀ p ∈ x.iterate (found.map canon).toFinset, p.length = G.vcount := by
    intro p hp
    have := (hx.iterate _ p).mp hp
    simp only [List.mem_toFinset, List.mem_map] at this
    obtain ⟨d, hd, rfl⟩ := this
    obtain ⟨j, hj⟩ := List.getElem?_of_mem hd
    have hlt : j < gammas.length := by
      rw [← hfound.1]; exact (List.getElem?_eq_some_iff.mp hj).1
    have := hx.produces.1 _ _ _ _ (hfound.2 j gammas[j] d (List.getElem?_eq_getElem hlt) hj)
    rw [canon_length, this, (defaulted_shape x.leiden.test G).1]
  obtain ⟨out, G', h2⟩ := c39_returns hx.prune hex hG hd hv hiso (by rw [hx.test]; exact hw) hp hγ restrict st
  exact ⟨out, G', Run.bind_ok.mpr ⟨_, Run.ofPy_ok.mpr h1, h2⟩⟩

/-! ## How much a finite grid can miss -/

/-- **C94 (the grid).** `np.linspace(lo, hi, n)` with `n ≥ 2` points covers `[lo, hi]` with spacing `(hi - lo) / (n - 1)`. -/
theorem c94_linspace {lo hi : ℝ} {n : Nat} (hlt : lo < hi) (hn : 2 ≤ n) :
    CoversInterval (linspace lo hi n) lo hi ((hi - lo) / ((n : ℝ) - 1)) := by
  have hn1 : (0 : ℝ) < (n : ℝ) - 1 := by
    have : (2 : ℝ) ≤ n := by exact_mod_cast hn
    linarith
  set h := (hi - lo) / ((n : ℝ) - 1) with hh
  have hpos : 0 < h := div_pos (by linarith) hn1
  have hmem : ∀ i < n, lo + (i : ℝ) * h ∈ linspace lo hi n := fun i hi' =>
    List.mem_map.mpr ⟨i, List.mem_range.mpr hi', rfl⟩
  have hend : lo + ((n : ℝ) - 1) * h = hi := by rw [hh]; field_simp; ring
  intro γ h0 h1
  have hq : 0 ≤ (γ - lo) / h := div_nonneg (by linarith) hpos.le
  have hqn : (γ - lo) / h ≤ (n : ℝ) - 1 := by
    rw [div_le_iff₀ hpos]; linarith
  have e : (γ - lo) / h * h = γ - lo := div_mul_cancel₀ _ hpos.ne'
  rcases lt_or_ge ⌊(γ - lo) / h⌋₊ (n - 1) with hk | hk
  · refine ⟨_, hmem ⌊(γ - lo) / h⌋₊ (by omega), _, hmem (⌊(γ - lo) / h⌋₊ + 1) (by omega), ?_, ?_, ?_⟩
    · have := mul_le_mul_of_nonneg_right (Nat.floor_le hq) hpos.le
      rw [e] at this; linarith
    · have := mul_le_mul_of_nonneg_right (Nat.lt_floor_add_one ((γ - lo) / h)).le hpos.le
      rw [e] at this; push_cast; linarith
    · push_cast; linarith
  · have hge : ((n : ℝ) - 1) ≤ (γ - lo) / h := by
      refine le_trans ?_ (Nat.floor_le hq)
      have : ((n - 1 : Nat) : ℝ) ≤ (⌊(γ - lo) / h⌋₊ : ℝ) := by exact_mod_cast hk
      rw [Nat.cast_sub (by omega)] at this
      simpa using this
    have hγ : γ = lo + ((n - 1 : Nat) : ℝ) * h := by
      rw [Nat.cast_sub (by omega), Nat.cast_one, hend]
      have := mul_le_mul_of_nonneg_right hge hpos.le
      rw [e] at this; linarith
    exact ⟨_, hmem (n - 1) (by omega), _, hmem (n - 1) (by omega), hγ.ge, hγ.le, by simpa using hpos.le⟩

theorem workflow_foundAt {grid : List ℝ} {found : List (List Nat)} (hf : RunsFound x G (grid.map .fin) found) {a : ℝ}
    (ha : a ∈ grid) : ∃ i, ∃ c ∈ found, x.leiden.findPartition i (defaulted x.leiden.test G) (.fin a) = .ok c := by
  obtain ⟨j, hj⟩ := List.getElem?_of_mem ha
  have hlt : j < found.length := by
    rw [hf.1, List.length_map]; exact (List.getElem?_eq_some_iff.mp hj).1
  exact ⟨_, found[j], List.getElem_mem _, hf.2 j (.fin a) _ (by rw [List.getElem?_map, hj]; rfl)
    (List.getElem?_eq_getElem hlt)⟩

/-- A line that lies below two lines at the ends of an interval of length at most `h` exceeds both inside it by at most
`h / 4` times the difference of slopes. -/
theorem chord_gap {a b γ h m A₁ P₁ A₂ P₂ A P T : ℝ} (h1 : a ≤ γ) (h2 : γ ≤ b) (hab : b - a ≤ h) (hP1 : P₁ ≤ T)
    (hP2 : 0 ≤ P₂) (hT : 0 ≤ T) (ha : A - a * P ≤ A₁ - a * P₁) (hb : A - b * P ≤ A₂ - b * P₂) (hm1 : A₁ - γ * P₁ ≤ m)
    (hm2 : A₂ - γ * P₂ ≤ m) : A - γ * P ≤ m + h / 4 * T := by
  rcases eq_or_lt_of_le (h1.trans h2) with hab0 | hlt
  · have e1 : γ = a := le_antisymm (by rw [hab0]; exact h2) h1
    subst e1
    have : 0 ≤ h / 4 * T := mul_nonneg (by linarith) hT
    linarith
  · have hd : 0 < b - a := by linarith
    have key : (b - a) * (A - γ * P) ≤ (b - a) * m + (γ - a) * (b - γ) * (P₁ - P₂) := by
      nlinarith [mul_le_mul_of_nonneg_left ha (sub_nonneg.mpr h2), mul_le_mul_of_nonneg_left hb (sub_nonneg.mpr h1),
        mul_le_mul_of_nonneg_left hm1 (sub_nonneg.mpr h2), mul_le_mul_of_nonneg_left hm2 (sub_nonneg.mpr h1)]
    have h3 : (γ - a) * (b - γ) ≤ (b - a) * (h / 4) := by
      nlinarith [sq_nonneg ((γ - a) - (b - γ)), mul_le_mul_of_nonneg_left hab hd.le]
    have h4 : (γ - a) * (b - γ) * (P₁ - P₂) ≤ (b - a) * (h / 4) * T := by
      have h0 : 0 ≤ (γ - a) * (b - γ) := mul_nonneg (by linarith) (by linarith)
      calc _ ≤ (γ - a) * (b - γ) * T := mul_le_mul_of_nonneg_left (by linarith) h0
        _ ≤ _ := mul_le_mul_of_nonneg_right h3 hT
    have : (b - a) * (A - γ * P) ≤ (b - a) * (m + h / 4 * T) := by linarith
    exact le_of_mul_le_mul_left this hd

/-- **C94 (near-optimal among all partitions).** If Leiden is ideal and the grid of gammas covers the window with spacing at
most `h`, then every returned partition is nearly optimal among *all* partitions of the vertices at its own gamma estimate:
none has a modularity larger by more than `h / 4` times the total of the adjacency matrix. -/
theorem c94_gap {grid : List ℝ} (hx : SoundExecution x grid.length) (hG : G.WF) (hid : IdealLeiden x.leiden G) {h : ℝ}
    (hcov : CoversInterval grid γ₀ γf h)
    (hrun : findAndPrune x G (grid.map .fin) γ₀ γf none st = (some (.ok (out, G')) : Option _)) :
    ∀ c ∈ out, ∃ γ, gammaEstimate x.prune.test G c = .ok (some (.fin γ), G') ∧ γ₀ ≤ γ ∧ γ ≤ γf ∧
      ∀ q : List Nat, q.length = G.vcount → modularity G γ q ≤ modularity G γ c + h / 4 * total G := by
  obtain ⟨found, hf, hs⟩ := c94_sound (by rw [List.length_map]; exact hx) hG hrun
  intro c hc
  obtain ⟨-, -, γ, hg, h0, h1, hb⟩ := hs c hc
  refine ⟨γ, hg, h0, h1, fun q hq => ?_⟩
  obtain ⟨a, ha, b, hb', haγ, hγb, hab⟩ := hcov γ h0 h1
  obtain ⟨i, ca, hca, hfa⟩ := workflow_foundAt hf ha
  obtain ⟨j, cb, hcb, hfb⟩ := workflow_foundAt hf hb'
  have ea := hid i a ca hfa q hq
  have eb := hid j b cb hfb q hq
  have ma := hb ca ⟨hca, by intro K h; cases h⟩
  have mb := hb cb ⟨hcb, by intro K h; cases h⟩
  simp only [modularity_affine] at ea eb ma mb ⊢
  exact chord_gap haγ hγb hab (withinNull_le G ca) (withinNull_nonneg G cb) (Nat.cast_nonneg _) ea eb ma mb

/-- **C94 (the documented grid).** With an ideal Leiden and `np.linspace(gamma_start, gamma_end, n)` (1000 points in the
documentation) every returned partition is within `(gamma_end - gamma_start) / (4 (n - 1))` of the largest possible
normalised modularity at its own gamma estimate. -/
theorem c94_documented {n : Nat} (hn : 2 ≤ n) (hγ : γ₀ < γf) (hx : SoundExecution x n) (hG : G.WF)
    (hid : IdealLeiden x.leiden G)
    (hrun : findAndPrune x G ((linspace γ₀ γf n).map .fin) γ₀ γf none st = (some (.ok (out, G')) : Option _)) :
    ∀ c ∈ out, ∃ γ, gammaEstimate x.prune.test G c = .ok (some (.fin γ), G') ∧ γ₀ ≤ γ ∧ γ ≤ γf ∧
      ∀ q : List Nat, q.length = G.vcount →
        modularity G γ q ≤ modularity G γ c + (γf - γ₀) / ((n : ℝ) - 1) / 4 * total G :=
  c94_gap (by rw [linspace_length]; exact hx) hG hid (c94_linspace hγ hn) hrun

/-- **C94 (complete).** If Leiden is ideal, a partition that is strictly best among all partitions at its own gamma estimate,
which lies strictly inside the window, and at some gamma of the grid, is returned – up to a partition with exactly the same
modularity at every resolution (unweighted undirected graphs). -/
theorem c94_complete {grid : List ℝ} (hx : SoundExecution x grid.length) (hG : G.WF) (hd : G.directed = false)
    (hm : 0 < G.ecount) (hw : CountsAsUnweighted x.leiden.test G) (hid : IdealLeiden x.leiden G)
    (hrun : findAndPrune x G (grid.map .fin) γ₀ γf none st = (some (.ok (out, G')) : Option _)) {p : List Nat}
    (hp : p.length = G.vcount) {γ : ℝ} (hest : HasEstimate x.leiden.test G p γ) (h0 : γ₀ < γ) (h1 : γ < γf)
    (hbest : StrictlyBest G γ p) {g : ℝ} (hg : g ∈ grid) (hgb : StrictlyBest G g p) : ∃ c ∈ out, SameModularity G p c := by
  have hx' : SoundExecution x (grid.map Fl.fin).length := by rw [List.length_map]; exact hx
  obtain ⟨S, found, hf, hS, hlen, h2⟩ := workflow_steps hx' hrun
  obtain ⟨i, c, hc, hfc⟩ := workflow_foundAt hf hg
  have hsame : SameModularity G c p := by
    by_contra hne
    exact absurd (hid i g c hfc p hp) (not_le.mpr (hgb c (hlen c hc) hne))
  have hpl : ∀ q ∈ x.iterate S, q.length = G.vcount := by
    intro q hq
    obtain ⟨d, hd, rfl⟩ := (hS q).mp ((hx.iterate S q).mp hq)
    rw [canon_length]; exact hlen d hd
  have hcc : SameModularity G (canon c) p := fun γ => by rw [modularity_canon (hlen c hc), hsame γ]
  have hcand : Candidate (x.iterate S) none (canon c) :=
    (workflow_candidate hx' hS _).mpr ⟨c, ⟨hc, by intro K h; cases h⟩, rfl⟩
  rw [← hx.test] at hest hw
  obtain ⟨o, ho, hso⟩ := c39_complete hx.prune hG hd hm hw hpl h2 hcand
    ((same_estimates hG hd hm hw (hpl _ hcand.1) hp hcc).mpr hest) h0 h1 fun q hq hne => by
      rw [hcc γ]
      exact hbest q (hpl q hq.1) fun hs => hne fun γ' => by rw [hs γ', hcc γ']
  exact ⟨o, ho, fun γ' => by rw [← hcc γ', hso γ']⟩

/-- **C94 (complete: wide ranges are not missed).** If Leiden is ideal and the grid covers the window with spacing `h`, then
every partition that is strictly best at its own gamma estimate, which lies strictly inside the window, and whose range of
optimality inside the window is at least `h` long (strictly best at `u` and at `v ≥ u + h`), is returned up to a partition
with the same modularity at every resolution. -/
theorem c94_complete_range {grid : List ℝ} (hx : SoundExecution x grid.length) (hG : G.WF) (hd : G.directed = false)
    (hm : 0 < G.ecount) (hw : CountsAsUnweighted x.leiden.test G) (hid : IdealLeiden x.leiden G) {h : ℝ}
    (hcov : CoversInterval grid γ₀ γf h)
    (hrun : findAndPrune x G (grid.map .fin) γ₀ γf none st = (some (.ok (out, G')) : Option _)) {p : List Nat}
    (hp : p.length = G.vcount) {γ : ℝ} (hest : HasEstimate x.leiden.test G p γ) (h0 : γ₀ < γ) (h1 : γ < γf)
    (hbest : StrictlyBest G γ p) {u v : ℝ} (hu : γ₀ ≤ u) (hv : v ≤ γf) (huv : u + h ≤ v) (hub : StrictlyBest G u p)
    (hvb : StrictlyBest G v p) : ∃ c ∈ out, SameModularity G p c := by
  by_cases hle : u ≤ v
  · obtain ⟨a, -, b, hb, hau, hub', hab⟩ := hcov u hu (hle.trans hv)
    refine c94_complete hx hG hd hm hw hid hrun hp hest h0 h1 hbest hb fun q hq hne => ?_
    have e1 := hub q hq hne
    have e2 := hvb q hq hne
    simp only [modularity_affine] at e1 e2 ⊢
    have hbv : b ≤ v := by linarith
    rcases eq_or_lt_of_le hle with he | hlt
    · obtain rfl : b = u := le_antisymm (by rw [he]; exact hbv) hub'
      exact e1
    · have : (v - u) * (withinAdj G q - b * withinNull G q) < (v - u) * (withinAdj G p - b * withinNull G p) := by
        rcases eq_or_lt_of_le hub' with he | hlt'
        · rw [← he]; exact mul_lt_mul_of_pos_left e1 (by linarith)
        · nlinarith [mul_le_mul_of_nonneg_left e1.le (sub_nonneg.mpr hbv), mul_lt_mul_of_pos_left e2 (sub_pos.mpr hlt')]
      exact lt_of_mul_lt_mul_left this (by linarith)
  · exfalso
    obtain ⟨a, -, b, -, h3, h4, h5⟩ := hcov γ h0.le h1.le
    linarith

/-- **C94 (exact optimisation is ideal).** If leidenalg maximises its documented quality exactly, it is ideal on every graph
that counts as unweighted. -/
theorem c94_exact_is_ideal {env : LeidenEnv} (hp : ProducesPartitions env) (hG : G.WF)
    (hw : UnitWeights (defaulted env.test G)) (hx : ExactLeiden env (defaulted env.test G)) : IdealLeiden env G := by
  have hs := defaulted_shape env.test G
  have hWF : (defaulted env.test G).WF := by
    refine ⟨by rw [hs.1, hs.2.1]; exact hG.1, ?_⟩
    intro ws h
    rw [hw] at h
    obtain rfl := Option.some.inj h
    simp
  intro i γ c hc q hq
  have := c78_exact_leiden (α := Nat) (method := "leiden") hp hWF hw (Or.inl rfl) hx i γ c
    (by unfold maximiser; rw [if_neg (by decide)]; exact hc) q (by rw [hs.1]; exact hq)
  rwa [modularity_defaulted, modularity_defaulted] at this

/-! ## Multilayer networks -/

variable {Gi Gx : Graph ℝ} {layers : List Nat} {model : String} {omegas : List ℝ} {W : Window}
  {heaps heaps' : Nat → Nat → Graph ℝ}

theorem multilayerOutcome_length {env : LeidenEnv} (hp : ProducesPartitions env) {i : Nat} {p : Fl ℝ × ℝ} {c : List Nat}
    (h : multilayerOutcome env Gi Gx layers i p = .ok c) : c.length = Gx.vcount := by
  unfold multilayerOutcome at h
  split at h
  · rename_i Gs _
    exact hp.2 _ _ _ _ h Gx 0 (Or.inr (by simp [multiplexProblem]))
  · cases h

theorem workflow_steps_multilayer (hx : SoundExecution x (gammas.length * omegas.length)) (hk : HealthyWorkers x Gi heaps)
    (hM : Multilayer Gi Gx layers)
    (h : findAndPruneMultilayer x Gi Gx layers model gammas omegas W.γ₀ W.γf W.ω₀ W.ωf restrict =
      (some (.ok (out, G')) : Option _)) :
    ∃ S found, RunsFoundMultilayer x Gi Gx layers gammas omegas found ∧ (∀ c, c ∈ S ↔ ∃ d ∈ found, canon d = c) ∧
      (∀ d ∈ found, d.length = Gi.vcount) ∧
      pruneToMultilayerStable x.prune Gi Gx layers model (.memberships (x.iterate S)) W.γ₀ W.γf W.ω₀ W.ωf restrict false =
        (some (.ok (out, G')) : Option _) := by
  unfold findAndPruneMultilayer at h
  obtain ⟨S, hS, h2⟩ := Run.bind_ok.mp h
  obtain ⟨found, hf, hc⟩ := (c51_multilayer_parallel hk.contents hk.reachable hk.graph Gx layers gammas omegas x.cpu hx.order
    S).mp (Run.ofPy_ok.mp hS)
  refine ⟨S, found, hf, canonicalSetOf_iff.mp hc, ?_, h2⟩
  intro d hd
  obtain ⟨j, hj⟩ := List.getElem?_of_mem hd
  have hlt : j < (gridPoints gammas omegas).length := by
    rw [← hf.1]; exact (List.getElem?_eq_some_iff.mp hj).1
  have := multilayerOutcome_length hx.produces (hf.2 j _ d (List.getElem?_eq_getElem hlt) hj)
  rw [this, (defaulted_shape x.leiden.test Gx).1, hM.vcount]

theorem workflow_candidate' {S : Finset (List Nat)} (hit : ∀ c, c ∈ x.iterate S ↔ c ∈ S) {found : List (List Nat)}
    (hS : ∀ c, c ∈ S ↔ ∃ d ∈ found, canon d = c) (p : List Nat) :
    Candidate (x.iterate S) restrict p ↔ ∃ d, Candidate found restrict d ∧ canon d = p := by
  constructor
  · rintro ⟨hp, hK⟩
    obtain ⟨d, hd, rfl⟩ := (hS p).mp ((hit p).mp hp)
    exact ⟨d, ⟨hd, fun K h => by rw [← dedup_length_same (canon_same d)]; exact hK K h⟩, rfl⟩
  · rintro ⟨d, ⟨hd, hK⟩, rfl⟩
    exact ⟨(hit _).mpr ((hS _).mpr ⟨d, hd, rfl⟩),
      fun K h => by rw [dedup_length_same (canon_same d)]; exact hK K h⟩

/-- **C94 (multilayer: what is returned).** Every returned partition was found by one of the runs; its gamma estimate is NaN,
or its estimates (omega cut off at `omega_end - 0.001`) lie strictly inside the window and none of the partitions found is
better there. -/
theorem c94_multilayer_sound (hx : SoundExecution x (gammas.length * omegas.length)) (hk : HealthyWorkers x Gi heaps)
    (hM : Multilayer Gi Gx layers)
    (h : findAndPruneMultilayer x Gi Gx layers model gammas omegas W.γ₀ W.γf W.ω₀ W.ωf restrict =
      (some (.ok (out, G')) : Option _)) :
    ∃ found, RunsFoundMultilayer x Gi Gx layers gammas omegas found ∧ ∀ c ∈ out, FirstAppearanceOrder c ∧
      (∃ d, Candidate found restrict d ∧ SamePartition c d) ∧
      ∃ g ω, gammaOmegaEstimate x.prune.test x.prune.fsolve Gi Gx layers c defaultOmegaMax model = .ok ((some g, ω), G') ∧
        (g = .nan ∨ ∃ γ, g = .fin γ ∧ (W.γ₀ < γ ∧ γ < W.γf) ∧
          (W.ω₀ < min ω (W.ωf - 1 / 1000) ∧ min ω (W.ωf - 1 / 1000) < W.ωf) ∧
          ∀ q, Candidate found restrict q → multilayerModularity Gi Gx layers γ (min ω (W.ωf - 1 / 1000)) q ≤
            multilayerModularity Gi Gx layers γ (min ω (W.ωf - 1 / 1000)) c) := by
  obtain ⟨S, found, hf, hS, hlen, h2⟩ := workflow_steps_multilayer hx hk hM h
  have hp : ∀ p ∈ x.iterate S, p.length = Gi.vcount := by
    intro p hp
    obtain ⟨d, hd, rfl⟩ := (hS p).mp ((hx.iterate S p).mp hp)
    rw [canon_length]; exact hlen d hd
  refine ⟨found, hf, fun c hc => ?_⟩
  obtain ⟨⟨p, hpc, hpr⟩, g, ω, hE, hb⟩ := c43_sound hx.prune hM hp h2 c hc
  rw [sortedTuple_eq] at hpr
  obtain rfl := Except.ok.inj hpr
  obtain ⟨d, hd, hdp⟩ := (workflow_candidate' (hx.iterate S) hS p).mp hpc
  refine ⟨canon_firstAppearance p, ⟨d, hd, (canon_same p).trans (hdp ▸ canon_same d)⟩, g, ω, hE, ?_⟩
  rcases hb with rfl | ⟨γ, rfl, hin, hle⟩
  · exact Or.inl rfl
  · refine Or.inr ⟨γ, rfl, hin.1.1, hin.1.2, fun q hq => ?_⟩
    rw [← multilayer_canon hM (hlen q hq.1)]
    exact hle _ ((workflow_candidate' (hx.iterate S) hS _).mpr ⟨q, hq, rfl⟩)

/-- **C94 (multilayer: reproducible).** With an optimiser without randomness and the same root finder any two executions
return the same partitions, if the partitions found that differ have different modularity. -/
theorem c94_multilayer_schedule (hx : SoundExecution x (gammas.length * omegas.length)) (hk : HealthyWorkers x Gi heaps)
    (hy : SoundExecution y (gammas.length * omegas.length)) (hk' : HealthyWorkers y Gi heaps') (hl : x.leiden = y.leiden)
    (hfs : x.prune.fsolve = y.prune.fsolve) (hdet : Deterministic x.leiden) (hM : Multilayer Gi Gx layers)
    (hdist : ∀ found, RunsFoundMultilayer x Gi Gx layers gammas omegas found → ∀ p ∈ found, ∀ q ∈ found,
      SameMultilayer Gi Gx layers p q → SamePartition p q)
    (h : findAndPruneMultilayer x Gi Gx layers model gammas omegas W.γ₀ W.γf W.ω₀ W.ωf restrict =
      (some (.ok (out, G')) : Option _))
    (h' : findAndPruneMultilayer y Gi Gx layers model gammas omegas W.γ₀ W.γf W.ω₀ W.ωf restrict =
      (some (.ok (out', G'')) : Option _)) : ∀ c, c ∈ out ↔ c ∈ out' := by
  obtain ⟨S, found, hf, hS, hlen, h2⟩ := workflow_steps_multilayer hx hk hM h
  obtain ⟨S', found', hf', hS', hlen', h2'⟩ := workflow_steps_multilayer hy hk' hM h'
  obtain rfl : found = found' := by
    refine List.ext_getElem? fun j => ?_
    by_cases hj : j < (gridPoints gammas omegas).length
    · have a1 : j < found.length := by rw [hf.1]; exact hj
      have a2 : j < found'.length := by rw [hf'.1]; exact hj
      have e1 := hf.2 j _ _ (List.getElem?_eq_getElem hj) (List.getElem?_eq_getElem a1)
      have e2 := hf'.2 j _ _ (List.getElem?_eq_getElem hj) (List.getElem?_eq_getElem a2)
      simp only [← hl] at e1 e2
      have hind : ∀ i i' p, multilayerOutcome x.leiden (defaulted x.leiden.test Gi) (defaulted x.leiden.test Gx) layers i p =
          multilayerOutcome x.leiden (defaulted x.leiden.test Gi) (defaulted x.leiden.test Gx) layers i' p := by
        intro i i' p
        unfold multilayerOutcome multiMaximiser
        split
        · exact hdet.2 _ _ _ _
        · rfl
      rw [hind _ 0] at e1 e2
      rw [e1] at e2
      rw [List.getElem?_eq_getElem a1, List.getElem?_eq_getElem a2, Except.ok.inj e2]
    · rw [List.getElem?_eq_none (by rw [hf.1]; omega), List.getElem?_eq_none (by rw [hf'.1]; omega)]
  obtain rfl : S = S' := by ext c; rw [hS, hS']
  have hp : ∀ p ∈ x.iterate S, p.length = Gi.vcount := by
    intro p hp
    obtain ⟨d, hd, rfl⟩ := (hS p).mp ((hx.iterate S p).mp hp)
    rw [canon_length]; exact hlen d hd
  have hmem : ∀ p, p ∈ x.iterate S ↔ p ∈ y.iterate S := fun p => (hx.iterate S p).trans (hy.iterate S p).symm
  refine c40_multilayer hx.prune hy.prune (by rw [hx.test, hy.test, hl]) hfs hM hp
    (fun p h => hp p ((hmem p).mpr h)) (fun p h => ⟨p, (hmem p).mp h, rfl, fun _ _ _ _ => Iff.rfl⟩)
    (fun p h => ⟨p, (hmem p).mpr h, rfl, fun _ _ _ _ => Iff.rfl⟩) ?_ h2 h2'
  intro p q hpc hqc hs
  obtain ⟨d, hd, rfl⟩ := (workflow_candidate' (hx.iterate S) hS p).mp hpc
  obtain ⟨e, he, rfl⟩ := (workflow_candidate' (hx.iterate S) hS q).mp hqc
  have := hdist found hf d hd.1 e he.1 fun γ ω => by
    rw [← multilayer_canon hM (hlen d hd.1), hs γ ω, multilayer_canon hM (hlen e he.1)]
  rw [(canon_eq_iff d e).mpr this]
  exact ⟨rfl, fun _ _ _ _ => Iff.rfl⟩

theorem workflow_foundAt_multilayer {grid omegas : List ℝ} {found : List (List Nat)}
    (hf : RunsFoundMultilayer x Gi Gx layers (grid.map .fin) omegas found) {a b : ℝ} (ha : a ∈ grid) (hb : b ∈ omegas) :
    ∃ i, ∃ c ∈ found, multilayerOutcome x.leiden (defaulted x.leiden.test Gi) (defaulted x.leiden.test Gx) layers i
      (.fin a, b) = .ok c := by
  have hmem : ((.fin a : Fl ℝ), b) ∈ gridPoints (grid.map Fl.fin) omegas := by
    unfold gridPoints
    exact List.mem_flatMap.mpr ⟨.fin a, List.mem_map.mpr ⟨a, ha, rfl⟩, List.mem_map.mpr ⟨b, hb, rfl⟩⟩
  obtain ⟨j, hj⟩ := List.getElem?_of_mem hmem
  have hlt : j < found.length := by
    rw [hf.1]; exact (List.getElem?_eq_some_iff.mp hj).1
  exact ⟨_, found[j], List.getElem_mem _, hf.2 j _ _ hj (List.getElem?_eq_getElem hlt)⟩

/-- Interpolation weights: `γ` between `a` and `b` is a mean of the two, with small variance. -/
theorem interpolation {a b γ h : ℝ} (h1 : a ≤ γ) (h2 : γ ≤ b) (hab : b - a ≤ h) :
    ∃ t, 0 ≤ t ∧ t ≤ 1 ∧ γ = (1 - t) * a + t * b ∧ (1 - t) * (γ - a) ≤ h / 4 ∧ t * (b - γ) = (1 - t) * (γ - a) := by
  rcases eq_or_lt_of_le (h1.trans h2) with hab0 | hlt
  · have e1 : γ = a := le_antisymm (by rw [hab0]; exact h2) h1
    subst e1
    exact ⟨0, le_refl _, zero_le_one, by ring, by linarith, by ring⟩
  · have hd : 0 < b - a := by linarith
    refine ⟨(γ - a) / (b - a), div_nonneg (by linarith) hd.le, (div_le_one hd).mpr (by linarith), ?_, ?_, ?_⟩
    · field_simp; ring
    · rw [show (1 - (γ - a) / (b - a)) * (γ - a) = (γ - a) * (b - γ) / (b - a) by field_simp; ring, div_le_iff₀ hd]
      nlinarith [sq_nonneg ((γ - a) - (b - γ)), mul_le_mul_of_nonneg_left hab hd.le]
    · field_simp; ring

/-- **C94 (multilayer: near-optimal among all partitions).** If the optimiser is ideal and the grids cover the window with
spacings `h` and `k`, then every returned partition whose gamma estimate is not NaN is nearly optimal among *all* partitions
of the vertices at its own estimates: none has a multilayer modularity larger by more than `h / 4` times the intralayer
total plus `k / 4` times the interlayer total. -/
theorem c94_multilayer_gap {grid omegas : List ℝ} (hx : SoundExecution x (grid.length * omegas.length))
    (hk : HealthyWorkers x Gi heaps) (hM : Multilayer Gi Gx layers) (hid : IdealMultilayerLeiden x.leiden Gi Gx layers)
    {h k : ℝ} (hcγ : CoversInterval grid W.γ₀ W.γf h) (hcω : CoversInterval omegas W.ω₀ W.ωf k)
    (hrun : findAndPruneMultilayer x Gi Gx layers model (grid.map .fin) omegas W.γ₀ W.γf W.ω₀ W.ωf none =
      (some (.ok (out, G')) : Option _)) :
    ∀ c ∈ out, ∃ g ω, gammaOmegaEstimate x.prune.test x.prune.fsolve Gi Gx layers c defaultOmegaMax model =
        .ok ((some g, ω), G') ∧ ∀ γ, g = .fin γ → ∀ q : List Nat, q.length = Gi.vcount →
      multilayerModularity Gi Gx layers γ (min ω (W.ωf - 1 / 1000)) q ≤
        multilayerModularity Gi Gx layers γ (min ω (W.ωf - 1 / 1000)) c + h / 4 * total Gi + k / 4 * total Gx := by
  obtain ⟨found, hf, hs⟩ := c94_multilayer_sound (by rw [List.length_map]; exact hx) hk hM hrun
  intro c hc
  obtain ⟨-, -, g, ω, hE, hb⟩ := hs c hc
  refine ⟨g, ω, hE, ?_⟩
  rintro γ rfl q hq
  rcases hb with hn | ⟨γ', hγ', hγ, hω, hle⟩
  · cases hn
  cases hγ'
  set o := min ω (W.ωf - 1 / 1000) with ho
  obtain ⟨a, ha, b, hb', haγ, hγb, hab⟩ := hcγ γ hγ.1.le hγ.2.le
  obtain ⟨u, hu, v, hv, huo, hov, huv⟩ := hcω o hω.1.le hω.2.le
  obtain ⟨t, ht0, ht1, het, hvt, hvt'⟩ := interpolation haγ hγb hab
  obtain ⟨s, hs0, hs1, hes, hvs, hvs'⟩ := interpolation huo hov huv
  have corner : ∀ g' ∈ grid, ∀ o' ∈ omegas, ∃ P B m : ℝ, 0 ≤ P ∧ P ≤ total Gi ∧ 0 ≤ B ∧ B ≤ total Gx ∧
      m ≤ multilayerModularity Gi Gx layers γ o c ∧
      multilayerModularity Gi Gx layers g' o' q ≤ m + (γ - g') * P + (o' - o) * B := by
    intro g' hg' o' ho'
    obtain ⟨i, d, hd, hfd⟩ := workflow_foundAt_multilayer hf hg' ho'
    have hdl : d.length = Gi.vcount := by
      have := multilayerOutcome_length hx.produces hfd
      rw [this, (defaulted_shape x.leiden.test Gx).1, hM.vcount]
    refine ⟨withinNullLayered Gi layers d, withinAdj Gx d, _, withinNullLayered_nonneg Gi layers d,
      withinNullLayered_le_total layers hM.layers d, withinAdj_nonneg Gx d, withinAdj_le Gx d,
      hle d ⟨hd, by intro K h; cases h⟩, ?_⟩
    refine (hid i g' o' d hfd q hq).trans (le_of_eq ?_)
    unfold multilayerModularity
    ring
  obtain ⟨P1, B1, m1, p1, p1', b1, b1', e1, f1⟩ := corner a ha u hu
  obtain ⟨P2, B2, m2, p2, p2', b2, b2', e2, f2⟩ := corner a ha v hv
  obtain ⟨P3, B3, m3, p3, p3', b3, b3', e3, f3⟩ := corner b hb' u hu
  obtain ⟨P4, B4, m4, p4, p4', b4, b4', e4, f4⟩ := corner b hb' v hv
  set M := multilayerModularity Gi Gx layers γ o c
  have hq' : multilayerModularity Gi Gx layers γ o q =
      (1 - t) * (1 - s) * multilayerModularity Gi Gx layers a u q +
      (1 - t) * s * multilayerModularity Gi Gx layers a v q + t * (1 - s) * multilayerModularity Gi Gx layers b u q +
      t * s * multilayerModularity Gi Gx layers b v q := by
    unfold multilayerModularity
    rw [het, hes]; ring
  have w1 : 0 ≤ (1 - t) * (1 - s) := mul_nonneg (by linarith) (by linarith)
  have w2 : 0 ≤ (1 - t) * s := mul_nonneg (by linarith) hs0
  have w3 : 0 ≤ t * (1 - s) := mul_nonneg ht0 (by linarith)
  have w4 : 0 ≤ t * s := mul_nonneg ht0 hs0
  have hTi : (0 : ℝ) ≤ total Gi := Nat.cast_nonneg _
  have hTx : (0 : ℝ) ≤ total Gx := Nat.cast_nonneg _
  have c1 : multilayerModularity Gi Gx layers a u q ≤ M + (γ - a) * total Gi := by
    have i1 := mul_le_mul_of_nonneg_left p1' (sub_nonneg.mpr haγ)
    have i2 : (u - o) * B1 ≤ 0 := mul_nonpos_of_nonpos_of_nonneg (by linarith) b1
    linarith
  have c2 : multilayerModularity Gi Gx layers a v q ≤ M + (γ - a) * total Gi + (v - o) * total Gx := by
    have i1 := mul_le_mul_of_nonneg_left p2' (sub_nonneg.mpr haγ)
    have i2 := mul_le_mul_of_nonneg_left b2' (sub_nonneg.mpr hov)
    linarith
  have c3 : multilayerModularity Gi Gx layers b u q ≤ M := by
    have i1 : (γ - b) * P3 ≤ 0 := mul_nonpos_of_nonpos_of_nonneg (by linarith) p3
    have i2 : (u - o) * B3 ≤ 0 := mul_nonpos_of_nonpos_of_nonneg (by linarith) b3
    linarith
  have c4 : multilayerModularity Gi Gx layers b v q ≤ M + (v - o) * total Gx := by
    have i1 : (γ - b) * P4 ≤ 0 := mul_nonpos_of_nonpos_of_nonneg (by linarith) p4
    have i2 := mul_le_mul_of_nonneg_left b4' (sub_nonneg.mpr hov)
    linarith
  have d1 := mul_le_mul_of_nonneg_left c1 w1
  have d2 := mul_le_mul_of_nonneg_left c2 w2
  have d3 := mul_le_mul_of_nonneg_left c3 w3
  have d4 := mul_le_mul_of_nonneg_left c4 w4
  have g1 : (1 - t) * (γ - a) * total Gi ≤ h / 4 * total Gi := mul_le_mul_of_nonneg_right hvt hTi
  have g2 : s * (v - o) * total Gx ≤ k / 4 * total Gx := by
    rw [hvs']; exact mul_le_mul_of_nonneg_right hvs hTx
  rw [hq']
  calc _ ≤ (1 - t) * (1 - s) * (M + (γ - a) * total Gi) + (1 - t) * s * (M + (γ - a) * total Gi + (v - o) * total Gx) +
        t * (1 - s) * M + t * s * (M + (v - o) * total Gx) := by linarith
    _ = M + (1 - t) * (γ - a) * total Gi + s * (v - o) * total Gx := by ring
    _ ≤ _ := by linarith

/-- **C94 (exact optimisation is ideal, multilayer).** If leidenalg maximises the documented multiplex quality exactly, it is
ideal on every unweighted multilayer network with an edge in every layer and none between layers. -/
theorem c94_exact_is_ideal_multilayer {env : LeidenEnv} (hp : ProducesPartitions env) (hM : Multilayer Gi Gx layers)
    (hwi : UnitWeights (defaulted env.test Gi)) (hwx : UnitWeights (defaulted env.test Gx))
    (hdx : defaulted env.test (defaulted env.test Gx) = defaulted env.test Gx) (hn : layers ≠ [])
    (hin : ∀ e ∈ Gi.edges, layers[e.1]? = layers[e.2]?) (hedge : ∀ t ∈ layers, ∃ e ∈ Gi.edges, layers[e.1]? = some t)
    (possible : Bool → Nat → ℝ) (hex : ∀ Gs, ExactMultiplex env possible Gs (defaulted env.test Gx)) :
    IdealMultilayerLeiden env Gi Gx layers := by
  have wf : ∀ {H : Graph ℝ}, H.WF → UnitWeights (defaulted env.test H) → (defaulted env.test H).WF := by
    intro H hH hw
    have hs := defaulted_shape env.test H
    refine ⟨by rw [hs.1, hs.2.1]; exact hH.1, ?_⟩
    intro ws h
    rw [hw] at h
    obtain rfl := Option.some.inj h
    simp
  have hsi := defaulted_shape env.test Gi
  have hsx := defaulted_shape env.test Gx
  intro i γ ω c hc q hq
  unfold multilayerOutcome at hc
  split at hc
  · rename_i Gs hGs
    have := c78_exact_multilayer (α := Nat) hp (wf hM.intra hwi) (wf hM.inter hwx) (by rw [hsx.1, hsi.1, hM.vcount]) hwi hwx hdx
      (by rw [hsi.1]; exact hM.layers) hn (by rw [hsi.2.1]; exact hin) (by rw [hsi.2.1]; exact hedge) hGs possible (hex Gs)
      i γ ω c (by rw [hdx]; exact hc) q (by rw [hsi.1]; exact hq)
    have e : ∀ d : List Nat, multilayerModularity (defaulted env.test Gi) (defaulted env.test Gx) layers γ ω d =
        multilayerModularity Gi Gx layers γ ω d := by
      intro d
      unfold defaulted
      split <;> split <;> rfl
    rwa [e, e] at this
  · cases hc

/-! ## Witnesses -/

/-- Four processors, batches completed last first, an exact optimiser and an exact LP solver. -/
noncomputable def lateFirst (n : Nat) : Execution where
  leiden := idealEnv
  cpu := 4
  workers := fun _ => World.fresh
  objs := fun _ => 0
  order := (List.range ((n + poolChunkSize 4 n - 1) / poolChunkSize 4 n)).reverse
  iterate := fun S => S.toList
  prune := { pruneEnv with test := idealEnv.test }

theorem lateFirst_sound (n : Nat) : SoundExecution (lateFirst n) n where
  produces := idealEnv_produces
  order := List.reverse_perm _
  iterate := fun S c => by simp [lateFirst]
  prune := ⟨pruneEnv_sound.toSoundEnv, pruneEnv_sound.setNodup, pruneEnv_sound.setMem⟩
  test := rfl

theorem gReal_ideal : IdealLeiden idealEnv gReal := c94_exact_is_ideal idealEnv_produces gReal_wf rfl (idealEnv_exact _)

/-- The documented single-layer example on the graph `gReal`: it returns, and everything returned is within 2/(4·999) of the
largest normalised modularity at its own estimate (`total = 10`). -/
example : ∃ out G', findAndPrune (lateFirst 1000) gReal ((linspace 0 2 1000).map .fin) 0 2 none false =
      (some (.ok (out, G')) : Option _) ∧
    ∀ c ∈ out, ∃ γ, gammaEstimate idealEnv.test gReal c = .ok (some (.fin γ), G') ∧ 0 ≤ γ ∧ γ ≤ 2 ∧
      ∀ q : List Nat, q.length = 5 → modularity gReal γ q ≤ modularity gReal γ c + 2 / 999 / 4 * 10 := by
  have hl : ((linspace 0 2 1000).map (Fl.fin : ℝ → Fl ℝ)).length = 1000 := by rw [List.length_map, linspace_length]
  obtain ⟨out, G', h⟩ := c94_returns (x := lateFirst 1000) (G := gReal) (gammas := (linspace 0 2 1000).map .fin) (γ₀ := 0)
    (γf := 2) (restrict := none) (st := false) (by rw [hl]; exact lateFirst_sound 1000) exactEnv_exact
    (fun i γ _ => ⟨_, rfl⟩) gReal_wf rfl (by decide) (by decide) (by intro h; cases h) (by norm_num)
  refine ⟨out, G', h, ?_⟩
  have := c94_documented (n := 1000) (by norm_num) (by norm_num) (lateFirst_sound 1000) gReal_wf gReal_ideal h
  rw [show (total gReal : ℝ) = 10 from by exact_mod_cast (by decide : total gReal = 10)] at this
  norm_num at this ⊢
  exact this

/-- The hypotheses of the multilayer theorems are met by the two-layer network and a 32 by 32 grid. -/
example : SoundExecution (lateFirst (32 * 32)) ((linspace 0 2 32).length * (linspace 0 2 32).length) ∧
    HealthyWorkers (lateFirst (32 * 32)) gIntraR (fun _ _ => gIntraR) ∧ Multilayer gIntraR gInterR [0, 0, 0, 1, 1, 1] ∧
    IdealMultilayerLeiden (lateFirst (32 * 32)).leiden gIntraR gInterR [0, 0, 0, 1, 1, 1] ∧
    CoversInterval (linspace 0 2 32) 0 2 ((2 - 0) / ((32 : Nat) - 1 : ℝ)) := by
  refine ⟨by rw [linspace_length]; exact lateFirst_sound _, ⟨fun _ _ => ⟨gIntraR_multilayer.intra, by intro h; cases h⟩,
    fun _ => .fresh, fun _ => rfl⟩, gIntraR_multilayer, ?_, c94_linspace (by norm_num) (by norm_num)⟩
  exact c94_exact_is_ideal_multilayer idealEnv_produces gIntraR_multilayer rfl rfl rfl (by decide) (by decide) (by decide)
    (fun _ _ => 0) fun Gs => idealEnv_exact_multiplex Gs _

/-- The path on four vertices. -/
def gPath : Graph ℝ := ⟨4, false, [(0, 1), (1, 2), (2, 3)], none⟩

theorem gPath_wf : gPath.WF := ⟨by decide, by intro ws h; cases h⟩

theorem gPath_modularity (γ : ℝ) (a b c d : Nat) : modularity gPath γ [a, b, c, d] =
    ((if a = b then 2 else 0) + (if b = c then 2 else 0) + (if c = d then 2 else 0)) -
      γ / 6 * (10 + (if a = b then 4 else 0) + (if a = c then 4 else 0) + (if a = d then 2 else 0) +
        (if b = c then 8 else 0) + (if b = d then 4 else 0) + (if c = d then 4 else 0)) := by
  have r0 : rowSum gPath 0 = 1 := by decide
  have r1 : rowSum gPath 1 = 2 := by decide
  have r2 : rowSum gPath 2 = 2 := by decide
  have r3 : rowSum gPath 3 = 1 := by decide
  have c0 : colSum gPath 0 = 1 := by decide
  have c1 : colSum gPath 1 = 2 := by decide
  have c2 : colSum gPath 2 = 2 := by decide
  have c3 : colSum gPath 3 = 1 := by decide
  have ht : total gPath = 6 := by decide
  have hv : gPath.vcount = 4 := rfl
  rw [modularity_affine]
  simp only [withinAdj, withinNull, hv, r0, r1, r2, r3, c0, c1, c2, c3, ht, Finset.sum_range_succ, Finset.sum_range_zero]
  simp [gPath, adj, eq_comm]
  split_ifs <;> (try ring_nf) <;> (try norm_num) <;> (try omega)

/-- Two pairs of neighbours are the best partition of the path for gamma between 0.9 and 1.1. -/
theorem gPath_best {γ : ℝ} (h0 : 9 / 10 ≤ γ) (h1 : γ ≤ 11 / 10) : StrictlyBest gPath γ [0, 0, 1, 1] := by
  intro q hq hne
  match q, hq with
  | [a, b, c, d], _ =>
    by_cases hs : a = b ∧ c = d ∧ b ≠ c
    · refine absurd (fun g => ?_) hne
      obtain ⟨rfl, rfl, hbc⟩ := hs
      rw [gPath_modularity, gPath_modularity]
      simp [hbc]
    · rw [gPath_modularity, gPath_modularity]
      simp only [if_true, zero_ne_one, if_false]
      split_ifs <;> first | omega | linarith

theorem logMean_path : 9 / 10 ≤ logMean (4 / 3) ((6 - 4) / (6 - 3)) ∧ logMean (4 / 3) ((6 - 4) / (6 - 3)) ≤ 11 / 10 := by
  unfold logMean
  have hl1 := Real.log_two_gt_d9
  have hl2 := Real.log_two_lt_d9
  have e : Real.log (4 / 3) - Real.log ((6 - 4) / (6 - 3)) = Real.log 2 := by
    rw [← Real.log_div (by norm_num) (by norm_num)]; norm_num
  rw [e]
  constructor
  · rw [le_div_iff₀ (by linarith)]; norm_num at *; linarith
  · rw [div_le_iff₀ (by linarith)]; norm_num at *; linarith

/-- The workflow finds the two halves of the path with as few as 11 runs. -/
example {out : List (List Nat)} {G' : Graph ℝ}
    (h : findAndPrune (lateFirst 11) gPath ((linspace 0 2 11).map .fin) 0 2 none false = (some (.ok (out, G')) : Option _)) :
    ∃ c ∈ out, SameModularity gPath [0, 0, 1, 1] c := by
  obtain ⟨g1, g2⟩ := logMean_path
  have hid : IdealLeiden idealEnv gPath := c94_exact_is_ideal idealEnv_produces gPath_wf rfl (idealEnv_exact _)
  have hA : withinAdj gPath [0, 0, 1, 1] = 4 := by
    simp [withinAdj, gPath, adj, Finset.sum_range_succ]; norm_num
  have hP : withinNull gPath [0, 0, 1, 1] = 3 := by
    have h1 := gPath_modularity 1 0 0 1 1
    rw [modularity_affine, hA] at h1
    norm_num at h1
    linarith
  have hE : HasEstimate idealEnv.test gPath [0, 0, 1, 1] (logMean (4 / 3) ((6 - 4) / (6 - 3))) := by
    rw [hasEstimate_unweighted gPath_wf rfl (by decide) (by intro h; cases h) rfl, hA, hP]
    have hec : (gPath.ecount : ℝ) = 3 := by norm_num [gPath, Graph.ecount]
    rw [hec]
    refine ⟨by norm_num, by norm_num, by norm_num, by norm_num, by norm_num⟩
  refine c94_complete (grid := linspace 0 2 11) (by rw [linspace_length]; exact lateFirst_sound 11) gPath_wf rfl (by decide)
    (by intro h; cases h) hid h rfl hE (by linarith) (by linarith) (gPath_best g1 g2) (g := 1) ?_
    (gPath_best (by norm_num) (by norm_num))
  exact List.mem_map.mpr ⟨5, by decide, by norm_num⟩

end Verif.Props
