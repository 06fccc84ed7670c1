import Verif.Model.Performance
import Verif.Spec.Performance
import Verif.Props.Drivers
import Verif.Props.Lfr
import Verif.Props.Workflow
import Verif.Props.Snap

/-!
# Property C111: the parallel performance tests
-/

namespace Verif.Props
open Verif Verif.Spec

variable {cpu : Nat} {t : MockTiming} {env : LeidenEnv} {workers : Nat → World} {order : List Nat} {G : Graph ℝ}
  {gammas omegas : List ℝ} {duration poolDuration : ℝ} {w : World}

/-- The threshold after a measurement: 50% on a busy machine, 75% otherwise. -/
theorem c111_target {s : PerfState} (hs : s.target = none) (hpool : t.pool ≠ 0) (hcpu : 0 < cpu) :
    (determineTarget cpu t s).1 = .ok (speedUp 32 t.base (32 * cpu) t.pool) ∧
    (determineTarget cpu t s).2.target = some (speedUp 32 t.base (32 * cpu) t.pool) ∧
    (t.utilization > 20 → (determineTarget cpu t s).2.threshold = 1 / 2) ∧
    (t.utilization ≤ 20 → (determineTarget cpu t s).2.threshold = s.threshold) := by
  have hv : pyDiv ((((32 * cpu : Nat) : ℝ)) / 32 * t.base) t.pool = .ok (speedUp 32 t.base (32 * cpu) t.pool) := by
    unfold pyDiv speedUp
    rw [if_neg hpool]
    have : (cpu : ℝ) ≠ 0 := by positivity
    congr 1
    push_cast
    field_simp
  unfold determineTarget
  rw [hs]
  simp only [hv]
  refine ⟨trivial, trivial, fun h => ?_, fun h => ?_⟩
  · rw [if_pos h]
  · rw [if_neg (not_lt.mpr h)]

/-- **C111 (measured once).** Whatever the tests do, in whatever order: if the clock reports a duration other than 0 for the pool at
the first test, then every test of the process is judged with the speed-up and the threshold determined there, however the machine
behaves later. -/
theorem c111_measured_once (hcpu : 0 < cpu) (t : MockTiming) (measure : ℝ → Py ℝ) (rest : List (MockTiming × (ℝ → Py ℝ)))
    (hpool : t.pool ≠ 0) :
    let target := speedUp 32 t.base (32 * cpu) t.pool
    let threshold : ℝ := if t.utilization > 20 then 1 / 2 else 3 / 4
    (performanceSuite cpu ((t, measure) :: rest) PerfState.fresh).length = rest.length + 1 ∧
    ∀ (i : Nat) (m : ℝ → Py ℝ), (measure :: rest.map Prod.snd)[i]? = some m →
      ∃ v : Py Unit, (performanceSuite cpu ((t, measure) :: rest) PerfState.fresh)[i]? = some v ∧
        (v = .ok () ↔ ∃ p, m target = .ok p ∧ threshold < p) ∧
        (∀ p, m target = .ok p → p ≤ threshold → v = .error .assertionError) ∧ (∀ e, m target = .error e → v = .error e) := by
  intro target threshold
  obtain ⟨h1, h2, h3, h4⟩ := c111_target (t := t) (s := PerfState.fresh) rfl hpool hcpu
  have hthr : (determineTarget cpu t PerfState.fresh).2.threshold = threshold := by
    by_cases hu : t.utilization > 20
    · rw [h3 hu]; exact (if_pos hu).symm
    · rw [h4 (not_lt.mp hu)]
      show (75 / 100 : ℝ) = if t.utilization > 20 then 1 / 2 else 3 / 4
      rw [if_neg hu]; norm_num
  have hgo : ∀ (u : MockTiming) (m : ℝ → Py ℝ) s, (determineTarget cpu u s).1 = .ok target → (determineTarget cpu u s).2.threshold = threshold →
      (performanceTest cpu u m s).2 = (determineTarget cpu u s).2 ∧
      ((performanceTest cpu u m s).1 = .ok () ↔ ∃ p, m target = .ok p ∧ threshold < p) ∧
      (∀ p, m target = .ok p → p ≤ threshold → (performanceTest cpu u m s).1 = .error .assertionError) ∧
      (∀ e, m target = .error e → (performanceTest cpu u m s).1 = .error e) := by
    intro u m s ht hth
    unfold performanceTest
    rcases hd : determineTarget cpu u s with ⟨r, s'⟩
    rw [hd] at ht hth
    simp only at ht hth
    subst ht
    simp only
    refine ⟨trivial, ?_, ?_, ?_⟩
    · cases hm : m target with
      | error e => rw [Py.error_bind]; simp
      | ok p =>
        rw [Py.ok_bind, hth]
        by_cases hp : p > threshold
        · rw [if_pos hp]; simpa using hp
        · rw [if_neg hp]; simpa using hp
    · intro p hm hp
      rw [hm, Py.ok_bind, hth, if_neg (not_lt.mpr hp)]
    · intro e hm
      rw [hm, Py.error_bind]
  have hrest : ∀ (rest : List (MockTiming × (ℝ → Py ℝ))) s, s.target = some target → s.threshold = threshold →
      (performanceSuite cpu rest s).length = rest.length ∧ ∀ (i : Nat) (m : ℝ → Py ℝ), (rest.map Prod.snd)[i]? = some m →
      ∃ v : Py Unit, (performanceSuite cpu rest s)[i]? = some v ∧
        (v = .ok () ↔ ∃ p, m target = .ok p ∧ threshold < p) ∧
        (∀ p, m target = .ok p → p ≤ threshold → v = .error .assertionError) ∧ (∀ e, m target = .error e → v = .error e) := by
    intro rest
    induction rest with
    | nil => intro s _ _; exact ⟨rfl, fun i m h => by simp at h⟩
    | cons x rest ih =>
      intro s hs hth
      obtain ⟨u, m'⟩ := x
      have hd : determineTarget cpu u s = (.ok target, s) := by unfold determineTarget; rw [hs]
      obtain ⟨e, g⟩ := hgo u m' s (by rw [hd]) (by rw [hd]; exact hth)
      rw [hd] at e
      simp only at e
      obtain ⟨hl, ih⟩ := ih s hs hth
      simp only [performanceSuite, e]
      refine ⟨by simp [hl], fun i m hm => ?_⟩
      cases i with
      | zero =>
        simp only [List.map_cons, List.getElem?_cons_zero, Option.some.injEq] at hm
        subst hm
        exact ⟨_, by simp, g⟩
      | succ i =>
        simp only [List.map_cons, List.getElem?_cons_succ] at hm ⊢
        exact ih i m hm
  obtain ⟨e, g⟩ := hgo t measure PerfState.fresh h1 hthr
  simp only [performanceSuite, e]
  obtain ⟨hl, hr⟩ := hrest rest _ h2 hthr
  refine ⟨by simp [hl], fun i m hm => ?_⟩
  cases i with
  | zero =>
    simp only [List.getElem?_cons_zero, Option.some.injEq] at hm
    subst hm
    exact ⟨_, by simp, g⟩
  | succ i =>
    simp only [List.getElem?_cons_succ] at hm ⊢
    exact hr i m hm

/-- **C111 (a clock that stands still).** If the clock reports 0 for the pool, the test raises `ZeroDivisionError` and nothing is
cached: the next test measures again – but a lowered threshold stays lowered. -/
theorem c111_clock_stands_still {s : PerfState} (hs : s.target = none) (hpool : t.pool = 0) (measure : ℝ → Py ℝ) :
    performanceTest cpu t measure s =
      (.error .zeroDivisionError, ⟨none, if t.utilization > 20 then 1 / 2 else s.threshold⟩) := by
  unfold performanceTest determineTarget pyDiv
  rw [hs, hpool]
  simp only [if_true]
  by_cases h : t.utilization > 20
  · simp [h]
  · simp only [h, if_false]
    rw [← hs]

theorem linspace_le {a b : ℝ} (hab : a ≤ b) {n : Nat} : ∀ x ∈ linspace a b n, x ≤ b := by
  intro x hx
  unfold linspace at hx
  obtain ⟨i, hi, rfl⟩ := List.mem_map.mp hx
  have hi := List.mem_range.mp hi
  have hin : (i : ℝ) ≤ (n : ℝ) - 1 := by
    have : (i : ℝ) + 1 ≤ n := by exact_mod_cast hi
    linarith
  rcases eq_or_lt_of_le (by omega : 1 ≤ n) with h1 | h1
  · subst h1; simp; simpa using hab
  · have hn : (0 : ℝ) < (n : ℝ) - 1 := by
      have : (1 : ℝ) < n := by exact_mod_cast h1
      linarith
    have : (i : ℝ) * ((b - a) / ((n : ℝ) - 1)) ≤ ((n : ℝ) - 1) * ((b - a) / ((n : ℝ) - 1)) :=
      mul_le_mul_of_nonneg_right hin (div_nonneg (by linarith) hn.le)
    have e : ((n : ℝ) - 1) * ((b - a) / ((n : ℝ) - 1)) = b - a := by field_simp
    linarith

theorem linspace_ends (a b : ℝ) {n : Nat} (h : 2 ≤ n) : a ∈ linspace a b n ∧ b ∈ linspace a b n := by
  unfold linspace
  refine ⟨List.mem_map.mpr ⟨0, List.mem_range.mpr (by omega), by simp⟩,
    List.mem_map.mpr ⟨n - 1, List.mem_range.mpr (by omega), ?_⟩⟩
  have hn : (n : ℝ) - 1 ≠ 0 := by
    have : (2 : ℝ) ≤ n := by exact_mod_cast h
    intro h; linarith
  push_cast [Nat.cast_sub (by omega : 1 ≤ n)]
  field_simp
  ring

/-- The grid between the smallest and the largest value. -/
theorem grid_of {l : List ℝ} (hl : l ≠ []) : ∃ lo hi, l.min? = some lo ∧ l.max? = some hi ∧
    (∀ n, ∀ x ∈ linspace lo hi n, (∃ a ∈ l, a ≤ x) ∧ ∃ b ∈ l, x ≤ b) ∧
    ∀ n, 2 ≤ (linspace lo hi n).length → ∀ x ∈ l, (∃ a ∈ linspace lo hi n, a ≤ x) ∧ ∃ b ∈ linspace lo hi n, x ≤ b := by
  obtain ⟨lo, hlo⟩ : ∃ lo, l.min? = some lo := by
    cases h : l.min? with
    | none => exact absurd (List.min?_eq_none_iff.mp h) hl
    | some lo => exact ⟨lo, rfl⟩
  obtain ⟨hi, hhi⟩ : ∃ hi, l.max? = some hi := by
    cases h : l.max? with
    | none => exact absurd (List.max?_eq_none_iff.mp h) hl
    | some hi => exact ⟨hi, rfl⟩
  obtain ⟨m1, m2⟩ := List.min?_eq_some_iff.mp hlo
  obtain ⟨M1, M2⟩ := List.max?_eq_some_iff.mp hhi
  have hle : lo ≤ hi := m2 _ M1
  refine ⟨lo, hi, hlo, hhi, fun n x hx => ⟨⟨lo, m1, (linspace_sorted hle _).2 x hx⟩, hi, M1, linspace_le hle x hx⟩, fun n h2 x hx => ?_⟩
  rw [linspace_length] at h2
  obtain ⟨e1, e2⟩ := linspace_ends lo hi h2
  exact ⟨⟨lo, e1, m2 _ hx⟩, hi, e2, M2 _ hx⟩

/-- The speed-up measured for the single-layer sweeps: the pool makes `cpu` times as many runs. -/
theorem c111_singlelayer (hg : gammas ≠ []) (hpd : poolDuration ≠ 0) (hcpu : 0 < cpu) {target : ℝ}
    (htarget : target ≠ 0) {S : Finset (List Nat)} {G' : Graph ℝ} {w' : World}
    (hserial : repeatedLeiden env G (gammas.map Fl.fin) w = (.ok (S, G'), w')) :
    ∃ grid : List ℝ, grid.length = gammas.length * cpu ∧ (∀ x ∈ grid, (∃ a ∈ gammas, a ≤ x) ∧ ∃ b ∈ gammas, x ≤ b) ∧
      (2 ≤ grid.length → ∀ x ∈ gammas, (∃ a ∈ grid, a ≤ x) ∧ ∃ b ∈ grid, x ≤ b) ∧
      (∀ S', repeatedParallelLeiden env cpu workers order G' (grid.map Fl.fin) = .ok S' →
        singlelayerParallelization env cpu workers order G gammas duration poolDuration w target =
          .ok (speedUp gammas.length duration grid.length poolDuration / target)) ∧
      (∀ e, repeatedParallelLeiden env cpu workers order G' (grid.map Fl.fin) = .error e →
        singlelayerParallelization env cpu workers order G gammas duration poolDuration w target = .error e) := by
  obtain ⟨lo, hi, hlo, hhi, hg1, hg2⟩ := grid_of hg
  have hlen : (gammas.length : ℝ) ≠ 0 := by
    have := List.length_pos_iff.mpr hg
    positivity
  have hc : (cpu : ℝ) ≠ 0 := by positivity
  refine ⟨linspace lo hi (gammas.length * cpu), linspace_length _ _ _, hg1 _, hg2 _, ?_, ?_⟩
  · intro S' hS'
    unfold singlelayerParallelization pyMin pyMax
    rw [hserial, hlo, hhi]
    simp only [Py.ok_bind, hS', linspace_length, pyDiv, if_neg hlen, if_neg hpd, if_neg htarget]
    congr 2
    unfold speedUp
    push_cast
    field_simp
  · intro e he
    unfold singlelayerParallelization pyMin pyMax
    rw [hserial, hlo, hhi]
    simp only [Py.ok_bind, he, Py.error_bind]

/-- If the optimiser never fails, neither sweep does. -/
theorem sweeps_succeed (hfind : ∀ i H γ, ∃ c, env.findPartition i H γ = .ok c) (horder : CompletionOrder cpu (gammas.length * cpu) order) :
    (∃ S G' w', repeatedLeiden env G (gammas.map Fl.fin) w = (.ok (S, G'), w')) ∧
    ∀ G', ∀ grid : List ℝ, grid.length = gammas.length * cpu → ∃ S', repeatedParallelLeiden env cpu workers order G' (grid.map Fl.fin) = .ok S' := by
  classical
  have all : ∀ (call : Nat → Nat) H (l : List (Fl ℝ)), ∃ found, AllFound (fun j γ => env.findPartition (call j) H γ) l found := by
    intro call H l
    choose f hf using fun (x : Fl ℝ × Nat) => hfind (call x.2) H x.1
    refine ⟨l.zipIdx.map f, by simp, fun j p c hp hc => ?_⟩
    rw [List.getElem?_map, List.getElem?_zipIdx, hp] at hc
    simp only [Option.map_some, Option.some.injEq, Nat.zero_add] at hc
    subst hc
    exact hf (p, j)
  have can : ∀ found : List (List Nat), ∃ S, CanonicalSetOf S found := fun found =>
    ⟨(found.map canon).toFinset, canonicalSetOf_iff.mpr (by intro x; simp)⟩
  constructor
  · obtain ⟨found, hf⟩ := all (fun j => w.calls + j) (defaulted env.test G) (gammas.map Fl.fin)
    obtain ⟨S, hS⟩ := can found
    have h := (c51_serial (env := env) G (gammas.map Fl.fin) w S).mpr ⟨found, hf, hS⟩
    rcases hr : repeatedLeiden env G (gammas.map Fl.fin) w with ⟨r, w'⟩
    rw [hr] at h
    cases r with
    | error e => simp [Except.map] at h
    | ok v => exact ⟨v.1, v.2, w', rfl⟩
  · intro G' grid hl
    obtain ⟨found, hf⟩ := all (fun j => (workers (j / poolChunkSize cpu (grid.map Fl.fin).length)).calls +
        j % poolChunkSize cpu (grid.map Fl.fin).length) (defaulted env.test G') (grid.map Fl.fin)
    obtain ⟨S, hS⟩ := can found
    refine ⟨S, (c51_parallel G' _ cpu workers (by rw [List.length_map, hl]; exact horder) S).mpr ⟨found, hf, hS⟩⟩

/-- **C111 (single-layer verdict).** For sweeps that succeed and clocks that move, the number of processors cancels: the test compares
how much faster a run becomes in the pool with how much faster the mock calculation became. -/
theorem c111_singlelayer_verdict (hg : gammas ≠ []) (hcpu : 0 < cpu) (hbase : 0 < t.base) (hpool : 0 < t.pool) (hpd : 0 < poolDuration)
    (hfind : ∀ i H γ, ∃ c, env.findPartition i H γ = .ok c) (horder : CompletionOrder cpu (gammas.length * cpu) order) :
    (performanceTest cpu t (singlelayerParallelization env cpu workers order G gammas duration poolDuration w) PerfState.fresh).1 = .ok () ↔
      (if t.utilization > 20 then 1 / 2 else 3 / 4) * (t.base / t.pool) < duration / poolDuration := by
  have hT : (0 : ℝ) < speedUp 32 t.base (32 * cpu) t.pool := by unfold speedUp; positivity
  obtain ⟨⟨S, G', w', hserial⟩, hpar⟩ := sweeps_succeed (workers := workers) (G := G) (w := w) hfind horder
  have hpar := hpar G'
  obtain ⟨grid, hl, -, -, hok, -⟩ := c111_singlelayer (workers := workers) (order := order) (duration := duration) hg hpd.ne' hcpu hT.ne' hserial
  obtain ⟨S', hS'⟩ := hpar grid hl
  have hm := hok S' hS'
  obtain ⟨-, hv⟩ := c111_measured_once hcpu t (singlelayerParallelization env cpu workers order G gammas duration poolDuration w) [] hpool.ne'
  obtain ⟨v, e, hv, -, -⟩ := hv 0 _ rfl
  simp only [performanceSuite, List.getElem?_cons_zero, Option.some.injEq] at e
  rw [e, hv, hm]
  have hlen : (0 : ℝ) < gammas.length := by exact_mod_cast List.length_pos_iff.mpr hg
  have hc : (0 : ℝ) < cpu := by exact_mod_cast hcpu
  have key : speedUp gammas.length duration grid.length poolDuration / speedUp 32 t.base (32 * cpu) t.pool =
      duration / poolDuration / (t.base / t.pool) := by
    unfold speedUp
    rw [hl]
    push_cast
    field_simp
  constructor
  · rintro ⟨p, hp, hlt⟩
    injection hp with hp
    rw [← hp, key, lt_div_iff₀ (by positivity)] at hlt
    exact hlt
  · intro h
    exact ⟨_, rfl, by rw [key, lt_div_iff₀ (by positivity)]; exact h⟩

/-- **C111 (a pool that does not work in parallel).** If the pool needs at least `cpu` times as long for its `cpu` times as many runs, the
test fails on every machine whose mock calculation became at least twice as fast. -/
theorem c111_serial_pool_fails (hg : gammas ≠ []) (hcpu : 0 < cpu) (hbase : 0 < t.base) (hpool : 0 < t.pool) (hpd : 0 < poolDuration)
    (hfind : ∀ i H γ, ∃ c, env.findPartition i H γ = .ok c) (horder : CompletionOrder cpu (gammas.length * cpu) order)
    (hslow : cpu * duration ≤ poolDuration) (hmock : 2 ≤ speedUp 32 t.base (32 * cpu) t.pool) :
    (performanceTest cpu t (singlelayerParallelization env cpu workers order G gammas duration poolDuration w) PerfState.fresh).1 ≠ .ok () := by
  rw [Ne, c111_singlelayer_verdict hg hcpu hbase hpool hpd hfind horder]
  have hc : (0 : ℝ) < cpu := by exact_mod_cast hcpu
  have h1 : duration / poolDuration ≤ 1 / cpu := by
    rw [div_le_div_iff₀ hpd hc]; linarith
  have h2 : 2 / cpu ≤ t.base / t.pool := by
    have e : speedUp 32 t.base (32 * cpu) t.pool = cpu * (t.base / t.pool) := by
      unfold speedUp; push_cast; field_simp
    rw [e] at hmock
    rw [div_le_iff₀ hc]; linarith
  have h3 : (1 / 2 : ℝ) ≤ (if t.utilization > 20 then 1 / 2 else 3 / 4) := by split <;> norm_num
  have h4 : (1 / 2 : ℝ) * (2 / cpu) ≤ (if t.utilization > 20 then 1 / 2 else 3 / 4) * (t.base / t.pool) :=
    mul_le_mul h3 h2 (by positivity) (by linarith)
  have h5 : (1 / 2 : ℝ) * (2 / cpu) = 1 / cpu := by ring
  linarith

/-- **C111 (a pool as good as the mock).** If the sweep gains in the pool at least as much as the mock calculation did, the test passes. -/
theorem c111_good_pool_passes (hg : gammas ≠ []) (hcpu : 0 < cpu) (hbase : 0 < t.base) (hpool : 0 < t.pool) (hpd : 0 < poolDuration)
    (hfind : ∀ i H γ, ∃ c, env.findPartition i H γ = .ok c) (horder : CompletionOrder cpu (gammas.length * cpu) order)
    (hgood : t.base / t.pool ≤ duration / poolDuration) :
    (performanceTest cpu t (singlelayerParallelization env cpu workers order G gammas duration poolDuration w) PerfState.fresh).1 = .ok () := by
  rw [c111_singlelayer_verdict hg hcpu hbase hpool hpd hfind horder]
  have : 0 < t.base / t.pool := by positivity
  have h3 : (if t.utilization > 20 then 1 / 2 else 3 / 4 : ℝ) < 1 := by split <;> norm_num
  nlinarith

/-- **C111 (where it says nothing).** On a machine where the mock calculation gains nothing (its pool needs `cpu` times as long – a
single processor, or a busy machine), a pool that works through its runs one after the other passes. -/
theorem c111_serial_pool_passes (hg : gammas ≠ []) (hcpu : 0 < cpu) (hbase : 0 < t.base) (hd : 0 < duration)
    (hfind : ∀ i H γ, ∃ c, env.findPartition i H γ = .ok c) (horder : CompletionOrder cpu (gammas.length * cpu) order)
    (hmock : t.pool = cpu * t.base) (hslow : poolDuration = cpu * duration) :
    (performanceTest cpu t (singlelayerParallelization env cpu workers order G gammas duration poolDuration w) PerfState.fresh).1 = .ok () := by
  have hc : (0 : ℝ) < cpu := by exact_mod_cast hcpu
  refine c111_good_pool_passes hg hcpu hbase (by rw [hmock]; positivity) (by rw [hslow]; positivity) hfind horder (le_of_eq ?_)
  rw [hmock, hslow]
  field_simp

/-- The number of values of the pool sweep: at least as many as in the serial sweep; squared, at most `cpu` times the square, and
exactly that if the number of processors is a square. -/
theorem c111_pool_length (len cpu : Nat) :
    (1 ≤ cpu → len ≤ poolLength len cpu) ∧ poolLength len cpu ^ 2 ≤ len ^ 2 * cpu ∧ len ^ 2 * cpu < (poolLength len cpu + 1) ^ 2 ∧
    ∀ k, cpu = k ^ 2 → poolLength len cpu = len * k := by
  unfold poolLength
  have hs : Real.sqrt cpu ^ 2 = cpu := Real.sq_sqrt (Nat.cast_nonneg _)
  have h0 : (0 : ℝ) ≤ len * Real.sqrt cpu := by positivity
  refine ⟨fun h => ?_, ?_, ?_, ?_⟩
  · apply Nat.le_floor
    have : (1 : ℝ) ≤ Real.sqrt cpu := by rw [Real.one_le_sqrt]; exact_mod_cast h
    nlinarith [(Nat.cast_nonneg len : (0 : ℝ) ≤ len)]
  · have h := Nat.floor_le h0
    have : ((⌊(len : ℝ) * Real.sqrt cpu⌋₊ : ℝ)) ^ 2 ≤ (len * Real.sqrt cpu) ^ 2 := pow_le_pow_left₀ (Nat.cast_nonneg _) h 2
    rw [mul_pow, hs] at this
    exact_mod_cast this
  · have h := Nat.lt_floor_add_one ((len : ℝ) * Real.sqrt cpu)
    have : (len * Real.sqrt cpu) ^ 2 < ((⌊(len : ℝ) * Real.sqrt cpu⌋₊ : ℝ) + 1) ^ 2 := pow_lt_pow_left₀ h h0 (by norm_num)
    rw [mul_pow, hs] at this
    exact_mod_cast this
  · rintro k rfl
    have : Real.sqrt ((k ^ 2 : Nat) : ℝ) = k := by push_cast; exact Real.sqrt_sq (Nat.cast_nonneg _)
    rw [this, ← Nat.cast_mul, Nat.floor_natCast]

/-- **C111 (multilayer sweeps).** The measured parallelisation is the speed-up of a run over the target, for a pool grid that spans the
same rectangle. -/
theorem c111_multilayer {obj : Nat} {Gi Gx : Graph ℝ} {layers : List Nat} {objs : Nat → Nat} (hg : gammas ≠ []) (ho : omegas ≠ [])
    (hcpu : 0 < cpu) (hpd : poolDuration ≠ 0) {target : ℝ} (htarget : target ≠ 0) {S : Finset (List Nat)} {Gi' Gx' : Graph ℝ} {w' : World}
    (hserial : repeatedMultilayerLeiden env obj Gi Gx layers (gammas.map Fl.fin) omegas w = (.ok (S, Gi', Gx'), w')) :
    ∃ grid grid' : List ℝ, grid.length = poolLength gammas.length cpu ∧ grid'.length = poolLength omegas.length cpu ∧
      (∀ x ∈ grid, (∃ a ∈ gammas, a ≤ x) ∧ ∃ b ∈ gammas, x ≤ b) ∧
      (2 ≤ grid.length → ∀ x ∈ gammas, (∃ a ∈ grid, a ≤ x) ∧ ∃ b ∈ grid, x ≤ b) ∧
      (∀ x ∈ grid', (∃ a ∈ omegas, a ≤ x) ∧ ∃ b ∈ omegas, x ≤ b) ∧
      (2 ≤ grid'.length → ∀ x ∈ omegas, (∃ a ∈ grid', a ≤ x) ∧ ∃ b ∈ grid', x ≤ b) ∧
      (∀ S', repeatedParallelMultilayerLeiden env cpu workers objs order Gi' Gx' layers (grid.map Fl.fin) grid' = .ok S' →
        multilayerParallelization env cpu workers objs order obj Gi Gx layers gammas omegas duration poolDuration w target =
          .ok (speedUp (gammas.length * omegas.length) duration (grid.length * grid'.length) poolDuration / target)) ∧
      (∀ e, repeatedParallelMultilayerLeiden env cpu workers objs order Gi' Gx' layers (grid.map Fl.fin) grid' = .error e →
        multilayerParallelization env cpu workers objs order obj Gi Gx layers gammas omegas duration poolDuration w target = .error e) := by
  obtain ⟨lo, hi, hlo, hhi, hg1, hg2⟩ := grid_of hg
  obtain ⟨lo', hi', hlo', hhi', ho1, ho2⟩ := grid_of ho
  have pos : ∀ l : List ℝ, l ≠ [] → (l.length : ℝ) ≠ 0 ∧ (poolLength l.length cpu : ℝ) ≠ 0 := by
    intro l hl
    have h1 := List.length_pos_iff.mpr hl
    have h2 := (c111_pool_length l.length cpu).1 hcpu
    exact ⟨by positivity, by have : 0 < poolLength l.length cpu := by omega
                             positivity⟩
  obtain ⟨p1, p2⟩ := pos _ hg
  obtain ⟨q1, q2⟩ := pos _ ho
  refine ⟨linspace lo hi (poolLength gammas.length cpu), linspace lo' hi' (poolLength omegas.length cpu), linspace_length _ _ _,
    linspace_length _ _ _, hg1 _, hg2 _, ho1 _, ho2 _, ?_, ?_⟩
  · intro S' hS'
    unfold multilayerParallelization pyMin pyMax
    rw [hserial, hlo, hhi, hlo', hhi']
    simp only [Py.ok_bind, hS', linspace_length, pyDiv, if_neg p1, if_neg q1, if_neg hpd, if_neg htarget]
    congr 2
    unfold speedUp
    push_cast
    field_simp
  · intro e he
    unfold multilayerParallelization pyMin pyMax
    rw [hserial, hlo, hhi, hlo', hhi']
    simp only [Py.ok_bind, he, Py.error_bind]

-- two processors, the mock calculation 1.6 times as fast, the sweep 1.5 times as fast (passes), 1.1 times as fast (fails); order 1, 0, …
example (G : Graph ℝ) (workers : Nat → World) (w : World) :
    (performanceTest 2 ⟨3, 8, 10⟩ (singlelayerParallelization relabellingEnv 2 workers [1, 0, 3, 2] G [1, 2] 3 4 w) PerfState.fresh).1 = .ok () ∧
    (performanceTest 2 ⟨3, 8, 10⟩ (singlelayerParallelization relabellingEnv 2 workers [1, 0, 3, 2] G [1, 2] 11 20 w) PerfState.fresh).1 ≠ .ok () := by
  have hf : ∀ i H γ, ∃ c, relabellingEnv.findPartition i H γ = .ok c := fun i H γ => ⟨_, rfl⟩
  have ho : CompletionOrder 2 (List.length [(1 : ℝ), 2] * 2) [1, 0, 3, 2] := by
    show CompletionOrder 2 4 [1, 0, 3, 2]
    unfold CompletionOrder; decide
  constructor
  · rw [c111_singlelayer_verdict (by simp) (by norm_num) (by norm_num) (by norm_num) (by norm_num) hf ho]
    norm_num
  · rw [Ne, c111_singlelayer_verdict (by simp) (by norm_num) (by norm_num) (by norm_num) (by norm_num) hf ho]
    norm_num

-- four processors: 14 values instead of 7; three: 12
example : poolLength 7 4 = 14 := (c111_pool_length 7 4).2.2.2 2 rfl
example : poolLength 7 3 = 12 := by
  obtain ⟨-, h1, h2, -⟩ := c111_pool_length 7 3
  generalize poolLength 7 3 = n at h1 h2
  have : n ≤ 12 := by by_contra h; nlinarith [(by omega : 13 ≤ n)]
  have : 12 ≤ n := by by_contra h; nlinarith [(by omega : n ≤ 11)]
  omega

end Verif.Props
