import Verif.Proofs.Louvain
import Verif.Proofs.Strings
import Verif.Props.Drivers

/-!
# Properties C52, C58, C62: the legacy Louvain functions and the progress bar
-/

namespace Verif.Props
open Verif Verif.Spec

/-! ## C62: the progress bar -/

/-- A bar: `k` filled cells followed by `m` empty ones. -/
def bar (k m : Nat) : List Char := List.replicate k '#' ++ List.replicate m '.'

theorem good_le {rnd : Nat → Nat → Nat} {total length i : Nat} (hr : GoodRounding rnd total) (hi : i ≤ total) :
    rnd (length * i) total ≤ length :=
  (hr.mono _ _ (Nat.mul_le_mul_left length hi)).trans (hr.exact length).le

/-- **C62 (creation).** A bar can be created for every number of iterations, and every length but 0; it starts at 0.  A bar
for 0 iterations raises `ZeroDivisionError` when it is first drawn. -/
theorem c62_new (rnd : Nat → Nat → Nat) (total length : Nat) :
    (length ≠ 0 → Progress.new total length = .ok ⟨total, length, 0⟩) ∧
    Progress.new total 0 = .error .zeroDivisionError ∧
    (∀ p, Progress.new 0 length = .ok p → p.increment rnd = .error .zeroDivisionError ∧
      p.done rnd = .error .zeroDivisionError) := by
  refine ⟨fun h => by unfold Progress.new; rw [if_neg h], by unfold Progress.new; rw [if_pos rfl], fun p h => ?_⟩
  unfold Progress.new at h
  split at h
  · cases h
  · obtain rfl := Except.ok.inj h
    exact ⟨rfl, rfl⟩

/-- **C62 (increment).** `increment()` draws the bar for the next position. -/
theorem c62_increment (rnd : Nat → Nat → Nat) (p : Progress) {b : List Char} {p' : Progress}
    (h : p.increment rnd = .ok (b, p')) : p'.i = p.i + 1 ∧ p'.total = p.total ∧ p'.length = p.length ∧
      p.update rnd (p.i + 1) = .ok (b, p') := by
  refine ⟨?_, ?_, ?_, h⟩ <;>
  · unfold Progress.increment Progress.update Progress.bar at h
    split at h
    · cases h
    · simp only [Py.ok_bind, Py.pure_eq, Except.ok.injEq, Prod.mk.injEq] at h
      obtain ⟨-, rfl⟩ := h
      rfl

/-- **C62 (width).** For `i ≤ total`, `total > 0`, `update(i)` prints a bar of exactly `length` cells, filled ones first,
and remembers `i`; for every rounding of the division that is monotone and exact on integer quotients. -/
theorem c62_width {rnd : Nat → Nat → Nat} (p : Progress) (htotal : 0 < p.total) (hr : GoodRounding rnd p.total) {i : Nat}
    (hi : i ≤ p.total) :
    ∃ k m, p.update rnd i = .ok (bar k m, { p with i := i }) ∧ k + m = p.length := by
  refine ⟨rnd (p.length * i) p.total, p.length - rnd (p.length * i) p.total, ?_, ?_⟩
  · unfold Progress.update
    rw [Progress.bar_ok htotal.ne']; rfl
  · have := good_le (length := p.length) hr hi; omega

/-- **C62 (monotone).** A later position never fills fewer cells. -/
theorem c62_monotone {rnd : Nat → Nat → Nat} (p q : Progress) (hq : q.total = p.total ∧ q.length = p.length)
    (hr : GoodRounding rnd p.total) {i j : Nat} (hij : i ≤ j) {b b' : List Char} {p' q' : Progress}
    (hb : p.update rnd i = .ok (b, p')) (hb' : q.update rnd j = .ok (b', q')) : b.count '#' ≤ b'.count '#' := by
  have htot : p.total ≠ 0 := by
    intro h
    unfold Progress.update Progress.bar at hb
    rw [if_pos h] at hb
    cases hb
  unfold Progress.update at hb hb'
  rw [Progress.bar_ok htot] at hb
  rw [Progress.bar_ok (by rw [hq.1]; exact htot)] at hb'
  simp only [Py.ok_bind, Py.pure_eq, Except.ok.injEq, Prod.mk.injEq] at hb hb'
  obtain ⟨rfl, -⟩ := hb
  obtain ⟨rfl, -⟩ := hb'
  simp only [List.count_append, List.count_replicate, beq_self_eq_true, if_true]
  rw [hq.1, hq.2]
  have := hr.mono _ _ (Nat.mul_le_mul_left p.length hij)
  simpa using this

/-- **C62 (done).** `done()` prints a full bar. -/
theorem c62_done {rnd : Nat → Nat → Nat} (p : Progress) (htotal : 0 < p.total) (hr : GoodRounding rnd p.total) :
    p.done rnd = .ok (bar p.length 0, { p with i := p.total }) := by
  unfold Progress.done Progress.update
  rw [Progress.bar_ok htotal.ne', hr.exact]
  simp [bar, Py.ok_bind, Py.pure_eq]

/-- **C62 (cells).** With exact division the bar has `⌊length · i / total⌋` filled cells, and it is full iff `i ≥ total`. -/
theorem c62_exact (p : Progress) (htotal : 0 < p.total) (hlength : 0 < p.length) (i : Nat) :
    ∃ b p', p.update (fun a b => a / b) i = .ok (b, p') ∧ b.count '#' = p.length * i / p.total ∧
      ('.' ∉ b ↔ p.total ≤ i) := by
  refine ⟨_, _, by unfold Progress.update; rw [Progress.bar_ok htotal.ne', Py.ok_bind]; rfl, ?_, ?_⟩
  · simp [List.count_append, List.count_replicate]
  · simp only [List.mem_append, List.mem_replicate, Char.reduceEq, and_false, false_or, and_true, ne_eq, not_not]
    rw [Nat.sub_eq_zero_iff_le, Nat.le_div_iff_mul_le htotal]
    constructor
    · intro h; exact Nat.le_of_mul_le_mul_left h hlength
    · intro h; exact Nat.mul_le_mul_left _ h

/-- **C62 (one step).** An `increment()` before the end prints a bar of the full width and moves on by one position. -/
theorem c62_one_step {rnd : Nat → Nat → Nat} (p : Progress) (htotal : 0 < p.total) (hr : GoodRounding rnd p.total)
    (hi : p.i < p.total) :
    ∃ k m, p.increment rnd = .ok (bar k m, { p with i := p.i + 1 }) ∧ k + m = p.length :=
  c62_width p htotal hr hi

/-- **C62 (counting).** `n ≤ total` increments of a new progress bar print `n` bars, all of the full width, and leave it at
position `n`. -/
theorem c62_increments {rnd : Nat → Nat → Nat} {total length : Nat} {p : Progress} (htotal : 0 < total)
    (hp : Progress.new total length = .ok p) (hr : GoodRounding rnd total) {n : Nat} (hn : n ≤ total) :
    ∃ bars : List (List Char), bars.length = n ∧ (∀ b ∈ bars, ∃ k m, b = bar k m ∧ k + m = length) ∧
      (List.replicate n ()).foldlM (fun (s : List (List Char) × Progress) _ =>
          (s.2.increment rnd).map fun r => (s.1 ++ [r.1], r.2)) ([], p) = .ok (bars, ⟨total, length, n⟩) := by
  have hp' : p = ⟨total, length, 0⟩ := by
    by_cases hl : length = 0
    · subst hl; rw [(c62_new rnd total 0).2.1] at hp; cases hp
    · rw [(c62_new rnd total length).1 hl] at hp; cases hp; rfl
  subst hp'
  induction n with
  | zero => exact ⟨[], rfl, by simp, rfl⟩
  | succ n ih =>
    obtain ⟨bars, hlen, hall, hrun⟩ := ih (by omega)
    obtain ⟨k, m, hinc, hkm⟩ := c62_one_step (rnd := rnd) ⟨total, length, n⟩ htotal hr (by simpa using hn)
    refine ⟨bars ++ [bar k m], by simp [hlen], ?_, ?_⟩
    · intro b hb
      rcases List.mem_append.1 hb with hb | hb
      · exact hall b hb
      · exact ⟨k, m, by simpa using hb, hkm⟩
    · rw [List.replicate_succ', List.foldlM_append, hrun]
      simp only [Py.ok_bind, List.foldlM_cons, List.foldlM_nil, hinc]
      rfl

/-- **C62 (zero).** A progress bar for no iterations cannot be updated: `ZeroDivisionError`. -/
theorem c62_zero {rnd : Nat → Nat → Nat} (p : Progress) (h : p.total = 0) (i : Nat) :
    p.update rnd i = .error .zeroDivisionError := by
  unfold Progress.update Progress.bar
  rw [if_pos h]; rfl

example : GoodRounding (fun a b => a / b) 7 := ⟨fun _ _ h => Nat.div_le_div_right h, fun k => Nat.mul_div_cancel k (by omega)⟩
example : (Progress.mk 7 10 0).update (fun a b => a / b) 5 = .ok (bar 7 3, ⟨7, 10, 5⟩) := by decide

/-! ## C52: the Louvain driver -/

section C52
variable {env : LouvainEnv} {rnd : Nat → Nat → Nat} {lowMemory : Nat → Bool} {sched : Nat → List Nat}
  {Gi Gx : Graph ℝ} {layers : List Nat}

/-- The grid points in order, each with its number. -/
def numberedGrid {A B : Type} (gammas : List A) (omegas : List B) : List (Nat × A × B) :=
  (gridPoints gammas omegas).zipIdx.map fun pi => (pi.2, pi.1)

/-- In every dispatched chunk every task is completed at some time. -/
def CompleteSchedules (gammas : List (Fl ℝ)) (omegas : List ℝ) (chunkDispatch : Bool) (sched : Nat → List Nat) : Prop :=
  ∀ (m : Nat) c, (louvainChunks gammas.length chunkDispatch (numberedGrid gammas omegas)).1[m]? = some c →
    ∀ i < c.length, i ∈ sched m

/-- **C52 (grid).** The dispatched chunks concatenate to the full (gamma, omega) grid in order: point number
`j · #omegas + k` is `(gammas[j], omegas[k])`; for both settings of `chunk_dispatch`. -/
theorem c52_chunks (gammas : List (Fl ℝ)) (omegas : List ℝ) (chunkDispatch : Bool) :
    (louvainChunks gammas.length chunkDispatch (numberedGrid gammas omegas)).1.flatten = numberedGrid gammas omegas ∧
    (numberedGrid gammas omegas).length = gammas.length * omegas.length ∧
    ∀ (j k : Nat) γ ω, gammas[j]? = some γ → omegas[k]? = some ω →
      (numberedGrid gammas omegas)[j * omegas.length + k]? = some (j * omegas.length + k, γ, ω) := by
  refine ⟨louvainChunks_flatten _ _ _, ?_, ?_⟩
  · unfold numberedGrid
    rw [List.length_map, List.length_zipIdx, gridPoints_length]
  · intro j k γ ω hj hk
    unfold numberedGrid
    have hk' := (List.getElem?_eq_some_iff.mp hk).1
    have hdiv : (j * omegas.length + k) / omegas.length = j := by
      rw [Nat.mul_comm, Nat.mul_add_div (by omega), Nat.div_eq_of_lt hk', Nat.add_zero]
    have hmod : (j * omegas.length + k) % omegas.length = k := by
      rw [Nat.mul_comm, Nat.mul_add_mod, Nat.mod_eq_of_lt hk']
    rw [numbered_getElem?, (c51_grid gammas omegas).2, hdiv, hmod, hj, hk]
    rfl

/-- **C52 (result).** For every chunking, every completion order within the chunks and every history of the machine's
memory, `repeated_parallel_louvain_from_gammas_omegas` terminates, and it returns the set `S` iff the run at every grid
point (on the graphs with weights 1 where they had none) finds a partition and `S` consists of exactly one canonical tuple
for each of them. -/
theorem c52_result (hinst : env.installation = .multilayer) (gammas : List (Fl ℝ)) (omegas : List ℝ)
    (progressBar chunkDispatch : Bool) (hne : progressBar = false ∨ (gammas ≠ [] ∧ omegas ≠ []))
    (hs : CompleteSchedules gammas omegas chunkDispatch sched) :
    ∃ r, repeatedParallelLouvain env rnd lowMemory sched Gi Gx layers gammas omegas progressBar chunkDispatch = some r ∧
      ∀ S, (∃ bars, r = .ok (S, bars)) ↔ ∃ found,
        AllFound (fun j p => env.optimise j (defaulted env.test Gi) (defaulted env.test Gx) layers p.1 p.2)
          (gridPoints gammas omegas) found ∧ CanonicalSetOf S found := by
  obtain ⟨r, h1, h2, -⟩ := repeatedParallelLouvain_spec (env := env) (rnd := rnd) (lowMemory := lowMemory) (Gi := Gi)
    (Gx := Gx) (layers := layers) gammas omegas progressBar chunkDispatch hne hs
  refine ⟨r, h1, fun S => ?_⟩
  rw [h2 S]
  have : (fun (j : Nat) (p : Fl ℝ × ℝ) => multilayerLouvain env j Gi Gx layers p.1 p.2) =
      fun j p => env.optimise j (defaulted env.test Gi) (defaulted env.test Gx) layers p.1 p.2 := by
    funext j p; exact multilayerLouvain_eq hinst j p.1 p.2
  rw [this]

/-- **C52 (memory, order and chunking do not matter).** Two calls that differ in the progress bar, the chunking, the
completion orders and the memory conditions return the same set of partitions, if they return. -/
theorem c52_irrelevant (hinst : env.installation = .multilayer) {gammas : List (Fl ℝ)} {omegas : List ℝ}
    (hne : gammas ≠ [] ∧ omegas ≠ []) {b c b' c' : Bool} {rnd' : Nat → Nat → Nat} {lowMemory' : Nat → Bool}
    {sched' : Nat → List Nat} (hs : CompleteSchedules gammas omegas c sched)
    (hs' : CompleteSchedules gammas omegas c' sched') (S : Finset (List Nat)) :
    (∃ bars, repeatedParallelLouvain env rnd lowMemory sched Gi Gx layers gammas omegas b c = some (.ok (S, bars))) ↔
    ∃ bars, repeatedParallelLouvain env rnd' lowMemory' sched' Gi Gx layers gammas omegas b' c' = some (.ok (S, bars)) := by
  obtain ⟨r, h1, h2⟩ := c52_result (rnd := rnd) (lowMemory := lowMemory) (Gi := Gi) (Gx := Gx) (layers := layers) hinst
    gammas omegas b c (Or.inr hne) hs
  obtain ⟨r', h1', h2'⟩ := c52_result (rnd := rnd') (lowMemory := lowMemory') (Gi := Gi) (Gx := Gx) (layers := layers) hinst
    gammas omegas b' c' (Or.inr hne) hs'
  rw [h1, h1']
  simp only [Option.some.injEq]
  rw [h2, h2']

/-- **C52 (serial).** `repeated_louvain_from_gammas_omegas` returns `S` under the same condition: the parallel function
returns what the serial one does. -/
theorem c52_serial (hinst : env.installation = .multilayer) (gammas : List (Fl ℝ)) (omegas : List ℝ) (S : Finset (List Nat)) :
    repeatedLouvain env Gi Gx layers gammas omegas = .ok S ↔ ∃ found,
      AllFound (fun j p => env.optimise j (defaulted env.test Gi) (defaulted env.test Gx) layers p.1 p.2)
        (gridPoints gammas omegas) found ∧ CanonicalSetOf S found := by
  unfold repeatedLouvain
  have hfun : (fun (pi : (Fl ℝ × ℝ) × Nat) => (do
      let c ← multilayerLouvain env pi.2 Gi Gx layers pi.1.1 pi.1.2
      sortedTuple c : Py (List Nat))) =
      fun pi => (env.optimise pi.2 (defaulted env.test Gi) (defaulted env.test Gx) layers pi.1.1 pi.1.2).map canon := by
    funext pi
    rw [multilayerLouvain_eq hinst]
    cases env.optimise pi.2 (defaulted env.test Gi) (defaulted env.test Gx) layers pi.1.1 pi.1.2 with
    | error e => rfl
    | ok c => exact sortedTuple_eq c
  rw [hfun]
  have key : ∀ ys, ((gridPoints gammas omegas).zipIdx.mapM fun pi =>
      (env.optimise pi.2 (defaulted env.test Gi) (defaulted env.test Gx) layers pi.1.1 pi.1.2).map canon) = .ok ys ↔
      ∃ found, AllFound (fun j p => env.optimise j (defaulted env.test Gi) (defaulted env.test Gx) layers p.1 p.2)
        (gridPoints gammas omegas) found ∧ ys = found.map canon := by
    intro ys
    generalize gridPoints gammas omegas = pts
    rw [mapM_eq_ok_iff]
    constructor
    · rintro ⟨hl, h⟩
      have hex : ∀ j : Fin pts.length, ∃ c, env.optimise j (defaulted env.test Gi) (defaulted env.test Gx) layers
          (pts[j.1]'j.2).1 (pts[j.1]'j.2).2 = .ok c ∧ ys[j.1]? = some (canon c) := by
        intro j
        have hj : j.1 < ys.length := by rw [hl, List.length_zipIdx]; exact j.2
        have := h j.1 (pts[j.1]'j.2, j.1) ys[j.1] (by rw [List.getElem?_zipIdx, List.getElem?_eq_getElem j.2]; simp)
          (List.getElem?_eq_getElem hj)
        simp only at this
        cases ho : env.optimise j (defaulted env.test Gi) (defaulted env.test Gx) layers (pts[j.1]'j.2).1
            (pts[j.1]'j.2).2 with
        | error e => rw [ho] at this; cases this
        | ok c =>
          rw [ho] at this
          exact ⟨c, rfl, by rw [List.getElem?_eq_getElem hj, ← Except.ok.inj this]⟩
      choose f hf using hex
      refine ⟨List.ofFn f, ⟨by simp, ?_⟩, ?_⟩
      · intro j p c hp hc
        obtain ⟨hj, rfl⟩ := List.getElem?_eq_some_iff.mp hp
        have hc' : f ⟨j, hj⟩ = c := by
          rw [List.getElem?_ofFn, dif_pos hj] at hc
          exact Option.some.inj hc
        rw [← hc']
        exact (hf ⟨j, hj⟩).1
      · apply List.ext_getElem?
        intro j
        by_cases hj : j < pts.length
        · rw [(hf ⟨j, hj⟩).2, List.getElem?_map, List.getElem?_ofFn, dif_pos hj]; rfl
        · rw [List.getElem?_eq_none (by rw [hl, List.length_zipIdx]; omega),
            List.getElem?_eq_none (by rw [List.length_map, List.length_ofFn]; omega)]
    · rintro ⟨found, ⟨hl, h⟩, rfl⟩
      refine ⟨by rw [List.length_map, List.length_zipIdx, hl], ?_⟩
      intro j p c hp hc
      rw [List.getElem?_zipIdx] at hp
      rw [List.getElem?_map] at hc
      cases hpj : pts[j]? with
      | none => rw [hpj] at hp; cases hp
      | some q =>
        rw [hpj] at hp
        cases hfj : found[j]? with
        | none => rw [hfj] at hc; cases hc
        | some d =>
          rw [hfj] at hc
          obtain rfl := Option.some.inj hp
          obtain rfl := Option.some.inj hc
          simp only [Nat.zero_add]
          have := h j q d hpj hfj
          simp only at this
          rw [this]; rfl
  constructor
  · intro h
    cases hm : ((gridPoints gammas omegas).zipIdx.mapM fun pi =>
      (env.optimise pi.2 (defaulted env.test Gi) (defaulted env.test Gx) layers pi.1.1 pi.1.2).map canon) with
    | error e => rw [hm] at h; cases h
    | ok ys =>
      rw [hm, Py.ok_bind, Py.pure_eq] at h
      obtain rfl := Except.ok.inj h
      obtain ⟨found, h1, rfl⟩ := (key ys).mp hm
      refine ⟨found, h1, ?_⟩
      rw [canonicalSetOf_iff]
      simp
  · rintro ⟨found, h1, h2⟩
    rw [(key (found.map canon)).mpr ⟨found, h1, rfl⟩, Py.ok_bind, Py.pure_eq]
    congr 1
    ext x
    rw [canonicalSetOf_iff] at h2
    rw [h2 x]
    simp

/-- **C52 (installations).** Without the multilayer version of the package every call with a non-empty grid raises:
`NameError` if the package is missing, `AttributeError` if it has no multilayer support. -/
theorem c52_installation (hinst : env.installation ≠ .multilayer) {gammas : List (Fl ℝ)} {omegas : List ℝ}
    (hne : gammas ≠ [] ∧ omegas ≠ []) (b c : Bool) (hs : CompleteSchedules gammas omegas c sched) :
    ∃ r, repeatedParallelLouvain env rnd lowMemory sched Gi Gx layers gammas omegas b c = some r ∧
      (∀ v, r ≠ .ok v) ∧ ∀ i γ ω, multilayerLouvain env i Gi Gx layers γ ω =
        .error (if env.installation = .missing then .nameError else .attributeError) := by
  have hml : ∀ i γ ω, multilayerLouvain env i Gi Gx layers γ ω =
        .error (if env.installation = .missing then .nameError else .attributeError) := by
    intro i γ ω
    unfold multilayerLouvain checkCapabilities
    cases h : env.installation with
    | missing => rfl
    | plain => rfl
    | multilayer => exact absurd h hinst
  obtain ⟨r, h1, h2, -⟩ := repeatedParallelLouvain_spec (env := env) (rnd := rnd) (lowMemory := lowMemory) (Gi := Gi)
    (Gx := Gx) (layers := layers) gammas omegas b c (Or.inr hne) hs
  refine ⟨r, h1, ?_, hml⟩
  rintro ⟨S, bars⟩ rfl
  obtain ⟨found, ⟨hl, hf⟩, -⟩ := (h2 S).mp ⟨bars, rfl⟩
  have hpos : 0 < (gridPoints gammas omegas).length := by
    rw [gridPoints_length]
    exact Nat.mul_pos (List.length_pos_of_ne_nil hne.1) (List.length_pos_of_ne_nil hne.2)
  have := hf 0 _ _ (List.getElem?_eq_getElem hpos) (List.getElem?_eq_getElem (by rw [hl]; exact hpos))
  simp only at this
  rw [hml] at this
  cases this

/-- **C52 (empty grid).** With an empty grid the function returns the empty set if it shows no progress bar, and raises
`ZeroDivisionError` if it does (its default). -/
theorem c52_empty {gammas : List (Fl ℝ)} {omegas : List ℝ} (hempty : gammas = [] ∨ omegas = []) (c : Bool) :
    repeatedParallelLouvain env rnd lowMemory sched Gi Gx layers gammas omegas false c = some (.ok (∅, [])) ∧
    repeatedParallelLouvain env rnd lowMemory sched Gi Gx layers gammas omegas true c =
      some (.error .zeroDivisionError) := by
  have hg : gridPoints gammas omegas = [] := by
    apply List.length_eq_zero_iff.mp
    rw [gridPoints_length]
    rcases hempty with rfl | rfl <;> simp
  have hch : louvainChunks gammas.length c ([] : List (Nat × Fl ℝ × ℝ)) = ([[]], gammas.length) := by
    unfold louvainChunks
    simp
  have hloop : ∀ pr, louvainLoop env rnd lowMemory sched Gi Gx layers [[]] 0 ∅ pr 1 =
      match showProgress rnd pr with
      | .error e => some (.error e)
      | .ok (bars, pr) => some (.ok (∅, bars ++ [], pr, if lowMemory 0 then 1 + 1 else 1)) := by
    intro pr
    unfold louvainLoop
    rw [poolStarmap_complete _ _ _ (by simp)]
    rfl
  constructor
  · unfold repeatedParallelLouvain
    simp only [hg, List.zipIdx_nil, List.map_nil, hch, Bool.false_eq_true, if_false, hloop, showProgress]
    rfl
  · unfold repeatedParallelLouvain
    simp only [hg, List.zipIdx_nil, List.map_nil, hch, if_true, hloop, List.length_nil]
    unfold ceilDiv
    by_cases h0 : gammas.length = 0
    · rw [if_pos h0]; rfl
    · rw [if_neg h0]
      have hd : (0 + gammas.length - 1) / gammas.length = 0 := Nat.div_eq_of_lt (by omega)
      rw [hd]
      rfl

/-- With at least 99 grid points and `chunk_dispatch` there are between 99 and 197 chunks, none
empty and none longer than `#points // 99`; otherwise there is one chunk; `louvainBarTotal`. -/
theorem chunk_count (gammas : List (Fl ℝ)) (omegas : List ℝ) (c : Bool) (hne : gammas ≠ []) :
    (99 ≤ gammas.length * omegas.length → c = true →
      (louvainChunks gammas.length c (numberedGrid gammas omegas)).1.length =
        louvainBarTotal gammas.length (gammas.length * omegas.length) c ∧
      99 ≤ (louvainChunks gammas.length c (numberedGrid gammas omegas)).1.length ∧
      (louvainChunks gammas.length c (numberedGrid gammas omegas)).1.length ≤ 197 ∧
      ∀ ch ∈ (louvainChunks gammas.length c (numberedGrid gammas omegas)).1,
        ch ≠ [] ∧ ch.length ≤ gammas.length * omegas.length / 99) ∧
    ((gammas.length * omegas.length < 99 ∨ c = false) →
      (louvainChunks gammas.length c (numberedGrid gammas omegas)).1 = [numberedGrid gammas omegas] ∧
      louvainBarTotal gammas.length (gammas.length * omegas.length) c = omegas.length) := by
  have hl := (c52_chunks gammas omegas c).2.1
  constructor
  · intro h99 hc
    have hq : 0 < gammas.length * omegas.length / 99 := Nat.div_pos h99 (by omega)
    have hch : louvainChunks gammas.length c (numberedGrid gammas omegas) =
        (batches (gammas.length * omegas.length / 99) (numberedGrid gammas omegas),
          gammas.length * omegas.length / 99) := by
      unfold louvainChunks
      rw [hl, hc]
      simp only
      rw [if_pos ⟨hq, trivial⟩]
    have hlen : (louvainChunks gammas.length c (numberedGrid gammas omegas)).1.length =
        (gammas.length * omegas.length + gammas.length * omegas.length / 99 - 1) / (gammas.length * omegas.length / 99) := by
      rw [hch]
      unfold batches
      rw [List.length_map, List.length_range, hl]
    refine ⟨?_, ?_, ?_, ?_⟩
    · rw [hlen]
      unfold louvainBarTotal
      rw [hc]
      simp only
      rw [if_pos ⟨hq, trivial⟩]
    · rw [hlen, Nat.le_div_iff_mul_le hq]
      omega
    · rw [hlen]
      apply Nat.le_of_lt_succ
      rw [Nat.div_lt_iff_lt_mul hq]
      omega
    · rw [hch]
      intro ch hm
      obtain ⟨k, hk⟩ := List.mem_iff_getElem?.mp hm
      rw [batches_getElem?] at hk
      split at hk
      · rename_i hlt
        obtain rfl := Option.some.inj hk
        have hb := batch_lt hq hlt
        refine ⟨?_, by rw [List.length_take]; omega⟩
        intro h0
        have := congrArg List.length h0
        rw [List.length_take, List.length_drop, List.length_nil] at this
        omega
      · cases hk
  · intro h
    have hneg : ¬ (0 < gammas.length * omegas.length / 99 ∧ c = true) := by
      rcases h with h | h
      · rw [Nat.div_eq_of_lt h]; simp
      · rw [h]; simp
    constructor
    · unfold louvainChunks
      rw [hl]
      simp only
      rw [if_neg hneg]
    · unfold louvainBarTotal
      simp only
      rw [if_neg hneg]
      have hg := List.length_pos_of_ne_nil hne
      rw [show gammas.length * omegas.length + gammas.length - 1 = gammas.length - 1 + gammas.length * omegas.length by omega,
        Nat.add_mul_div_left _ _ hg, Nat.div_eq_of_lt (by omega), Nat.zero_add]

/-- **C52 (number of chunks).** With at least 99 grid points and `chunk_dispatch` there are between 99 and 197 chunks, none
empty and none longer than `#points // 99`; otherwise there is one chunk. -/
theorem c52_chunk_count (gammas : List (Fl ℝ)) (omegas : List ℝ) (c : Bool) (hne : gammas ≠ []) :
    (99 ≤ gammas.length * omegas.length → c = true →
      99 ≤ (louvainChunks gammas.length c (numberedGrid gammas omegas)).1.length ∧
      (louvainChunks gammas.length c (numberedGrid gammas omegas)).1.length ≤ 197 ∧
      ∀ ch ∈ (louvainChunks gammas.length c (numberedGrid gammas omegas)).1,
        ch ≠ [] ∧ ch.length ≤ gammas.length * omegas.length / 99) ∧
    ((gammas.length * omegas.length < 99 ∨ c = false) →
      (louvainChunks gammas.length c (numberedGrid gammas omegas)).1 = [numberedGrid gammas omegas]) :=
  ⟨fun h1 h2 => ((chunk_count gammas omegas c hne).1 h1 h2).2, fun h => ((chunk_count gammas omegas c hne).2 h).1⟩

/-- **C52 (progress).** With a progress bar the function prints one bar per chunk and a final full one, all of the full width
of 80 cells.  The bar counts towards the number of chunks if there are at least 99 points and `chunk_dispatch`; with a
single chunk it counts towards the number of omegas. -/
theorem c52_progress (gammas : List (Fl ℝ)) (omegas : List ℝ) (c : Bool) (hne : gammas ≠ [] ∧ omegas ≠ [])
    (hs : CompleteSchedules gammas omegas c sched) (hr : ∀ t, 0 < t → GoodRounding rnd t) {S : Finset (List Nat)}
    {bars : List (List Char)}
    (h : repeatedParallelLouvain env rnd lowMemory sched Gi Gx layers gammas omegas true c = some (.ok (S, bars))) :
    ∃ chunks total : Nat, chunks = (louvainChunks gammas.length c (numberedGrid gammas omegas)).1.length ∧
      total = (if 99 ≤ gammas.length * omegas.length ∧ c = true then chunks else omegas.length) ∧
      bars.length = chunks + 1 ∧ bars.getLast? = some (bar 80 0) ∧
      ∀ m < chunks, ∃ k, k ≤ 80 ∧ k = rnd (80 * (m + 1)) total ∧ bars[m]? = some (bar k (80 - k)) := by
  obtain ⟨r, h1, -, h3⟩ := repeatedParallelLouvain_spec (env := env) (rnd := rnd) (lowMemory := lowMemory) (Gi := Gi)
    (Gx := Gx) (layers := layers) gammas omegas true c (Or.inr hne) hs
  rw [h] at h1
  obtain rfl := Option.some.inj h1
  have h4 := h3 S bars rfl
  rw [if_pos rfl] at h4
  have hboth : louvainBarTotal gammas.length (gammas.length * omegas.length) c =
        (if 99 ≤ gammas.length * omegas.length ∧ c = true then
          (louvainChunks gammas.length c (numberedGrid gammas omegas)).1.length else omegas.length) ∧
      0 < (louvainChunks gammas.length c (numberedGrid gammas omegas)).1.length ∧
      (louvainChunks gammas.length c (numberedGrid gammas omegas)).1.length ≤
        louvainBarTotal gammas.length (gammas.length * omegas.length) c := by
    by_cases hbig : 99 ≤ gammas.length * omegas.length ∧ c = true
    · obtain ⟨h5, h6, -⟩ := (chunk_count gammas omegas c hne.1).1 hbig.1 hbig.2
      rw [if_pos hbig]
      exact ⟨h5.symm, by omega, h5.le⟩
    · obtain ⟨h5, h6⟩ := (chunk_count gammas omegas c hne.1).2 (by
        by_cases hb : 99 ≤ gammas.length * omegas.length
        · right; cases c with
          | false => rfl
          | true => exact absurd ⟨hb, rfl⟩ hbig
        · left; omega)
      rw [if_neg hbig, h5, h6]
      have := List.length_pos_of_ne_nil hne.2
      refine ⟨rfl, by simp, ?_⟩
      rw [List.length_singleton]; omega
  obtain ⟨htot, hpos, hcnt⟩ := hboth
  have hr' := hr _ (lt_of_lt_of_le hpos hcnt)
  rw [hr'.exact] at h4
  refine ⟨_, _, rfl, rfl, ?_, ?_, ?_⟩
  · rw [h4]
    unfold barsFrom
    rw [List.length_append, List.length_map, List.length_range]
    rfl
  · rw [h4]; simp [bar]
  · intro m hm
    rw [← htot]
    refine ⟨_, good_le hr' (by omega : m + 1 ≤ _), rfl, ?_⟩
    rw [h4, List.getElem?_append_left (by
      unfold barsFrom; rw [List.length_map, List.length_range]; exact hm)]
    unfold barsFrom
    unfold numberedGrid at hm
    rw [List.getElem?_map, List.getElem?_range hm]
    simp [bar]

/-- An optimiser that finds one of two partitions. -/
noncomputable def louvainEnv : LouvainEnv where
  installation := .multilayer
  test := fun _ => false
  optimise := fun i _ _ _ _ _ => .ok (if i % 2 = 0 then [4, 4, 0] else [1, 0, 1])

theorem complete_exists (gammas : List (Fl ℝ)) (omegas : List ℝ) (c : Bool) :
    CompleteSchedules gammas omegas c (fun m =>
      (List.range (((louvainChunks gammas.length c (numberedGrid gammas omegas)).1[m]?).getD []).length).reverse) := by
  intro m ch hm i hi
  simp only [hm]
  simpa using hi

-- 10 × 20 grid points: 100 chunks of two points, each completed in reverse order
example : (10 : Nat) * 20 / 99 = 2 ∧ louvainBarTotal 10 (10 * 20) true = 100 := by decide
example : ∃ r sched, repeatedParallelLouvain louvainEnv (fun a b => a / b) (fun k => k % 3 == 0) sched Gi Gx layers
    (List.replicate 10 (.fin 1)) (List.replicate 20 0) true true = some r ∧
    ∃ bars, r = .ok ({[0, 0, 1], [0, 1, 0]}, bars) := by
  obtain ⟨r, h1, h2⟩ := c52_result (env := louvainEnv) (rnd := fun a b => a / b) (lowMemory := fun k => k % 3 == 0)
    (Gi := Gi) (Gx := Gx) (layers := layers) rfl (List.replicate 10 (.fin 1)) (List.replicate 20 0) true true
    (Or.inr (by simp)) (complete_exists _ _ _)
  refine ⟨r, _, h1, ?_⟩
  rw [h2]
  have hl : (gridPoints (List.replicate 10 (Fl.fin (1 : ℝ))) (List.replicate 20 (0 : ℝ))).length = 200 := by
    rw [gridPoints_length]; simp
  refine ⟨(List.range 200).map fun i => if i % 2 = 0 then [4, 4, 0] else [1, 0, 1], ⟨by rw [hl]; simp, ?_⟩, ?_⟩
  · intro j p d hp hd
    obtain ⟨hj, -⟩ := List.getElem?_eq_some_iff.mp hp
    rw [hl] at hj
    rw [List.getElem?_map, List.getElem?_range hj] at hd
    rw [← Option.some.inj hd]
    rfl
  · rw [canonicalSetOf_iff]
    intro x
    simp only [Finset.mem_insert, Finset.mem_singleton, List.mem_map, List.mem_range]
    constructor
    · rintro (rfl | rfl)
      · exact ⟨_, ⟨0, by omega, rfl⟩, by decide⟩
      · exact ⟨_, ⟨1, by omega, rfl⟩, by decide⟩
    · rintro ⟨_, ⟨i, -, rfl⟩, rfl⟩
      split
      · left; decide
      · right; decide

end C52

/-! ## C58: deprecated names -/

/-- **C58 (forwarding).** A name that the deprecated module does not define itself and that contains `louvain` is looked up
in `leiden_utilities` with every occurrence of `louvain` replaced by `leiden`: the result is that attribute, or an
`AttributeError` if there is none.  (`ReplacedAll` determines the new name.) -/
theorem c58_forward (own leiden : List (List Char)) {name : List Char} (hown : name ∉ own)
    (hin : "louvain".toList <:+: name) :
    ∃ leidenName, ReplacedAll "louvain".toList "leiden".toList name leidenName ∧
      (∀ other, ReplacedAll "louvain".toList "leiden".toList name other → other = leidenName) ∧
      louvainGetattr own leiden name =
        if leidenName ∈ leiden then .ok (.leiden leidenName) else .error .attributeError := by
  refine ⟨strReplace "louvain".toList "leiden".toList name, strReplace_replacedAll (by decide) _ _,
    fun other h => replacedAll_unique (by decide) borderless_louvain h, ?_⟩
  unfold louvainGetattr
  rw [if_neg hown, if_pos ((strContains_iff _ _).mpr hin)]

/-- **C58 (own names).** Names the module defines itself (the legacy multilayer functions) are not forwarded. -/
theorem c58_own (own leiden : List (List Char)) {name : List Char} (hown : name ∈ own) :
    louvainGetattr own leiden name = .ok (.own name) := by
  unfold louvainGetattr; rw [if_pos hown]

/-- **C58 (other names; finding).** Every other unknown name, for example a misspelt one, is silently `None`; the lookup
never raises `AttributeError` for it. -/
theorem c58_other_names_give_none (own leiden : List (List Char)) {name : List Char} (hown : name ∉ own)
    (hin : ¬ "louvain".toList <:+: name) : louvainGetattr own leiden name = .ok .none := by
  unfold louvainGetattr
  rw [if_neg hown, if_neg (by rw [strContains_iff]; exact hin)]

/-- **C58 (lookups, partial).** The lookup raises `AttributeError` exactly for the unknown names containing `louvain` whose
replacement is not an attribute of `leiden_utilities`.  Missing: unknown names without `louvain` (see
`c58_other_names_give_none`). -/
theorem c58_lookup_partial (own leiden : List (List Char)) (name : List Char) :
    louvainGetattr own leiden name = .error .attributeError ↔
      name ∉ own ∧ "louvain".toList <:+: name ∧
        ∀ other, ReplacedAll "louvain".toList "leiden".toList name other → other ∉ leiden := by
  by_cases hown : name ∈ own
  · rw [c58_own own leiden hown]; simp [hown]
  · by_cases hin : "louvain".toList <:+: name
    · obtain ⟨ln, h1, h2, h3⟩ := c58_forward own leiden hown hin
      rw [h3]
      constructor
      · intro h
        refine ⟨hown, hin, fun other ho => ?_⟩
        rw [h2 other ho]
        intro hm
        rw [if_pos hm] at h
        cases h
      · rintro ⟨-, -, h⟩
        rw [if_neg (h ln h1)]
    · rw [c58_other_names_give_none own leiden hown hin]
      exact ⟨fun h => (by cases h), fun h => absurd h.2.1 hin⟩

/-- **C58 (capabilities, partial).** With the package installed, the check with `fatal=False` never raises and tells whether
the package has multilayer support, and with `fatal=True` it raises `AttributeError` iff it has not.  Missing: the package
is not installed (see `c58_missing_package`). -/
theorem c58_capabilities_partial {inst : LouvainInstallation} (h : inst ≠ .missing) :
    checkCapabilities inst false = .ok (decide (inst = .multilayer)) ∧
    checkCapabilities inst true = if inst = .multilayer then .ok true else .error .attributeError := by
  cases inst with
  | missing => exact absurd rfl h
  | plain => exact ⟨rfl, rfl⟩
  | multilayer => exact ⟨rfl, rfl⟩

/-- **C58 (missing package; finding).** Without the package the check raises `NameError` even with `fatal=False`. -/
theorem c58_missing_package (fatal : Bool) : checkCapabilities .missing fatal = .error .nameError := rfl

-- the names of the single-layer functions, forwarded
example : louvainGetattr ["multilayer_louvain".toList] ["repeated_leiden_from_gammas".toList]
    "repeated_louvain_from_gammas".toList = .ok (.leiden "repeated_leiden_from_gammas".toList) := by
  decide +kernel
example : louvainGetattr [] ["leiden_leiden".toList] "louvain_louvian".toList = .error .attributeError := by decide +kernel
example : louvainGetattr [] ["sorted_tuple".toList] "sorted_tupel".toList = .ok .none := by decide +kernel

end Verif.Props
