import Verif.Proofs.Drivers
import Verif.Props.History

/-!
# Property C51: repeated Leiden runs
-/

namespace Verif.Props
open Verif Verif.Spec

variable {env : LeidenEnv}

/-- The batches in which `n` tasks are handed to the pool of `cpu` workers are numbered `0, 1, …`; `order` is a possible
order of their completion: each of them once. -/
def CompletionOrder (cpu n : Nat) (order : List Nat) : Prop :=
  order.Perm (List.range ((n + poolChunkSize cpu n - 1) / poolChunkSize cpu n))

theorem completionOrder_iff {β : Type} {cpu : Nat} {ps : List β} {order : List Nat} :
    CompletionOrder cpu ps.length order ↔
      order.Perm (List.range (batches (poolChunkSize cpu ps.length) ps).length) := by
  unfold CompletionOrder batches; rw [List.length_map, List.length_range]

/-- **C51 (batches).** With fewer than 200 tasks per worker every task is its own batch; with at least 100 tasks per
worker the batches are as large as possible with at least 100 full ones per worker. -/
theorem c51_batch_size {cpu n : Nat} (hcpu : 0 < cpu) :
    (n < 200 * cpu → poolChunkSize cpu n = 1) ∧
    (100 * cpu ≤ n → poolChunkSize cpu n * (100 * cpu) ≤ n ∧ n < (poolChunkSize cpu n + 1) * (100 * cpu)) := by
  have hpos : 0 < cpu * 100 := by omega
  unfold poolChunkSize
  constructor
  · intro h
    have : n / (cpu * 100) < 2 := by rw [Nat.div_lt_iff_lt_mul hpos]; omega
    omega
  · intro h
    have h1 : 1 ≤ n / (cpu * 100) := by rw [Nat.le_div_iff_mul_le hpos]; omega
    rw [max_eq_right h1, mul_comm 100 cpu]
    exact ⟨Nat.div_mul_le_self n _, by
      have := Nat.lt_div_mul_add (a := n) hpos
      rw [Nat.add_mul, one_mul]; exact this⟩

example : poolChunkSize 4 399 = 1 ∧ poolChunkSize 4 10000 = 25 := by decide

/-- **C51 (serial).** `repeated_leiden_from_gammas` returns `S` iff every run finds a partition and `S` consists of exactly
one canonical tuple for each partition found; the graph is the same as before except for added weights 1. -/
theorem c51_serial (G : Graph ℝ) (gammas : List (Fl ℝ)) (w : World) (S : Finset (List Nat)) :
    (repeatedLeiden env G gammas w).1.map Prod.fst = .ok S ↔
      ∃ found, AllFound (fun j γ => env.findPartition (w.calls + j) (defaulted env.test G) γ) gammas found ∧
        CanonicalSetOf S found :=
  setComprehension_ok_iff (singlelayer_runSpec env G) gammas G w rfl S

/-- **C51 (parallel).** For every number of workers, every state of the worker processes and every completion order,
`repeated_parallel_leiden_from_gammas` returns `S` iff the run for every gamma finds a partition and `S` consists of exactly
one canonical tuple for each partition found. -/
theorem c51_parallel (G : Graph ℝ) (gammas : List (Fl ℝ)) (cpu : Nat) (workers : Nat → World) {order : List Nat}
    (horder : CompletionOrder cpu gammas.length order) (S : Finset (List Nat)) :
    repeatedParallelLeiden env cpu workers order G gammas = .ok S ↔
      ∃ found, AllFound (fun j γ => env.findPartition ((workers (j / poolChunkSize cpu gammas.length)).calls +
        j % poolChunkSize cpu gammas.length) (defaulted env.test G) γ) gammas found ∧ CanonicalSetOf S found :=
  parallelDriver_ok_iff (fun _ => singlelayer_runSpec env G) cpu workers G (fun _ => rfl) gammas
    (completionOrder_iff.mp horder) S

/-- **C51 (any completion order).** The result does not depend on the order in which the batches are completed. -/
theorem c51_order_irrelevant (G : Graph ℝ) (gammas : List (Fl ℝ)) (cpu : Nat) (workers : Nat → World)
    {order order' : List Nat} (h : CompletionOrder cpu gammas.length order)
    (h' : CompletionOrder cpu gammas.length order') (S : Finset (List Nat)) :
    repeatedParallelLeiden env cpu workers order G gammas = .ok S ↔
      repeatedParallelLeiden env cpu workers order' G gammas = .ok S := by
  rw [c51_parallel G gammas cpu workers h, c51_parallel G gammas cpu workers h']

/-- **C51 (parallel = serial).** With a deterministic optimiser the parallel function returns the same set as the serial
one, for every number of workers and every completion order. -/
theorem c51_parallel_eq_serial (hdet : Deterministic env) (G : Graph ℝ) (gammas : List (Fl ℝ)) (cpu : Nat)
    (workers : Nat → World) {order : List Nat} (horder : CompletionOrder cpu gammas.length order) (w : World)
    (S : Finset (List Nat)) :
    repeatedParallelLeiden env cpu workers order G gammas = .ok S ↔
      (repeatedLeiden env G gammas w).1.map Prod.fst = .ok S := by
  rw [c51_parallel G gammas cpu workers horder, c51_serial]
  have : (fun j γ => env.findPartition ((workers (j / poolChunkSize cpu gammas.length)).calls +
      j % poolChunkSize cpu gammas.length) (defaulted env.test G) γ) =
      fun j γ => env.findPartition (w.calls + j) (defaulted env.test G) γ := by
    funext j γ; exact hdet.1 _ _ _ _
  rw [this]

/-- **C51 (no duplicates).** Two returned tuples never describe the same partition. -/
theorem c51_no_duplicates {S : Finset (List Nat)} {found : List (List Nat)} (h : CanonicalSetOf S found) :
    ∀ x ∈ S, ∀ y ∈ S, SamePartition x y → x = y :=
  fun x hx y hy hs => firstAppearance_unique (h.2 x hx).1 (h.2 y hy).1 hs

/-- An optimiser that labels the same partition differently in odd and even calls, and finds another one for gamma 2. -/
noncomputable def relabellingEnv : LeidenEnv where
  test := fun _ => false
  findPartition := fun i _ γ =>
    open Classical in .ok (if γ = .fin 2 then [0, 1, 2] else if i % 2 = 0 then [0, 0, 1] else [5, 5, 3])
  optimiseMultiplex := fun _ _ _ => .error .keyError
  spinglass := fun _ _ _ => .error .keyError
  fsolve := fun _ x => x
  fmt := fun _ => "x"

-- three batches completed in the order 2, 0, 1: three runs, two partitions
example (G : Graph ℝ) (workers : Nat → World) :
    ∃ S, repeatedParallelLeiden relabellingEnv 8 workers [2, 0, 1] G [.fin 1, .fin 2, .fin 3] = .ok S ∧
      S = {[0, 0, 1], [0, 1, 2]} := by
  classical
  refine ⟨_, (c51_parallel G _ 8 workers (by unfold CompletionOrder; decide) _).mpr
    ⟨[if (workers 0).calls % 2 = 0 then [0, 0, 1] else [5, 5, 3], [0, 1, 2],
      if (workers 2).calls % 2 = 0 then [0, 0, 1] else [5, 5, 3]], ⟨rfl, ?_⟩, ?_⟩, rfl⟩
  · rintro (_ | _ | _ | j) p c hp hc
    · simp at hp hc; subst hp; subst hc; simp [relabellingEnv, poolChunkSize]
    · simp at hp hc; subst hp; subst hc; simp [relabellingEnv, poolChunkSize]
    · simp at hp hc; subst hp; subst hc; simp [relabellingEnv, poolChunkSize]
    · simp at hp
  · rw [canonicalSetOf_iff]
    have h1 : canon [0, 0, 1] = [0, 0, 1] := by decide
    have h2 : canon [5, 5, 3] = [0, 0, 1] := by decide
    have h3 : canon [0, 1, 2] = [0, 1, 2] := by decide
    intro x
    split <;> split <;> simp [h1, h2, h3, eq_comm] <;> tauto

/-! ## Multilayer -/

/-- **C51 (grid).** The tasks of the multilayer drivers are all pairs of a gamma and an omega, gamma-major. -/
theorem c51_grid {A B : Type} (gammas : List A) (omegas : List B) :
    (gridPoints gammas omegas).length = gammas.length * omegas.length ∧
    ∀ j, (gridPoints gammas omegas)[j]? = (gammas[j / omegas.length]?).bind fun g =>
      (omegas[j % omegas.length]?).map fun o => (g, o) := by
  unfold gridPoints
  induction gammas with
  | nil => simp
  | cons g gs ih =>
    rw [List.flatMap_cons]
    refine ⟨by rw [List.length_append, ih.1, List.length_map, List.length_cons, Nat.add_mul, Nat.one_mul, Nat.add_comm], ?_⟩
    intro j
    by_cases hj : j < omegas.length
    · rw [List.getElem?_append_left (by simpa using hj), List.getElem?_map, Nat.div_eq_of_lt hj, Nat.mod_eq_of_lt hj]
      rfl
    · rw [List.getElem?_append_right (by simpa using hj), List.length_map, ih.2]
      rcases Nat.eq_zero_or_pos omegas.length with h0 | h0
      · have : omegas = [] := List.length_eq_zero_iff.mp h0
        subst this; simp
      · have h1 : j / omegas.length = (j - omegas.length) / omegas.length + 1 := by
          rw [← Nat.add_div_right _ h0]; congr 1; omega
        have h2 : j % omegas.length = (j - omegas.length) % omegas.length := Nat.mod_eq_sub_mod (by omega)
        rw [h1, h2, List.getElem?_cons_succ]

/-- **C51 (multilayer, serial).** In a process whose graph objects keep their contents, `repeated_leiden_from_gammas_omegas`
returns `S` iff every run on the layers of the graph finds a partition and `S` consists of exactly one canonical tuple for
each partition found. -/
theorem c51_multilayer_serial {heap : Nat → Graph ℝ} (hheap : ∀ o, (heap o).WF ∧ SaneTest env.test (heap o)) {w : World}
    (hw : Reachable env heap w) (obj : Nat) (Gx : Graph ℝ) (layers : List Nat) (gammas : List (Fl ℝ)) (omegas : List ℝ)
    (S : Finset (List Nat)) :
    (repeatedMultilayerLeiden env obj (heap obj) Gx layers gammas omegas w).1.map Prod.fst = .ok S ↔
      ∃ found, AllFound (fun j p => multilayerOutcome env (defaulted env.test (heap obj)) (defaulted env.test Gx) layers
        (w.calls + j) p) (gridPoints gammas omegas) found ∧ CanonicalSetOf S found :=
  setComprehension_ok_iff (multilayer_runSpec env hheap obj layers Gx) _ (heap obj, Gx) w ⟨rfl, rfl, hw⟩ S

/-- **C51 (multilayer, parallel).** For every number of workers, all states of the worker processes (the `k`-th batch is
run by a process with heap `heaps k` in which the unpickled graph is the object `objs k`) and every completion order,
`repeated_parallel_leiden_from_gammas_omegas` returns `S` iff the run for every grid point finds a partition and `S`
consists of exactly one canonical tuple for each partition found. -/
theorem c51_multilayer_parallel {heaps : Nat → Nat → Graph ℝ}
    (hheap : ∀ k o, (heaps k o).WF ∧ SaneTest env.test (heaps k o)) {workers : Nat → World}
    (hw : ∀ k, Reachable env (heaps k) (workers k)) {objs : Nat → Nat} {Gi : Graph ℝ} (hobj : ∀ k, heaps k (objs k) = Gi)
    (Gx : Graph ℝ) (layers : List Nat) (gammas : List (Fl ℝ)) (omegas : List ℝ) (cpu : Nat) {order : List Nat}
    (horder : CompletionOrder cpu (gammas.length * omegas.length) order) (S : Finset (List Nat)) :
    repeatedParallelMultilayerLeiden env cpu workers objs order Gi Gx layers gammas omegas = .ok S ↔
      ∃ found, AllFound (fun j p => multilayerOutcome env (defaulted env.test Gi) (defaulted env.test Gx) layers
        ((workers (j / poolChunkSize cpu (gammas.length * omegas.length))).calls +
          j % poolChunkSize cpu (gammas.length * omegas.length)) p) (gridPoints gammas omegas) found ∧
        CanonicalSetOf S found := by
  have hl := (c51_grid gammas omegas).1
  rw [← hl] at horder ⊢
  refine parallelDriver_ok_iff (I := fun k s w => defaulted env.test s.1 = defaulted env.test (heaps k (objs k)) ∧
    defaulted env.test s.2 = defaulted env.test Gx ∧ Reachable env (heaps k) w) (fun k => ?_) cpu workers (Gi, Gx)
    (fun k => ⟨by rw [hobj], rfl, hw k⟩) _ (completionOrder_iff.mp horder) S
  have := multilayer_runSpec env (hheap k) (objs k) layers Gx
  rwa [hobj k] at this ⊢

/-- **C51 (multilayer, parallel = serial).** With a deterministic optimiser both multilayer functions return the same set,
for every number of workers, completion order and history of the processes. -/
theorem c51_multilayer_parallel_eq_serial (hdet : Deterministic env) {heaps : Nat → Nat → Graph ℝ}
    (hheap : ∀ k o, (heaps k o).WF ∧ SaneTest env.test (heaps k o)) {workers : Nat → World}
    (hw : ∀ k, Reachable env (heaps k) (workers k)) {objs : Nat → Nat}
    {heap : Nat → Graph ℝ} (hheap' : ∀ o, (heap o).WF ∧ SaneTest env.test (heap o)) {w : World}
    (hw' : Reachable env heap w) (obj : Nat) (hobj : ∀ k, heaps k (objs k) = heap obj)
    (Gx : Graph ℝ) (layers : List Nat) (gammas : List (Fl ℝ)) (omegas : List ℝ) (cpu : Nat) {order : List Nat}
    (horder : CompletionOrder cpu (gammas.length * omegas.length) order) (S : Finset (List Nat)) :
    repeatedParallelMultilayerLeiden env cpu workers objs order (heap obj) Gx layers gammas omegas = .ok S ↔
      (repeatedMultilayerLeiden env obj (heap obj) Gx layers gammas omegas w).1.map Prod.fst = .ok S := by
  rw [c51_multilayer_parallel hheap hw hobj Gx layers gammas omegas cpu horder, c51_multilayer_serial hheap' hw']
  have : ∀ i i' p, multilayerOutcome env (defaulted env.test (heap obj)) (defaulted env.test Gx) layers i p =
      multilayerOutcome env (defaulted env.test (heap obj)) (defaulted env.test Gx) layers i' p := by
    intro i i' p
    unfold multilayerOutcome multiMaximiser
    cases splitLayers (defaulted env.test (heap obj)).vcount (defaulted env.test (heap obj)).edges
          (defaulted env.test (heap obj)).weight (defaulted env.test (heap obj)).directed layers with
    | error e => rfl
    | ok Gs => exact hdet.2 _ _ _ _
  simp only [this _ 0]

-- the hypotheses are met by fresh processes and the two-layer network of C48
example : Deterministic copiesEnv ∧ (∀ _ : Nat, gIntraR.WF ∧ SaneTest copiesEnv.test gIntraR) ∧
    Reachable copiesEnv (fun _ => gIntraR) World.fresh ∧ CompletionOrder 4 (2 * 3) [3, 1, 0, 5, 4, 2] :=
  ⟨⟨fun _ _ _ _ => rfl, fun _ _ _ _ => rfl⟩, fun _ => ⟨gIntraR_multilayer.intra, by intro h; cases h⟩, .fresh,
    by unfold CompletionOrder; decide⟩

end Verif.Props
