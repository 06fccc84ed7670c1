import Verif.Model.Drivers
import Verif.Spec.Drivers
import Verif.Proofs.History
import Verif.Proofs.Communities

/-!
# Lemmas about repeated runs
-/

namespace Verif
open Spec

/-! ### Batches -/

section
variable {β : Type}

theorem batches_getElem? {size : Nat} (l : List β) (k : Nat) :
    (batches size l)[k]? = if k < (l.length + size - 1) / size then some ((l.drop (k * size)).take size) else none := by
  unfold batches
  rw [List.getElem?_map]
  split
  · rename_i h; rw [List.getElem?_range h]; rfl
  · rename_i h; rw [List.getElem?_eq_none (by simpa using h)]; rfl

theorem lt_batches {size : Nat} (hs : 0 < size) {n j : Nat} (hj : j < n) : j / size < (n + size - 1) / size := by
  rw [Nat.div_lt_iff_lt_mul hs]
  have := Nat.div_add_mod (n + size - 1) size
  have h2 := Nat.mod_lt (n + size - 1) hs
  rw [Nat.mul_comm] at this
  omega

theorem batch_lt {size k n : Nat} (hs : 0 < size) (hk : k < (n + size - 1) / size) : k * size < n := by
  have h1 : (k + 1) * size ≤ n + size - 1 := (Nat.le_div_iff_mul_le hs).mp hk
  rw [Nat.add_mul] at h1
  omega

/-- The element `j` of the list is the element `j % size` of the batch `j / size`. -/
theorem mem_batches {size : Nat} (hs : 0 < size) (l : List β) (j : Nat) (p : β) :
    l[j]? = some p ↔ ∃ b, (batches size l)[j / size]? = some b ∧ b[j % size]? = some p := by
  have hd : j / size * size + j % size = j := Nat.div_add_mod' j size
  constructor
  · intro h
    obtain ⟨hj, -⟩ := List.getElem?_eq_some_iff.mp h
    refine ⟨_, by rw [batches_getElem?, if_pos (lt_batches hs hj)], ?_⟩
    rw [List.getElem?_take_of_lt (Nat.mod_lt _ hs), List.getElem?_drop, hd]
    exact h
  · rintro ⟨b, h1, h2⟩
    rw [batches_getElem?] at h1
    split at h1
    · obtain rfl := Option.some.inj h1
      rw [List.getElem?_take_of_lt (Nat.mod_lt _ hs), List.getElem?_drop, hd] at h2
      exact h2
    · cases h1

theorem batches_getElem?_getElem? {size : Nat} (hs : 0 < size) (l : List β) {k r : Nat} {b : List β} {p : β}
    (hb : (batches size l)[k]? = some b) (hp : b[r]? = some p) :
    r < size ∧ l[k * size + r]? = some p ∧ (k * size + r) / size = k ∧ (k * size + r) % size = r := by
  rw [batches_getElem?] at hb
  split at hb
  · obtain rfl := Option.some.inj hb
    have hr : r < size := by
      obtain ⟨h, -⟩ := List.getElem?_eq_some_iff.mp hp
      rw [List.length_take] at h; omega
    refine ⟨hr, ?_, ?_, ?_⟩
    · rw [List.getElem?_take_of_lt hr, List.getElem?_drop] at hp; exact hp
    · rw [Nat.add_comm, Nat.add_mul_div_right _ _ hs, Nat.div_eq_of_lt hr, Nat.zero_add]
    · rw [Nat.add_comm, Nat.add_mul_mod_self_right, Nat.mod_eq_of_lt hr]
  · cases hb

theorem flatten_batches {size : Nat} (hs : 0 < size) (l : List β) : (batches size l).flatten = l := by
  have key : ∀ m, ((List.range m).map fun i => (l.drop (i * size)).take size).flatten = l.take (m * size) := by
    intro m
    induction m with
    | zero => simp
    | succ m ih =>
      rw [List.range_succ, List.map_append, List.flatten_append, ih, Nat.add_mul, Nat.one_mul, List.take_add]
      simp
  unfold batches
  rw [key, List.take_of_length_le]
  have h1 := Nat.div_add_mod (l.length + size - 1) size
  have h2 := Nat.mod_lt (l.length + size - 1) hs
  rw [Nat.mul_comm] at h1
  omega

end

theorem poolChunkSize_pos (cpu n : Nat) : 0 < poolChunkSize cpu n := by unfold poolChunkSize; omega

/-! ### `mapM` -/

/-- `mapM` over `Py` succeeds with `ys` iff every element does. -/
theorem mapM_eq_ok_iff {α β : Type} {f : α → Py β} {l : List α} {ys : List β} :
    l.mapM f = .ok ys ↔ ys.length = l.length ∧ ∀ (j : Nat) p c, l[j]? = some p → ys[j]? = some c → f p = .ok c := by
  induction l generalizing ys with
  | nil =>
    constructor
    · intro h
      have : ys = [] := by cases h; rfl
      subst this; simp
    · rintro ⟨h, -⟩
      rw [List.length_nil] at h
      rw [List.length_eq_zero_iff.mp h]; rfl
  | cons a l ih =>
    rw [List.mapM_cons]
    constructor
    · intro h
      cases ha : f a with
      | error e => rw [ha] at h; cases h
      | ok b =>
        rw [ha, Py.ok_bind] at h
        cases hl : l.mapM f with
        | error e => rw [hl] at h; cases h
        | ok bs =>
          rw [hl, Py.ok_bind, Py.pure_eq] at h
          obtain rfl := Except.ok.inj h
          obtain ⟨h1, h2⟩ := ih.mp hl
          refine ⟨by simp [h1], ?_⟩
          rintro (_ | j) p c hp hc
          · simp at hp hc; subst hp; subst hc; exact ha
          · simp at hp hc; exact h2 j p c hp hc
    · rintro ⟨h1, h2⟩
      cases ys with
      | nil => simp at h1
      | cons y ys =>
        have ha := h2 0 a y rfl rfl
        have hl := ih.mpr ⟨by simpa using h1, fun j p c hp hc => h2 (j + 1) p c (by simpa using hp) (by simpa using hc)⟩
        rw [ha, Py.ok_bind, hl, Py.ok_bind]; rfl

/-! ### Canonical sets -/

/-- The canonical set is unique. -/
theorem canonicalSetOf_iff {S : Finset (List Nat)} {found : List (List Nat)} :
    CanonicalSetOf S found ↔ ∀ x, x ∈ S ↔ ∃ c ∈ found, canon c = x := by
  constructor
  · rintro ⟨h1, h2⟩ x
    constructor
    · intro hx
      obtain ⟨hf, c, hc, hs⟩ := h2 x hx
      exact ⟨c, hc, (firstAppearance_unique hf (canon_firstAppearance c) (hs.trans (canon_same c).symm)).symm⟩
    · rintro ⟨c, hc, rfl⟩
      obtain ⟨x, hx, hs⟩ := h1 c hc
      have := firstAppearance_unique (h2 x hx).1 (canon_firstAppearance c) (hs.trans (canon_same c).symm)
      rwa [← this]
  · intro h
    refine ⟨fun c hc => ⟨canon c, (h _).mpr ⟨c, hc, rfl⟩, canon_same c⟩, ?_⟩
    intro x hx
    obtain ⟨c, hc, rfl⟩ := (h x).mp hx
    exact ⟨canon_firstAppearance c, c, hc, canon_same c⟩

/-! ### One process -/

section
variable {σ P : Type}

/-- In states with the invariant `I`, a run with parameter `p` finds `out w.calls p`, keeps the invariant and counts one
optimisation. -/
def RunSpec (run : σ → P → Prog (List Nat × σ)) (out : Nat → P → Py (List Nat)) (I : σ → World → Prop) : Prop :=
  ∀ s p w, I s w → (∀ c, out w.calls p = .ok c → ∃ s' w', run s p w = (.ok (c, s'), w') ∧ I s' w' ∧ w'.calls = w.calls + 1) ∧
    ∀ e, out w.calls p = .error e → ∃ w', run s p w = (.error e, w')

variable {run : σ → P → Prog (List Nat × σ)} {out : Nat → P → Py (List Nat)} {I : σ → World → Prop}

theorem workerBatch_eq (h : RunSpec run out I) (ps : List P) : ∀ (s : σ) (w : World), I s w →
    (workerBatch run s ps w).1.map Prod.fst = (ps.zipIdx w.calls).mapM fun pj => out pj.2 pj.1 := by
  induction ps with
  | nil => intro s w _; rfl
  | cons p ps ih =>
    intro s w hI
    obtain ⟨h1, h2⟩ := h s p w hI
    rw [List.zipIdx_cons, List.mapM_cons]
    unfold workerBatch
    rw [Prog.bind_eq]
    cases ho : out w.calls p with
    | error e =>
      obtain ⟨w', hr⟩ := h2 e ho
      rw [hr]; rfl
    | ok c =>
      obtain ⟨s', w', hr, hI', hc⟩ := h1 c ho
      rw [hr]
      simp only [Py.ok_bind]
      have := ih s' w' hI'
      rw [hc] at this
      rw [← this, Prog.bind_eq]
      rcases workerBatch run s' ps w' with ⟨_ | ⟨a, b⟩, w''⟩ <;> rfl

theorem setComprehension_eq (h : RunSpec run out I) (ps : List P) : ∀ (s : σ) (w : World) (total : Finset (List Nat)), I s w →
    (setComprehension run s ps total w).1.map Prod.fst =
      ((ps.zipIdx w.calls).mapM fun pj => out pj.2 pj.1).map
        fun found => (found.map canon).foldl (fun s c => insert c s) total := by
  induction ps with
  | nil => intro s w total _; rfl
  | cons p ps ih =>
    intro s w total hI
    obtain ⟨h1, h2⟩ := h s p w hI
    rw [List.zipIdx_cons, List.mapM_cons]
    unfold setComprehension
    rw [Prog.bind_eq]
    cases ho : out w.calls p with
    | error e =>
      obtain ⟨w', hr⟩ := h2 e ho
      rw [hr]; rfl
    | ok c =>
      obtain ⟨s', w', hr, hI', hc⟩ := h1 c ho
      rw [hr]
      simp only [Py.ok_bind, sortedTuple_eq, Prog.lift_ok]
      rw [ih s' w' _ hI', hc]
      rcases (List.mapM (fun pj : P × Nat => out pj.2 pj.1) (ps.zipIdx (w.calls + 1)) : Py _) with _ | found
      · rfl
      · rfl

theorem mem_foldl_insert (l : List (List Nat)) (S : Finset (List Nat)) (x : List Nat) :
    x ∈ l.foldl (fun s c => insert c s) S ↔ x ∈ l ∨ x ∈ S := by
  induction l generalizing S with
  | nil => simp
  | cons a l ih => rw [List.foldl_cons, ih]; simp; tauto

/-- The comprehension returns a set iff all runs find a partition, and then it is the set of their canonical forms. -/
theorem setComprehension_ok_iff (h : RunSpec run out I) (ps : List P) (s : σ) (w : World) (hI : I s w)
    (S : Finset (List Nat)) :
    (setComprehension run s ps ∅ w).1.map Prod.fst = .ok S ↔
      ∃ found, AllFound (fun j p => out (w.calls + j) p) ps found ∧ CanonicalSetOf S found := by
  rw [setComprehension_eq h ps s w ∅ hI]
  have key : ∀ found, AllFound (fun j p => out (w.calls + j) p) ps found ↔
      ((ps.zipIdx w.calls).mapM fun pj => out pj.2 pj.1) = .ok found := by
    intro found
    rw [mapM_eq_ok_iff]
    unfold AllFound
    rw [List.length_zipIdx]
    refine and_congr_right fun _ => ?_
    constructor
    · intro h j p c hp hc
      rw [List.getElem?_zipIdx] at hp
      obtain ⟨q, hq, rfl⟩ := Option.map_eq_some_iff.mp hp
      exact h j q c hq hc
    · intro h j p c hp hc
      exact h j (p, w.calls + j) c (by rw [List.getElem?_zipIdx, hp]; rfl) hc
  have hset : ∀ found : List (List Nat), CanonicalSetOf S found ↔ (found.map canon).foldl (fun s c => insert c s) ∅ = S := by
    intro found
    rw [canonicalSetOf_iff, Finset.ext_iff]
    refine forall_congr' fun x => ?_
    rw [mem_foldl_insert]
    simp only [List.mem_map, Finset.notMem_empty, or_false]
    exact iff_comm
  simp only [key, hset]
  cases ((ps.zipIdx w.calls).mapM fun pj => out pj.2 pj.1 : Py _) with
  | error e => simp [Except.map]
  | ok found => simp [Except.map]

/-! ### The pool -/

theorem collectUnordered_ok_iff (results : List (Py (List (List Nat)))) (order : List Nat) (hlt : ∀ i ∈ order, i < results.length)
    (total S : Finset (List Nat)) :
    collectUnordered results order total = .ok S ↔
      (∀ i ∈ order, ∃ items, results[i]? = some (.ok items)) ∧
      ∀ x, x ∈ S ↔ x ∈ total ∨ ∃ i ∈ order, ∃ items, results[i]? = some (.ok items) ∧ ∃ c ∈ items, canon c = x := by
  induction order generalizing total with
  | nil =>
    unfold collectUnordered
    rw [Except.ok.injEq, Finset.ext_iff]
    simp only [List.not_mem_nil, false_and, exists_false, or_false, implies_true, true_and, IsEmpty.forall_iff]
    exact forall_congr' fun x => iff_comm
  | cons i order ih =>
    unfold collectUnordered
    have hi := hlt i (by simp)
    rw [pyGet_lt hi, Py.ok_bind]
    have hget := List.getElem?_eq_getElem hi
    cases hr : results[i] with
    | error e =>
      rw [hr] at hget
      constructor
      · intro h; cases h
      · rintro ⟨h, -⟩
        obtain ⟨items, h'⟩ := h i (by simp)
        rw [hget] at h'; cases h'
    | ok items =>
      rw [hr] at hget
      rw [Py.ok_bind, mapM_ok (g := canon) (fun t _ => sortedTuple_eq t), Py.ok_bind,
        ih (fun k hk => hlt k (by simp [hk]))]
      constructor
      · rintro ⟨h1, h2⟩
        refine ⟨fun k hk => ?_, fun x => ?_⟩
        · rcases List.mem_cons.mp hk with rfl | hk
          · exact ⟨items, hget⟩
          · exact h1 k hk
        · rw [h2 x, mem_foldl_insert]
          simp only [List.mem_cons, List.mem_map, exists_eq_or_imp, hget, Option.some.injEq, Except.ok.injEq, exists_eq_left']
          rw [or_comm (a := ∃ a ∈ items, canon a = x), or_assoc]
      · rintro ⟨h1, h2⟩
        refine ⟨fun k hk => h1 k (by simp [hk]), fun x => ?_⟩
        rw [h2 x, mem_foldl_insert]
        simp only [List.mem_cons, List.mem_map, exists_eq_or_imp, hget, Option.some.injEq, Except.ok.injEq, exists_eq_left']
        rw [← or_assoc, or_comm (a := x ∈ total)]

/-- The parallel driver returns a set iff all tasks find a partition, and then it is the set of their canonical forms,
whatever the order in which the batches arrive. -/
theorem parallelDriver_ok_iff {run : Nat → σ → P → Prog (List Nat × σ)} {I : Nat → σ → World → Prop}
    (h : ∀ k, RunSpec (run k) out (I k)) (cpu : Nat) (workers : Nat → World) (s : σ) (hI : ∀ k, I k s (workers k))
    (ps : List P) {order : List Nat} (horder : order.Perm (List.range (batches (poolChunkSize cpu ps.length) ps).length))
    (S : Finset (List Nat)) :
    parallelDriver run cpu workers order s ps = .ok S ↔
      ∃ found, AllFound (fun j p => out ((workers (j / poolChunkSize cpu ps.length)).calls +
        j % poolChunkSize cpu ps.length) p) ps found ∧ CanonicalSetOf S found := by
  unfold parallelDriver
  set size := poolChunkSize cpu ps.length with hsize
  have hs : 0 < size := poolChunkSize_pos _ _
  set bs := batches size ps with hbs
  set results := bs.zipIdx.map fun bk => (workerBatch (run bk.2) s bk.1 (workers bk.2)).1.map Prod.fst with hres
  have hmem : ∀ i, i ∈ order ↔ i < bs.length := fun i => by rw [horder.mem_iff, List.mem_range]
  have hlen : results.length = bs.length := by rw [hres]; simp
  have hget : ∀ (k : Nat) (b : List P), bs[k]? = some b → results[k]? = some ((b.zipIdx (workers k).calls).mapM fun pj => out pj.2 pj.1) := by
    intro k b hb
    rw [hres, List.getElem?_map, List.getElem?_zipIdx, hb]
    simp only [Option.map_some, Nat.zero_add, Option.some.injEq]
    exact workerBatch_eq (h k) b s (workers k) (hI k)
  rw [collectUnordered_ok_iff _ _ (fun i hi => by rw [hlen]; exact (hmem i).mp hi)]
  -- success of one batch
  have hbatch : ∀ (k : Nat) (b : List P) (items : List (List Nat)), bs[k]? = some b →
      (results[k]? = some (.ok items) ↔ items.length = b.length ∧ ∀ (r : Nat) p c, b[r]? = some p → items[r]? = some c →
        out ((workers k).calls + r) p = .ok c) := by
    intro k b items hb
    rw [hget k b hb, Option.some.injEq, mapM_eq_ok_iff, List.length_zipIdx]
    refine and_congr_right fun _ => ?_
    constructor
    · intro h r p c hp hc
      exact h r (p, (workers k).calls + r) c (by rw [List.getElem?_zipIdx, hp]; rfl) hc
    · intro h r p c hp hc
      rw [List.getElem?_zipIdx] at hp
      obtain ⟨q, hq, rfl⟩ := Option.map_eq_some_iff.mp hp
      exact h r q c hq hc
  constructor
  · rintro ⟨h1, h2⟩
    -- the outcome of task j
    have hout : ∀ (j : Nat) p, ps[j]? = some p → ∃ c, out ((workers (j / size)).calls + j % size) p = .ok c ∧ canon c ∈ S := by
      intro j p hp
      obtain ⟨b, hb, hbp⟩ := (mem_batches hs ps j p).mp hp
      have hk : j / size < bs.length := (List.getElem?_eq_some_iff.mp hb).1
      obtain ⟨items, hi⟩ := h1 _ ((hmem _).mpr hk)
      obtain ⟨hl, hi'⟩ := (hbatch _ b items hb).mp hi
      have hr : j % size < items.length := by rw [hl]; exact (List.getElem?_eq_some_iff.mp hbp).1
      refine ⟨items[j % size], hi' _ p _ hbp (List.getElem?_eq_getElem hr), ?_⟩
      exact (h2 _).mpr (Or.inr ⟨_, (hmem _).mpr hk, items, hi, _, List.getElem_mem hr, rfl⟩)
    choose! f hf using hout
    refine ⟨(List.range ps.length).attach.map fun j => f j.1 (ps[j.1]'(List.mem_range.mp j.2)), ⟨by simp, ?_⟩, ?_⟩
    · intro j p c hp hc
      obtain ⟨hj, hpj⟩ := List.getElem?_eq_some_iff.mp hp
      rw [List.getElem?_eq_getElem (by simpa using hj)] at hc
      simp only [List.getElem_map, List.getElem_attach, List.getElem_range, Option.some.injEq] at hc
      rw [hpj] at hc
      rw [← hc]
      exact (hf j p hp).1
    · rw [canonicalSetOf_iff]
      intro x
      simp only [List.mem_map, List.mem_attach, true_and, Subtype.exists, List.mem_range]
      constructor
      · intro hx
        rcases (h2 x).mp hx with h' | ⟨k, hk, items, hi, c, hc, rfl⟩
        · simp at h'
        · have hkb := List.getElem?_eq_getElem ((hmem k).mp hk)
          obtain ⟨hl, hi'⟩ := (hbatch k _ items hkb).mp hi
          obtain ⟨r, hr⟩ := List.getElem?_of_mem hc
          obtain ⟨hrl, -⟩ := List.getElem?_eq_some_iff.mp hr
          rw [hl] at hrl
          obtain ⟨h3, h4, h5, h6⟩ := batches_getElem?_getElem? hs ps hkb (List.getElem?_eq_getElem hrl)
          have hfj := (hf _ _ h4).1
          rw [h5, h6, hi' r _ c (List.getElem?_eq_getElem hrl) hr, Except.ok.injEq] at hfj
          obtain ⟨h7, h8⟩ := List.getElem?_eq_some_iff.mp h4
          refine ⟨c, ⟨k * size + r, h7, ?_⟩, rfl⟩
          rw [h8]; exact hfj.symm
      · rintro ⟨c, ⟨j, hj, rfl⟩, rfl⟩
        exact (hf j _ (List.getElem?_eq_getElem hj)).2
  · rintro ⟨found, ⟨hfl, hfound⟩, hS⟩
    rw [canonicalSetOf_iff] at hS
    have hitems : ∀ (k : Nat) b, bs[k]? = some b → results[k]? = some (.ok ((found.drop (k * size)).take size)) := by
      intro k b hb
      rw [hbatch k b _ hb]
      have hb' := hb
      rw [hbs, batches_getElem?] at hb'
      split at hb'
      · obtain rfl := Option.some.inj hb'
        refine ⟨by simp [hfl], ?_⟩
        intro r p c hp hc
        obtain ⟨h3, h4, h5, h6⟩ := batches_getElem?_getElem? hs ps hb hp
        rw [List.getElem?_take_of_lt h3, List.getElem?_drop] at hc
        have := hfound _ p c h4 hc
        simp only at this
        rwa [h5, h6] at this
      · cases hb'
    refine ⟨fun k hk => ⟨_, hitems k _ (List.getElem?_eq_getElem ((hmem k).mp hk))⟩, ?_⟩
    intro x
    rw [hS x]
    constructor
    · rintro ⟨c, hc, rfl⟩
      obtain ⟨j, hj⟩ := List.getElem?_of_mem hc
      obtain ⟨hjl, -⟩ := List.getElem?_eq_some_iff.mp hj
      rw [hfl] at hjl
      obtain ⟨b, hb, hbp⟩ := (mem_batches hs ps j _).mp (List.getElem?_eq_getElem hjl)
      refine Or.inr ⟨j / size, (hmem _).mpr (List.getElem?_eq_some_iff.mp hb).1, _, hitems _ b hb, c, ?_, rfl⟩
      rw [List.mem_iff_getElem?]
      refine ⟨j % size, ?_⟩
      rw [List.getElem?_take_of_lt (Nat.mod_lt _ hs), List.getElem?_drop, Nat.div_add_mod' j size]
      exact hj
    · rintro (h' | ⟨k, hk, items, hi, c, hc, rfl⟩)
      · simp at h'
      · rw [hitems k _ (List.getElem?_eq_getElem ((hmem k).mp hk)), Option.some.injEq, Except.ok.injEq] at hi
        subst hi
        exact ⟨c, List.mem_of_mem_drop (List.mem_of_mem_take hc), rfl⟩

end

/-! ### The runs of the library -/

/-- Single-layer runs. -/
theorem singlelayer_runSpec (env : LeidenEnv) (G : Graph ℝ) :
    RunSpec (singlelayerLeiden env) (fun i γ => env.findPartition i (defaulted env.test G) γ)
      (fun s _ => defaulted env.test s = defaulted env.test G) := by
  intro s γ w hs
  have hrun : singlelayerLeiden env s γ w =
      ((env.findPartition w.calls (defaulted env.test G) γ).map fun c => (c, defaulted env.test G),
        { w with calls := w.calls + 1 }) := by
    unfold singlelayerLeiden
    rw [ensureWeight_ecount, Prog.lift_ok, Prog.bind_eq, hs]
    simp only [Prog.optimise]
    cases env.findPartition w.calls (defaulted env.test G) γ <;> rfl
  constructor
  · intro c hc
    simp only at hc
    refine ⟨_, _, by rw [hrun, hc]; rfl, ?_, rfl⟩
    exact defaulted_idem env.test G
  · intro e he
    simp only at he
    exact ⟨_, by rw [hrun, he]; rfl⟩

/-- Multilayer runs in a process in which the graph objects keep their contents. -/
theorem multilayer_runSpec (env : LeidenEnv) {heap : Nat → Graph ℝ} (hheap : ∀ o, (heap o).WF ∧ SaneTest env.test (heap o))
    (obj : Nat) (layers : List Nat) (Gx : Graph ℝ) :
    RunSpec (multilayerTask env obj layers)
      (multilayerOutcome env (defaulted env.test (heap obj)) (defaulted env.test Gx) layers)
      (fun s w => defaulted env.test s.1 = defaulted env.test (heap obj) ∧ defaulted env.test s.2 = defaulted env.test Gx ∧
        Reachable env heap w) := by
  rintro ⟨Gi', Gx'⟩ ⟨γ, ω⟩ w ⟨h1, h2, hw⟩
  simp only at h1 h2
  have hreach := Reachable.leiden obj Gi' Gx' layers γ ω h1 hw
  obtain ⟨ws, hws⟩ := defaulted_weight (hheap obj).2
  have hsplit := (splitIntralayer_inv (heap := fun o => defaulted env.test (heap o)) (obj := obj)
    (defaulted_wf (hheap obj).1) hws layers (reachable_inv hheap hw).1).2.1
  have hrun : multilayerLeiden env obj Gi' Gx' layers γ ω w =
      (match splitLayers (defaulted env.test (heap obj)).vcount (defaulted env.test (heap obj)).edges
          (defaulted env.test (heap obj)).weight (defaulted env.test (heap obj)).directed layers with
        | .ok Gs => ((multiMaximiser env Gs (defaulted env.test Gx) w.calls (γ, ω)).map
            fun c => (c, defaulted env.test (heap obj), defaulted env.test Gx),
            { w with cache := (splitIntralayer w.cache obj (defaulted env.test (heap obj)) layers).1, calls := w.calls + 1 })
        | .error e => (.error e, { w with cache := (splitIntralayer w.cache obj (defaulted env.test (heap obj)) layers).1 })) := by
    unfold multilayerLeiden
    rw [ensureWeight_ecount, Prog.lift_ok, ensureWeight_ecount, Prog.lift_ok, Prog.bind_eq, h1, h2]
    simp only [Prog.split, hsplit]
    cases splitLayers (defaulted env.test (heap obj)).vcount (defaulted env.test (heap obj)).edges
          (defaulted env.test (heap obj)).weight (defaulted env.test (heap obj)).directed layers with
    | error e => rfl
    | ok Gs =>
      simp only
      rw [Prog.bind_eq]
      simp only [Prog.optimise, multiMaximiser]
      cases env.optimiseMultiplex w.calls (multiplexProblem Gs (defaulted env.test Gx) γ ω).1
        (multiplexProblem Gs (defaulted env.test Gx) γ ω).2 <;> rfl
  unfold multilayerTask
  simp only
  rw [hrun] at hreach ⊢
  unfold multilayerOutcome
  clear hrun hsplit
  revert hreach
  cases splitLayers (defaulted env.test (heap obj)).vcount (defaulted env.test (heap obj)).edges
          (defaulted env.test (heap obj)).weight (defaulted env.test (heap obj)).directed layers with
  | error e =>
    intro hreach
    constructor
    · intro c hc; cases hc
    · intro e' he
      obtain rfl := Except.error.inj he
      exact ⟨_, rfl⟩
  | ok Gs =>
    intro hreach
    simp only at hreach ⊢
    constructor
    · intro c hc
      refine ⟨_, _, by rw [hc]; rfl, ⟨?_, ?_, hreach⟩, rfl⟩
      · exact defaulted_idem env.test (heap obj)
      · exact defaulted_idem env.test Gx
    · intro e he
      exact ⟨_, by rw [he]; rfl⟩

end Verif
