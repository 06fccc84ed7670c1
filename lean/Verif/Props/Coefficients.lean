import Mathlib.Data.Rat.Defs
import Mathlib.Algebra.Order.Ring.Rat
import Mathlib.Tactic.IntervalCases
import Verif.Proofs.Coefficients4
import Verif.Proofs.CoefficientLabels

/-!
# Properties C06–C12: CHAMP coefficients
-/

set_option linter.unusedSectionVars false

namespace Verif.Props
open Verif Verif.Spec Finset

variable {F : Type} [Field F] [LinearOrder F] [IsStrictOrderedRing F] {α : Type} [DecidableEq α]

/-- A small undirected multigraph with a self-loop and a double edge, used as a witness. -/
def gUnd : Graph ℚ := ⟨4, false, [(0, 1), (0, 1), (1, 2), (3, 3)], none⟩
/-- A small directed graph. -/
def gDir : Graph ℚ := ⟨3, true, [(0, 1), (1, 2), (2, 0), (0, 1)], none⟩

theorem gUnd_wf : gUnd.WF := ⟨by decide, by intro ws h; cases h⟩
theorem gDir_wf : gDir.WF := ⟨by decide, by intro ws h; cases h⟩

/-- **C06.** Undirected graph with at least one edge: for every list of memberships the computed coefficients are the
matrix sums `∑_ij A_ij δ` and `∑_ij k_i k_j/(2m) δ`, hence `A_hat - γ P_hat` is the modularity at every `γ`. -/
theorem c06_coefficients_undirected {G : Graph F} (hG : G.WF) (hd : G.directed = false) (he : 0 < G.ecount)
    {parts : List (List α)} (hp : ∀ c ∈ parts, c.length = G.vcount) :
    ∃ A P : List F, partitionCoefficients2DSerial G parts = .ok (A, P.map Fl.fin) ∧
      A = parts.map (withinAdj G) ∧
      P = parts.map (fun c => ∑ i ∈ range G.vcount, ∑ j ∈ range G.vcount,
        if c[i]? = c[j]? then (rowSum G i : F) * (rowSum G j : F) / (2 * (G.ecount : F)) else 0) ∧
      ∀ γ : F, (A.zip P).map (fun ap => ap.1 - γ * ap.2) = parts.map (modularity G γ) := by
  refine ⟨parts.map (withinAdj G), parts.map (withinNull G), ?_, rfl, ?_, ?_⟩
  · rw [coefficients2D_ok hG he hp, List.map_map]; rfl
  · apply List.map_congr_left
    intro c _
    unfold withinNull
    rw [total_eq hG]
    simp only [hd, colSum_eq_rowSum hd]
    push_cast; rfl
  · intro γ
    rw [List.zip_map', List.map_map]
    apply List.map_congr_left
    intro c _
    rw [modularity_eq]; rfl

example : ∃ c : List Nat, c.length = gUnd.vcount ∧ 0 < gUnd.ecount ∧ gUnd.directed = false :=
  ⟨[0, 0, 1, 1], rfl, by decide, rfl⟩
example : partitionCoefficients2DSerial gUnd [[0, 0, 1, 1]] = .ok ([6], [.fin (34 / 8)]) := by decide +kernel

/-- **C07.** Directed graph with at least one edge: the coefficients are the Leicht–Newman sums with `1/m` (and `A_hat`
is not doubled); `A_hat - γ P_hat` is the directed modularity. -/
theorem c07_coefficients_directed {G : Graph F} (hG : G.WF) (hd : G.directed = true) (he : 0 < G.ecount)
    {parts : List (List α)} (hp : ∀ c ∈ parts, c.length = G.vcount) :
    ∃ A P : List F, partitionCoefficients2DSerial G parts = .ok (A, P.map Fl.fin) ∧
      A = parts.map (fun c => ∑ i ∈ range G.vcount, ∑ j ∈ range G.vcount,
        if c[i]? = c[j]? then (G.edges.count (i, j) : F) else 0) ∧
      P = parts.map (fun c => ∑ i ∈ range G.vcount, ∑ j ∈ range G.vcount,
        if c[i]? = c[j]? then
          (G.edges.countP (fun e => decide (e.2 = i)) : F) * (G.edges.countP (fun e => decide (e.1 = j)) : F) /
            (G.ecount : F) else 0) ∧
      ∀ γ : F, (A.zip P).map (fun ap => ap.1 - γ * ap.2) = parts.map (modularity G γ) := by
  refine ⟨parts.map (withinAdj G), parts.map (withinNull G), ?_, ?_, ?_, ?_⟩
  · rw [coefficients2D_ok hG he hp, List.map_map]; rfl
  · apply List.map_congr_left; intro c _
    simp only [withinAdj, adj, hd, if_true]
  · apply List.map_congr_left
    intro c _
    unfold withinNull
    rw [total_eq hG]
    apply Finset.sum_congr rfl; intro i hi; apply Finset.sum_congr rfl; intro j hj
    rw [Finset.mem_range] at hi hj
    rw [countP_tgt hG i hi, countP_src hG j hj]
    simp only [colSum, rowSum, adj, hd, if_true]
  · intro γ
    rw [List.zip_map', List.map_map]
    apply List.map_congr_left
    intro c _
    rw [modularity_eq]; rfl

example : partitionCoefficients2DSerial gDir [[0, 0, 1], [0, 1, 2]] = .ok ([2, 0], [.fin (10 / 4), .fin (5 / 4)]) := by
  decide +kernel

/-- **C08.** Multilayer coefficients.  Whenever every layer that has a vertex has an intralayer edge leaving it (and, for
undirected intralayer graphs, no edge joins different layers) the three coefficients of every membership are the
intralayer adjacency sum, the per-layer null-model sum and the interlayer adjacency sum, so that
`A - γ P + ω C` is the multilayer modularity at every `(γ, ω)`.  Both graphs may be directed or not. -/
theorem c08_coefficients_multilayer {Gi Gx : Graph F} (hG : Gi.WF) (hX : Gx.WF) (hv : Gx.vcount = Gi.vcount)
    {layer : List Nat} (hl : layer.length = Gi.vcount) (hn : layer ≠ [])
    (hx : Gi.directed = true ∨ ∀ e ∈ Gi.edges, layer[e.1]? = layer[e.2]?)
    (hedge : ∀ t ∈ layer, ∃ e ∈ Gi.edges, layer[e.1]? = some t) {parts : List (List α)}
    (hp : ∀ c ∈ parts, c.length = Gi.vcount) :
    ∃ A P C : List F, partitionCoefficients3DSerial Gi Gx layer parts = .ok (A, P.map Fl.fin, C) ∧
      A = parts.map (withinAdj Gi) ∧ P = parts.map (withinNullLayered Gi layer) ∧ C = parts.map (withinAdj Gx) ∧
      ∀ γ ω : F, (A.zip (P.zip C)).map (fun apc => apc.1 - γ * apc.2.1 + ω * apc.2.2) =
        parts.map (multilayerModularity Gi Gx layer γ ω) := by
  refine ⟨_, parts.map (withinNullLayered Gi layer), _, ?_, rfl, rfl, rfl, ?_⟩
  · rw [coefficients3D_ok hG hX hv hl hn hx hedge hp, List.map_map]; rfl
  · intro γ ω
    rw [List.zip_map', List.zip_map', List.map_map]
    rfl

/-- Two layers of a single edge each, with interlayer edges. -/
def gIntra : Graph ℚ := ⟨4, false, [(0, 1), (2, 3)], none⟩
/-- Directed interlayer edges from layer 0 to layer 1. -/
def gInter : Graph ℚ := ⟨4, true, [(0, 2), (1, 3)], none⟩

example : gIntra.WF ∧ gInter.WF ∧ gInter.vcount = gIntra.vcount ∧
    (∀ e ∈ gIntra.edges, [0, 0, 1, 1][e.1]? = [0, 0, 1, 1][e.2]?) ∧
    (∀ t ∈ [0, 0, 1, 1], ∃ e ∈ gIntra.edges, [0, 0, 1, 1][e.1]? = some t) :=
  ⟨⟨by decide, by intro ws h; cases h⟩, ⟨by decide, by intro ws h; cases h⟩, rfl, by decide, by decide⟩
example : partitionCoefficients3DSerial gIntra gInter [0, 0, 1, 1] [[0, 1, 0, 1], [0, 0, 0, 0]] =
    .ok ([0, 4], [.fin 2, .fin 4], [2, 2]) := by decide +kernel

/-- **C09.** Coefficients see only the partition: if the memberships of two lists describe, one by one, the same partitions
(possibly with labels of different types), both lists get the same 2D and 3D coefficients, or the same exception – for all
graphs and layer vectors whatsoever. -/
theorem c09_coefficients_label_invariant {β : Type} [DecidableEq β] {cs : List (List α)} {ds : List (List β)}
    (h : List.Forall₂ SamePartition cs ds) (G Gx : Graph F) (layer : List Nat) :
    partitionCoefficients2DSerial G cs = partitionCoefficients2DSerial G ds ∧
    partitionCoefficients3DSerial G Gx layer cs = partitionCoefficients3DSerial G Gx layer ds :=
  ⟨coefficients2D_same G h, coefficients3D_same G Gx layer h⟩

/-- **C09 (canonical form).** In particular replacing a membership by its `sorted_tuple` changes no coefficient. -/
theorem c09_sorted_tuple_keeps_coefficients (c : List Int) (G Gx : Graph F) (layer : List Nat) :
    ∃ r, sortedTuple c = .ok r ∧ partitionCoefficients2DSerial G [r] = partitionCoefficients2DSerial G [c] ∧
      partitionCoefficients3DSerial G Gx layer [r] = partitionCoefficients3DSerial G Gx layer [c] :=
  ⟨canon c, sortedTuple_eq c,
    c09_coefficients_label_invariant (List.Forall₂.cons (canon_same c) .nil) G Gx layer⟩

example : SamePartition [5, 5, 7, 7] [1, 1, 0, 0] ∧ [5, 5, 7, 7].length = gUnd.vcount := by
  refine ⟨⟨rfl, ?_⟩, rfl⟩
  intro i j hi hj
  simp only [List.length_cons, List.length_nil] at hi hj
  interval_cases i <;> interval_cases j <;> simp

/-- **C10.** Bounds and extremes for an undirected graph with `m > 0` edges and any membership `c` of its vertices:
`0 ≤ A ≤ 2m`, `0 < P ≤ 2m`, `2m ≤ K·P` (`K` communities); the one-community partition attains `A = P = 2m`; a coarser
partition has coefficients at least as large. -/
theorem c10_coefficient_bounds {β : Type} [DecidableEq β] {G : Graph F} (hG : G.WF) (hd : G.directed = false)
    (he : 0 < G.ecount) {c : List α} (hc : c.length = G.vcount) {d : List β} (hdl : d.length = G.vcount) :
    ∃ A P A' P' : F, partitionCoefficients2DSerial G [c] = .ok ([A], [.fin P]) ∧
      partitionCoefficients2DSerial G [d] = .ok ([A'], [.fin P']) ∧
      0 ≤ A ∧ A ≤ 2 * G.ecount ∧ 0 < P ∧ P ≤ 2 * G.ecount ∧ 2 * G.ecount ≤ (c.dedup.length : F) * P ∧
      ((∀ x ∈ c, ∀ y ∈ c, x = y) → A = 2 * G.ecount ∧ P = 2 * G.ecount) ∧
      ((∀ i j : Nat, i < c.length → j < c.length → c[i]? = c[j]? → d[i]? = d[j]?) → A ≤ A' ∧ P ≤ P') := by
  have ht : (total G : F) = 2 * G.ecount := by rw [total_eq hG]; simp [hd]
  refine ⟨withinAdj G c, withinNull G c, withinAdj G d, withinNull G d, ?_, ?_, withinAdj_nonneg G c, ?_,
    withinNull_pos hG hd he hc, ?_, ?_, ?_, ?_⟩
  · rw [coefficients2D_ok hG he (by simpa using hc)]; rfl
  · rw [coefficients2D_ok hG he (by simpa using hdl)]; rfl
  · rw [← ht]; exact withinAdj_le G c
  · rw [← ht]; exact withinNull_le G c
  · rw [← ht]; exact withinNull_lower hG hd he hc
  · intro h
    have h' : ∀ i j, i < G.vcount → j < G.vcount → c[i]? = c[j]? := by
      intro i j hi hj
      have hi' : i < c.length := by omega
      have hj' : j < c.length := by omega
      rw [List.getElem?_eq_getElem hi', List.getElem?_eq_getElem hj',
        h _ (List.getElem_mem hi') _ (List.getElem_mem hj')]
    rw [← ht]
    exact ⟨withinAdj_all h', withinNull_all h'⟩
  · intro h
    have h' : ∀ i j, i < G.vcount → j < G.vcount → c[i]? = c[j]? → d[i]? = d[j]? :=
      fun i j hi hj => h i j (by omega) (by omega)
    exact ⟨withinAdj_mono h', withinNull_mono h'⟩

-- the Cauchy–Schwarz bound 2m ≤ K·P is attained and is not vacuous
example : partitionCoefficients2DSerial gUnd [[0, 0, 1, 1], [3, 3, 3, 3]] =
    .ok ([6, 8], [.fin (34 / 8), .fin 8]) ∧ (8 : ℚ) ≤ 2 * (34 / 8) := by
  constructor
  · decide +kernel
  · norm_num

/-- What is assumed about the float computation `floor(a / b)` used for the chunk boundaries: it is monotone in the
numerator and exact on exact quotients (true of IEEE division for numerators below 2^53). -/
structure GoodRounding (rnd : Nat → Nat → Nat) (b : Nat) : Prop where
  mono : ∀ a a', a ≤ a' → rnd a b ≤ rnd a' b
  exact : ∀ k, rnd (k * b) b = k

theorem GoodRounding.boundaries {rnd : Nat → Nat → Nat} {cpu : Nat} (h : GoodRounding rnd cpu) (len : Nat) :
    GoodBoundaries (chunkBoundary rnd len cpu) cpu len where
  zero := by have := h.exact 0; simpa [chunkBoundary] using this
  last := by have := h.exact len; rw [mul_comm] at this; exact this
  mono := fun i _ => h.mono _ _ (Nat.mul_le_mul_right _ (Nat.le_succ i))

/-- **C11 (2D).** For every worker count ≥ 1, every rounding of the chunk boundaries, every completion schedule covering
all tasks and both values of `single_threaded`, `partition_coefficients_2D` terminates, and it returns a value exactly
when the serial computation on the whole list does, namely that value. -/
theorem c11_parallel_2D {rnd : Nat → Nat → Nat} {cpu : Nat} (hr : GoodRounding rnd cpu) {sched : List Nat}
    (hs : ∀ i < cpu, i ∈ sched) (G : Graph F) (parts : List (List α)) (single : Bool) :
    ∃ r, partitionCoefficients2D rnd cpu sched G parts single = some r ∧
      ∀ v, r = .ok v ↔ partitionCoefficients2DSerial G parts = .ok v := by
  unfold partitionCoefficients2D
  have final : ∀ (r : Py (List F × List (Fl F))),
      (∀ v, r = .ok v ↔ partitionCoefficients2DSerial G parts = .ok v) →
      ∀ v, (do
        let (A, P) ← r
        if A.length = P.length ∧ P.length = parts.length then return (A, P) else throw .assertionError : Py _) = .ok v ↔
        partitionCoefficients2DSerial G parts = .ok v := by
    intro r h v
    cases hr' : r with
    | error e =>
      rw [hr'] at h
      exact ⟨fun h' => (by cases h'), fun h' => absurd ((h v).mpr h') (by simp)⟩
    | ok w =>
      obtain ⟨A, P⟩ := w
      have hw := (h (A, P)).mp hr'
      obtain ⟨l1, l2⟩ := serial2D_lengths hw
      simp only at l1 l2
      show (if A.length = P.length ∧ P.length = parts.length then pure (A, P) else throw .assertionError : Py _) = _ ↔ _
      rw [if_pos ⟨l1.trans l2.symm, l2⟩, hw]
      rfl
  by_cases hsingle : single
  · simp only [hsingle, if_true]
    exact ⟨_, rfl, final _ (fun v => Iff.rfl)⟩
  · simp only [hsingle]
    simp only [Bool.false_eq_true, if_false]
    rw [poolStarmap_complete _ _ _ (by rw [partitionChunks_length]; exact hs)]
    refine ⟨_, rfl, final (do
      let results ← (partitionChunks rnd cpu parts).mapM (partitionCoefficients2DSerial G)
      return (results.flatMap (fun r => r.1), results.flatMap (fun r => r.2))) (fun v => ?_)⟩
    have hf := partitionChunks_flatten (l := parts) (hr.boundaries parts.length)
    have := serial2D_flatten_iff (G := G) (chunks := partitionChunks rnd cpu parts) (v := v)
    rw [hf] at this
    rw [this]
    cases hm : (partitionChunks rnd cpu parts).mapM (partitionCoefficients2DSerial G) with
    | error e => exact ⟨fun h => (by cases h), fun ⟨_, h, _⟩ => (by cases h)⟩
    | ok rs =>
      constructor
      · intro h; cases h; exact ⟨rs, rfl, rfl⟩
      · rintro ⟨_, h, rfl⟩; cases h; rfl

/-- **C11 (3D).** The same for `partition_coefficients_3D`. -/
theorem c11_parallel_3D {rnd : Nat → Nat → Nat} {cpu : Nat} (hcpu : 1 ≤ cpu) (hr : GoodRounding rnd cpu)
    {sched : List Nat} (hs : ∀ i < cpu, i ∈ sched) (Gi Gx : Graph F) (layer : List Nat) (parts : List (List α)) :
    ∃ r, partitionCoefficients3D rnd cpu sched Gi Gx layer parts = some r ∧
      ∀ v, r = .ok v ↔ partitionCoefficients3DSerial Gi Gx layer parts = .ok v := by
  unfold partitionCoefficients3D
  rw [poolStarmap_complete _ _ _ (by rw [partitionChunks_length]; exact hs)]
  refine ⟨_, rfl, fun v => ?_⟩
  have hf := partitionChunks_flatten (l := parts) (hr.boundaries parts.length)
  have hne : partitionChunks rnd cpu parts ≠ [] := by
    intro h
    have := partitionChunks_length rnd cpu parts
    rw [h] at this; simp at this; omega
  have hiff := @serial3D_flatten_iff F _ _ α _ Gi Gx layer (partitionChunks rnd cpu parts) hne
  rw [hf] at hiff
  cases hm : (partitionChunks rnd cpu parts).mapM (partitionCoefficients3DSerial Gi Gx layer) with
  | error e =>
    rw [hiff, hm]
    exact ⟨fun h => (by cases h), fun ⟨_, h, _⟩ => (by cases h)⟩
  | ok rs =>
    have hw := (hiff).mpr ⟨rs, hm, rfl⟩
    obtain ⟨l1, l2, l3⟩ := serial3D_lengths hw
    simp only at l1 l2 l3
    rw [hw]
    show (if _ then _ else _ : Py _) = _ ↔ _
    rw [if_pos ⟨l1.trans l2.symm, l2.trans l3.symm, l3⟩]
    rfl

/-- The assumption on the rounding is met by exact integer division. -/
example (cpu : Nat) (h : 1 ≤ cpu) : GoodRounding (fun a b => a / b) cpu :=
  ⟨fun _ _ h => Nat.div_le_div_right h, fun k => Nat.mul_div_cancel k h⟩
-- three workers finishing in the order 2, 0, 1 on five partitions
example : partitionCoefficients2D (fun a b => a / b) 3 [2, 0, 1] gDir
    [[0, 0, 1], [0, 1, 2], [0, 0, 0], [0, 1, 0], [0, 1, 1]] false =
    some (partitionCoefficients2DSerial gDir [[0, 0, 1], [0, 1, 2], [0, 0, 0], [0, 1, 0], [0, 1, 1]]) := by
  decide +kernel

/-! ### C12 -/

theorem mapM_indexError {β γ : Type} {f : β → Py γ} {l : List β}
    (h : ∀ x ∈ l, (∃ y, f x = .ok y) ∨ f x = .error .indexError) {x : β} (hx : x ∈ l)
    (hxe : f x = .error .indexError) : l.mapM f = .error .indexError := by
  induction l with
  | nil => simp at hx
  | cons a l ih =>
    rw [List.mapM_cons]
    rcases h a (by simp) with ⟨y, hy⟩ | hy
    · have hx' : x ∈ l := by
        rcases List.mem_cons.mp hx with rfl | hx'
        · rw [hxe] at hy; cases hy
        · exact hx'
      rw [hy, ih (fun z hz => h z (List.mem_cons_of_mem _ hz)) hx']; rfl
    · rw [hy]; rfl

theorem degreeSum_cases (deg vs : List Nat) :
    (∃ y, degreeSum deg vs = .ok y) ∨ degreeSum deg vs = .error .indexError := by
  unfold degreeSum
  by_cases h : ∀ v ∈ vs, v < deg.length
  · left
    rw [mapM_ok (g := fun v => deg[v]?.getD 0)]
    · exact ⟨_, rfl⟩
    · intro v hv; rw [pyGet_lt (h v hv), List.getElem?_eq_getElem (h v hv)]; rfl
  · right
    push Not at h
    obtain ⟨v, hv, hle⟩ := h
    rw [mapM_indexError (f := pyGet deg) (fun x _ => ?_) hv (pyGet_error hle)]
    · rfl
    · by_cases hx : x < deg.length
      · left; exact ⟨_, pyGet_lt hx⟩
      · right; exact pyGet_error (by omega)

theorem degreeSum_error {deg vs : List Nat} {v : Nat} (hv : v ∈ vs) (h : deg.length ≤ v) :
    degreeSum deg vs = .error .indexError := by
  unfold degreeSum
  rw [mapM_indexError (f := pyGet deg) (fun x _ => ?_) hv (pyGet_error h)]
  · rfl
  · by_cases hx : x < deg.length
    · left; exact ⟨_, pyGet_lt hx⟩
    · right; exact pyGet_error (by omega)

/-- **C12 (2D).** On an edgeless graph every 2D `P_hat` is NaN (and every `A_hat` 0); a membership with more entries than
vertices raises `IndexError`; memberships of the right length never raise. -/
theorem c12_failures_2D {G : Graph F} (hG : G.WF) {parts : List (List α)} :
    ((∀ c ∈ parts, c.length = G.vcount) →
      (∃ A P, partitionCoefficients2DSerial G parts = .ok (A, P)) ∧
      (G.ecount = 0 → partitionCoefficients2DSerial G parts = .ok (parts.map fun _ => 0, parts.map fun _ => .nan))) ∧
    ((∀ c ∈ parts, G.vcount ≤ c.length) → (∃ c ∈ parts, G.vcount < c.length) →
      partitionCoefficients2DSerial G parts = .error .indexError) := by
  refine ⟨fun hp => ⟨⟨_, _, coefficients2D_general hG hp⟩, fun he => ?_⟩, fun hp hex => ?_⟩
  · rw [coefficients2D_general hG hp]
    have hempty : G.edges = [] := List.length_eq_zero_iff.mp he
    have hadj : ∀ i j, adj G i j = 0 := by intro i j; simp [adj, hempty]
    have h1 : ∀ c : List α, withinAdj G c = 0 := by
      intro c; unfold withinAdj
      refine Finset.sum_eq_zero fun i _ => Finset.sum_eq_zero fun j _ => ?_
      simp [hadj]
    have h2 : total G = 0 := by simp [total, hadj]
    have h3 : ∀ i, colSum G i = 0 := by intro i; simp [colSum, hadj]
    simp only [h2, h3, npDiv]
    have : (withinAdj G : List α → F) = fun _ => 0 := funext h1
    rw [this]; simp
  · obtain ⟨c, hc, hlen⟩ := hex
    unfold partitionCoefficients2DSerial
    have hA : ∃ a, parts.mapM (adjacencyCoefficient G.directed G.edges) = .ok a := by
      refine ⟨_, mapM_ok (g := fun c => if G.directed then insideCount G.edges c else 2 * insideCount G.edges c) ?_⟩
      intro c hc
      unfold adjacencyCoefficient
      rw [internalEdgeCount_ok (fun e he => by
        have := hG.1 e he; have := hp c hc; omega)]
      rfl
    obtain ⟨a, ha⟩ := hA
    rw [ha]
    have hinl : G.inDegrees.length = G.vcount := by
      unfold Graph.inDegrees Graph.allDegrees; split <;> simp
    have hall : G.allDegrees.length = G.vcount := by simp [Graph.allDegrees]
    have hbody : ∀ vs, (∃ y, (do
          if G.directed then
            let i ← degreeSum G.inDegrees vs
            let o ← degreeSum G.outDegrees vs
            return i * o
          else
            let s ← degreeSum G.allDegrees vs
            return s ^ 2 : Py Nat) = .ok y) ∨ (do
          if G.directed then
            let i ← degreeSum G.inDegrees vs
            let o ← degreeSum G.outDegrees vs
            return i * o
          else
            let s ← degreeSum G.allDegrees vs
            return s ^ 2 : Py Nat) = .error .indexError := by
      intro vs
      split
      · rcases degreeSum_cases G.inDegrees vs with ⟨y, hy⟩ | hy
        · rcases degreeSum_cases G.outDegrees vs with ⟨z, hz⟩ | hz
          · left; rw [hy, hz]; exact ⟨_, rfl⟩
          · right; rw [hy, hz]; rfl
        · right; rw [hy]; rfl
      · rcases degreeSum_cases G.allDegrees vs with ⟨y, hy⟩ | hy
        · left; rw [hy]; exact ⟨_, rfl⟩
        · right; rw [hy]; rfl
    have hone : ∀ d : List α, (∃ y, nullModelNumerator G d = .ok y) ∨ nullModelNumerator G d = .error .indexError := by
      intro d
      unfold nullModelNumerator
      by_cases hex : ∃ cvs ∈ membershipToCommunities d, (do
          if G.directed then
            let i ← degreeSum G.inDegrees cvs.2
            let o ← degreeSum G.outDegrees cvs.2
            return i * o
          else
            let s ← degreeSum G.allDegrees cvs.2
            return s ^ 2 : Py Nat) = .error .indexError
      · obtain ⟨cvs, h1, h2⟩ := hex
        right
        rw [mapM_indexError (fun x _ => hbody x.2) h1 h2]; rfl
      · left
        have hall : ∀ cvs ∈ membershipToCommunities d, ∃ y, (do
            if G.directed then
              let i ← degreeSum G.inDegrees cvs.2
              let o ← degreeSum G.outDegrees cvs.2
              return i * o
            else
              let s ← degreeSum G.allDegrees cvs.2
              return s ^ 2 : Py Nat) = .ok y := fun cvs hm =>
          (hbody cvs.2).resolve_right (fun h => hex ⟨cvs, hm, h⟩)
        have : ∃ g : α × List Nat → Nat, ∀ cvs ∈ membershipToCommunities d, (do
            if G.directed then
              let i ← degreeSum G.inDegrees cvs.2
              let o ← degreeSum G.outDegrees cvs.2
              return i * o
            else
              let s ← degreeSum G.allDegrees cvs.2
              return s ^ 2 : Py Nat) = .ok (g cvs) := by
          classical
          refine ⟨fun cvs => if h : cvs ∈ membershipToCommunities d then (hall cvs h).choose else 0, ?_⟩
          intro cvs hm
          simp only [hm, dif_pos]
          exact (hall cvs hm).choose_spec
        obtain ⟨g, hg⟩ := this
        rw [mapM_ok (g := g) hg]
        exact ⟨_, rfl⟩
    have hbad : nullModelNumerator G c = .error .indexError := by
      unfold nullModelNumerator
      have hv : G.vcount ∈ verticesOf c c[G.vcount] := by
        rw [mem_verticesOf, List.getElem?_eq_getElem hlen]
      have hm : (c[G.vcount], verticesOf c c[G.vcount]) ∈ membershipToCommunities c :=
        (mem_membershipToCommunities _ _ _).mpr ⟨List.getElem_mem hlen, rfl⟩
      rw [mapM_indexError (fun x _ => hbody x.2) hm]
      · rfl
      · split
        · rw [degreeSum_error hv (by omega)]; rfl
        · rw [degreeSum_error hv (by omega)]; rfl
    have hP : parts.mapM (nullModelNumerator G) = .error .indexError :=
      mapM_indexError (fun x _ => hone x) hc hbad
    show (do let P ← parts.mapM (nullModelNumerator G); _ : Py _) = _
    rw [hP]; rfl

example : partitionCoefficients2DSerial (⟨2, false, [], none⟩ : Graph ℚ) [[0, 1]] = .ok ([0], [.nan]) := by
  decide +kernel
example : partitionCoefficients2DSerial gDir [[0, 0, 1], [0, 1, 2, 0]] = .error .indexError := by decide +kernel

/-- **C12 (3D).** If some layer contains a vertex but no intralayer edge leaves it, then no membership of the right
length gets a finite `P_hat`; if moreover the graph is directed, or no edge touches that layer, `P_hat` is NaN. -/
theorem c12_failures_3D {Gi Gx : Graph F} (hG : Gi.WF) (hX : Gx.WF) (hv : Gx.vcount = Gi.vcount)
    {layer : List Nat} (hl : layer.length = Gi.vcount) {t : Nat} (ht : t ∈ layer)
    (hempty : ∀ e ∈ Gi.edges, layer[e.1]? ≠ some t) {c : List α} (hc : c.length = Gi.vcount) :
    ∃ A P C, partitionCoefficients3DSerial Gi Gx layer [c] = .ok ([A], [P], [C]) ∧ (∀ r, P ≠ .fin r) ∧
      ((Gi.directed = true ∨ ∀ e ∈ Gi.edges, layer[e.2]? ≠ some t) → P = .nan) := by
  have hn : layer ≠ [] := List.ne_nil_of_mem ht
  obtain ⟨ec, hec1, hec2⟩ := ecountPerLayer_ok hG hl hn
  obtain ⟨a, ha, _⟩ := adjacencyCoefficient_ok hG hc
  obtain ⟨x, hx, _⟩ := adjacencyCoefficient_ok hX (hc.trans hv.symm)
  have hP := nullModelCoefficient3D_eq hG hl hec2 hc
  refine ⟨(a : F), Fl.sum ((membershipToCommunities (c.zip layer)).map fun e =>
        npDiv (((e.2.map (colSum Gi)).sum * (e.2.map (rowSum Gi)).sum : Nat) : F) (codeDenom Gi layer e.1.2)), (x : F),
    (serial3D_ok_iff hec1).mpr ⟨[a], [_], [x], ?_, ?_, ?_, rfl⟩, ?_, ?_⟩
  · rw [List.mapM_cons, ha]; rfl
  · rw [List.mapM_cons, hP]; rfl
  · rw [List.mapM_cons, hx]; rfl
  all_goals
    obtain ⟨v, hv', hvt⟩ := List.getElem_of_mem ht
    have hv1 : v < c.length := by omega
    have hzl : v < (c.zip layer).length := by simp; omega
    have hz : (c.zip layer)[v] = (c[v], t) := by simp [hvt]
    have hm : ((c[v], t), verticesOf (c.zip layer) (c[v], t)) ∈ membershipToCommunities (c.zip layer) :=
      (mem_membershipToCommunities _ _ _).mpr ⟨hz ▸ List.getElem_mem hzl, rfl⟩
    have h0 : layerEdges Gi.edges layer t = 0 := by
      unfold layerEdges; rw [List.countP_eq_zero]
      intro e he; simpa using hempty e he
    have hden : codeDenom Gi layer t = 0 := by unfold codeDenom; rw [h0]; simp
    have hmem := List.mem_map_of_mem (f := fun e : (α × Nat) × List Nat =>
      npDiv (((e.2.map (colSum Gi)).sum * (e.2.map (rowSum Gi)).sum : Nat) : F) (codeDenom Gi layer e.1.2)) hm
    simp only [hden] at hmem
  · intro r
    refine Fl.sum_not_fin hmem ?_ r
    intro r'
    simp only [npDiv, ne_eq, not_true, if_false]
    split
    · simp
    · split <;> simp
  · intro hor
    apply Fl.sum_nan
    have hrow : ((verticesOf (c.zip layer) (c[v], t)).map (rowSum Gi)).sum = 0 := by
      rw [List.sum_eq_zero_iff]
      intro y hy
      obtain ⟨u, hu, rfl⟩ := List.mem_map.mp hy
      have hu1 := verticesOf_lt hu
      have hu2 := mem_verticesOf.mp hu
      have hut : layer[u]? = some t := by
        rw [List.getElem?_zip_eq_some] at hu2; exact hu2.2
      unfold rowSum
      refine Finset.sum_eq_zero fun j _ => ?_
      have hcnt1 : Gi.edges.count (u, j) = 0 := by
        rw [List.count_eq_zero]; intro he; exact hempty _ he hut
      unfold adj
      by_cases hd : Gi.directed
      · simp [hd, hcnt1]
      · have hcnt2 : Gi.edges.count (j, u) = 0 := by
          rw [List.count_eq_zero]; intro he
          exact (hor.resolve_left (by simpa using hd)) _ he hut
        simp [hd, hcnt1, hcnt2]
    rw [hrow] at hmem
    simpa [npDiv] using hmem

example : partitionCoefficients3DSerial (⟨4, false, [(0, 1)], none⟩ : Graph ℚ) gInter [0, 0, 1, 1] [[0, 1, 0, 1]] =
    .ok ([0], [.nan], [2]) := by decide +kernel

end Verif.Props
