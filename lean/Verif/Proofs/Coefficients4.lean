import Mathlib.Algebra.Order.Chebyshev
import Verif.Proofs.Coefficients3D

set_option linter.unusedSectionVars false

namespace Verif
open Spec Finset

/-! ### C09 -/

section
variable {F : Type} [Field F] [LinearOrder F] [IsStrictOrderedRing F] {α β : Type} [DecidableEq α] [DecidableEq β]

theorem coefficients2D_general {G : Graph F} (hG : G.WF) {parts : List (List α)}
    (hp : ∀ c ∈ parts, c.length = G.vcount) :
    partitionCoefficients2DSerial G parts =
      .ok (parts.map (withinAdj G), parts.map fun c => npDiv ((∑ i ∈ range G.vcount, ∑ j ∈ range G.vcount,
      if c[i]? = c[j]? then colSum G i * rowSum G j else 0 : Nat) : F) (total G : F)) := by
  unfold partitionCoefficients2DSerial
  have hA : ∃ g : List α → Nat, ∀ c ∈ parts, adjacencyCoefficient G.directed G.edges c = .ok (g c) ∧
      (g c : F) = withinAdj G c := by
    classical
    refine ⟨fun c => if h : c.length = G.vcount then (adjacencyCoefficient_ok hG h).choose else 0, ?_⟩
    intro c hc
    simp only [hp c hc, dif_pos]
    exact (adjacencyCoefficient_ok hG (hp c hc)).choose_spec
  obtain ⟨g, hg⟩ := hA
  rw [mapM_ok (g := g) (fun c hc => (hg c hc).1)]
  rw [mapM_ok (g := fun c => ∑ i ∈ range G.vcount, ∑ j ∈ range G.vcount,
      if c[i]? = c[j]? then colSum G i * rowSum G j else 0) (fun c hc => nullModelNumerator_ok hG (hp c hc))]
  show Except.ok _ = _
  congr 1
  rw [denom_eq hG]
  refine Prod.ext ?_ ?_
  · simp only [List.map_map]
    apply List.map_congr_left
    intro c hc
    exact (hg c hc).2
  · simp only [List.map_map]
    rfl

theorem withinAdj_same {G : Graph F} {c : List α} {d : List β} (h : SamePartition c d) (hc : c.length = G.vcount) :
    withinAdj G c = withinAdj G d := by
  unfold withinAdj
  apply Finset.sum_congr rfl; intro i hi; apply Finset.sum_congr rfl; intro j hj
  rw [Finset.mem_range] at hi hj
  simp only [h.2 i j (by omega) (by omega)]

theorem nullNum_same {G : Graph F} {c : List α} {d : List β} (h : SamePartition c d) (hc : c.length = G.vcount) :
    (∑ i ∈ range G.vcount, ∑ j ∈ range G.vcount, if c[i]? = c[j]? then colSum G i * rowSum G j else 0) =
      ∑ i ∈ range G.vcount, ∑ j ∈ range G.vcount, if d[i]? = d[j]? then colSum G i * rowSum G j else 0 := by
  apply Finset.sum_congr rfl; intro i hi; apply Finset.sum_congr rfl; intro j hj
  rw [Finset.mem_range] at hi hj
  simp only [h.2 i j (by omega) (by omega)]

theorem withinNull_same {G : Graph F} {c : List α} {d : List β} (h : SamePartition c d) (hc : c.length = G.vcount) :
    withinNull G c = withinNull G d := by
  rw [withinNull_eq, withinNull_eq, nullNum_same h hc]

theorem withinNullLayered_same {G : Graph F} {layer : List Nat} {c : List α} {d : List β} (h : SamePartition c d)
    (hc : c.length = G.vcount) : withinNullLayered G layer c = withinNullLayered G layer d := by
  unfold withinNullLayered
  apply Finset.sum_congr rfl; intro i hi; apply Finset.sum_congr rfl; intro j hj
  rw [Finset.mem_range] at hi hj
  simp only [h.2 i j (by omega) (by omega)]

/-! ### C10 -/

theorem withinAdj_nonneg (G : Graph F) (c : List α) : 0 ≤ withinAdj G c := by
  unfold withinAdj
  refine Finset.sum_nonneg fun i _ => Finset.sum_nonneg fun j _ => ?_
  split <;> simp

theorem withinNull_nonneg (G : Graph F) (c : List α) : 0 ≤ withinNull G c := by
  rw [withinNull_eq]; positivity

/-- `d` is coarser than `c` -/
theorem withinAdj_mono {G : Graph F} {c : List α} {d : List β}
    (h : ∀ i j, i < G.vcount → j < G.vcount → c[i]? = c[j]? → d[i]? = d[j]?) : withinAdj G c ≤ withinAdj G d := by
  unfold withinAdj
  refine Finset.sum_le_sum fun i hi => Finset.sum_le_sum fun j hj => ?_
  rw [Finset.mem_range] at hi hj
  by_cases hc : c[i]? = c[j]?
  · rw [if_pos hc, if_pos (h i j hi hj hc)]
  · rw [if_neg hc]; split <;> simp

theorem withinNull_mono {G : Graph F} {c : List α} {d : List β}
    (h : ∀ i j, i < G.vcount → j < G.vcount → c[i]? = c[j]? → d[i]? = d[j]?) : withinNull G c ≤ withinNull G d := by
  unfold withinNull
  refine Finset.sum_le_sum fun i hi => Finset.sum_le_sum fun j hj => ?_
  rw [Finset.mem_range] at hi hj
  by_cases hc : c[i]? = c[j]?
  · rw [if_pos hc, if_pos (h i j hi hj hc)]
  · rw [if_neg hc]; split
    · positivity
    · exact le_refl _

theorem withinAdj_all {G : Graph F} {c : List α} (h : ∀ i j, i < G.vcount → j < G.vcount → c[i]? = c[j]?) :
    withinAdj G c = (total G : F) := by
  unfold withinAdj total
  push_cast
  apply Finset.sum_congr rfl; intro i hi; apply Finset.sum_congr rfl; intro j hj
  rw [Finset.mem_range] at hi hj
  rw [if_pos (h i j hi hj)]

theorem withinNull_all {G : Graph F} {c : List α}
    (h : ∀ i j, i < G.vcount → j < G.vcount → c[i]? = c[j]?) :
    withinNull G c = (total G : F) := by
  rw [withinNull_eq]
  have : (∑ i ∈ range G.vcount, ∑ j ∈ range G.vcount, if c[i]? = c[j]? then colSum G i * rowSum G j else 0) =
      total G * total G := by
    rw [← sum_colSum]
    nth_rewrite 2 [sum_colSum]
    rw [← sum_rowSum, Finset.sum_mul_sum]
    apply Finset.sum_congr rfl; intro i hi; apply Finset.sum_congr rfl; intro j hj
    rw [Finset.mem_range] at hi hj
    rw [if_pos (h i j hi hj)]
  rw [this]
  push_cast
  by_cases ht : (total G : F) = 0
  · simp [ht]
  · field_simp

theorem withinAdj_le (G : Graph F) (c : List α) : withinAdj G c ≤ (total G : F) := by
  rw [← withinAdj_all (G := G) (c := ([] : List Nat)) (fun i j _ _ => rfl)]
  exact withinAdj_mono fun i j _ _ _ => rfl

theorem withinNull_le (G : Graph F) (c : List α) : withinNull G c ≤ (total G : F) := by
  rw [← withinNull_all (G := G) (c := ([] : List Nat)) (fun i j _ _ => rfl)]
  exact withinNull_mono fun i j _ _ _ => rfl

/-- Cauchy–Schwarz: `2m/K ≤ P_hat` for undirected graphs -/
theorem withinNull_lower {G : Graph F} (hG : G.WF) (hd : G.directed = false) (he : 0 < G.ecount) {c : List α}
    (hc : c.length = G.vcount) : (total G : F) ≤ (c.dedup.length : F) * withinNull G c := by
  have hcr : colSum G = rowSum G := funext fun i => colSum_eq_rowSum hd i
  have hp := pair_sum c (fun _ => (1 : F)) (fun v => (rowSum G v : F)) (fun v => (rowSum G v : F))
  simp only [one_mul] at hp
  have h1 : (∑ k ∈ c.toFinset, ∑ v ∈ range c.length, if c[v]? = some k then (rowSum G v : F) else 0) =
      (total G : F) := by
    rw [Finset.sum_comm, ← sum_rowSum, ← hc]
    push_cast
    apply Finset.sum_congr rfl; intro v hv
    rw [Finset.mem_range] at hv
    rw [List.getElem?_eq_getElem hv]
    simp only [Option.some.injEq]
    rw [Finset.sum_ite_eq]; simp
  have h2 := sq_sum_le_card_mul_sum_sq (s := c.toFinset)
    (f := fun k => ∑ v ∈ range c.length, if c[v]? = some k then (rowSum G v : F) else 0)
  rw [h1] at h2
  simp only [pow_two] at h2
  rw [hp, List.card_toFinset] at h2
  have h3 : (∑ i ∈ range c.length, ∑ j ∈ range c.length,
        if c[i]? = c[j]? then ((c[i]?.map fun _ => (1 : F)).getD 0) * ((rowSum G i : F) * (rowSum G j : F)) else 0) =
      withinNull G c * (total G : F) := by
    have ht : (total G : F) ≠ 0 := by
      have := total_pos hG he
      exact_mod_cast this.ne'
    rw [withinNull_eq, div_mul_cancel₀ _ ht, hcr, hc]
    push_cast
    apply Finset.sum_congr rfl; intro i hi; apply Finset.sum_congr rfl; intro j hj
    rw [Finset.mem_range] at hi
    rw [List.getElem?_eq_getElem (by omega : i < c.length)]
    simp
  rw [h3, ← mul_assoc] at h2
  have ht : (0 : F) < (total G : F) := by
    have := total_pos hG he
    exact_mod_cast this
  exact le_of_mul_le_mul_right h2 ht

theorem withinNull_pos {G : Graph F} (hG : G.WF) (hd : G.directed = false) (he : 0 < G.ecount) {c : List α}
    (hc : c.length = G.vcount) : 0 < withinNull G c := by
  have h := withinNull_lower hG hd he hc
  have ht : (0 : F) < (total G : F) := by
    have := total_pos hG he
    exact_mod_cast this
  by_contra hn
  have h0 : withinNull G c ≤ 0 := not_lt.mp hn
  have : (c.dedup.length : F) * withinNull G c ≤ 0 := mul_nonpos_of_nonneg_of_nonpos (by positivity) h0
  linarith

end

/-! ### C11 -/

section Pool
variable {β γ : Type}

theorem mapM_append_py {f : β → Py γ} (l₁ l₂ : List β) :
    (l₁ ++ l₂).mapM f = (do let a ← l₁.mapM f; let b ← l₂.mapM f; return a ++ b : Py (List γ)) := by
  rw [List.mapM_append]

theorem mapM_append_ok_iff {f : β → Py γ} {l₁ l₂ : List β} {v : List γ} :
    (l₁ ++ l₂).mapM f = .ok v ↔ ∃ v₁ v₂, l₁.mapM f = .ok v₁ ∧ l₂.mapM f = .ok v₂ ∧ v = v₁ ++ v₂ := by
  rw [mapM_append_py]
  cases h1 : l₁.mapM f with
  | error e =>
    constructor
    · intro h; cases h
    · rintro ⟨_, _, h, _⟩; cases h
  | ok a =>
    cases h2 : l₂.mapM f with
    | error e =>
      constructor
      · intro h; cases h
      · rintro ⟨_, _, _, h, _⟩; cases h
    | ok b =>
      constructor
      · intro h; cases h; exact ⟨a, b, rfl, rfl, rfl⟩
      · rintro ⟨_, _, h1, h2, rfl⟩; cases h1; cases h2; rfl

theorem mapM_length {f : β → Py γ} {l : List β} {v : List γ} (h : l.mapM f = .ok v) : v.length = l.length := by
  induction l generalizing v with
  | nil => cases h; rfl
  | cons a l ih =>
    rw [List.mapM_cons] at h
    cases h1 : f a with
    | error e => rw [h1] at h; cases h
    | ok x =>
      rw [h1] at h
      cases h2 : l.mapM f with
      | error e => rw [h2] at h; cases h
      | ok y => rw [h2] at h; cases h; simp [ih h2]

theorem foldl_slots_getElem? (f : β → Py γ) (tasks : List β) (sched : List Nat)
    (slots : List (Option (Py γ))) (hs : slots.length = tasks.length) (i : Nat) (hi : i < tasks.length) :
    (sched.foldl (fillSlot f tasks) slots)[i]? = if i ∈ sched then some (some (f tasks[i])) else slots[i]? := by
  induction sched generalizing slots with
  | nil => simp
  | cons k sched ih =>
    rw [List.foldl_cons, ih]
    unfold fillSlot
    · by_cases hm : i ∈ sched
      · simp [hm]
      · by_cases hk : i = k
        · subst hk
          simp [hm, hs, hi]
        · simp only [hm, if_false, List.mem_cons, hk, false_or]
          cases tasks[k]? with
          | none => rfl
          | some t => simp only; rw [List.getElem?_set_ne (fun e => hk e.symm)]
    · unfold fillSlot
      cases tasks[k]? with
      | none => exact hs
      | some t => simpa using hs

theorem foldl_slots_length (f : β → Py γ) (tasks : List β) (sched : List Nat)
    (slots : List (Option (Py γ))) :
    (sched.foldl (fillSlot f tasks) slots).length = slots.length := by
  induction sched generalizing slots with
  | nil => rfl
  | cons k sched ih =>
    rw [List.foldl_cons, ih]
    unfold fillSlot
    cases tasks[k]? <;> simp

theorem mapM_id_some {γ : Type} (l : List γ) : (l.map some).mapM (m := Option) id = some l := by
  induction l with
  | nil => rfl
  | cons a l ih => rw [List.map_cons, List.mapM_cons, ih]; rfl

theorem poolStarmap_complete (f : β → Py γ) (tasks : List β) (sched : List Nat)
    (h : ∀ i < tasks.length, i ∈ sched) : poolStarmap f tasks sched = some (tasks.mapM f) := by
  unfold poolStarmap
  have : (sched.foldl (fillSlot f tasks) (List.replicate tasks.length none)) = (tasks.map f).map some := by
    apply List.ext_getElem?
    intro i
    by_cases hi : i < tasks.length
    · rw [foldl_slots_getElem? f tasks sched _ (by simp) i hi, if_pos (h i hi)]
      simp [hi]
    · rw [List.getElem?_eq_none (by rw [foldl_slots_length]; simp; omega), List.getElem?_eq_none (by simp; omega)]
  simp only [this, mapM_id_some, Option.map_some]
  congr 1
  clear this h
  induction tasks with
  | nil => rfl
  | cons a l ih => rw [List.map_cons, List.mapM_cons, ih, List.mapM_cons]; rfl

/-- Chunk boundaries: monotone from 0 to the length. -/
structure GoodBoundaries (b : Nat → Nat) (cpu len : Nat) : Prop where
  zero : b 0 = 0
  last : b cpu = len
  mono : ∀ i < cpu, b i ≤ b (i + 1)

theorem slices_flatten {δ : Type} (l : List δ) (b : Nat → Nat) (n : Nat) (h0 : b 0 = 0)
    (hm : ∀ i < n, b i ≤ b (i + 1)) :
    ((List.range n).map fun i => (l.take (b (i + 1))).drop (b i)).flatten = l.take (b n) := by
  induction n with
  | zero => simp [h0]
  | succ n ih =>
    rw [List.range_succ, List.map_append, List.flatten_append, ih (fun i hi => hm i (by omega))]
    simp only [List.map_cons, List.map_nil, List.flatten_cons, List.flatten_nil, List.append_nil]
    have hle := hm n (by omega)
    conv_rhs => rw [← List.take_append_drop (b n) (l.take (b (n + 1)))]
    rw [List.take_take, min_eq_left hle]

theorem partitionChunks_flatten {δ : Type} {rnd : Nat → Nat → Nat} {cpu : Nat} {l : List δ}
    (h : GoodBoundaries (chunkBoundary rnd l.length cpu) cpu l.length) :
    (partitionChunks rnd cpu l).flatten = l := by
  unfold partitionChunks
  rw [slices_flatten l _ cpu h.zero h.mono, h.last, List.take_length]

theorem partitionChunks_length {δ : Type} (rnd : Nat → Nat → Nat) (cpu : Nat) (l : List δ) :
    (partitionChunks rnd cpu l).length = cpu := by simp [partitionChunks]

end Pool

section Par
variable {F : Type} [Field F] [LinearOrder F] {α : Type} [DecidableEq α]

theorem serial2D_append_iff {G : Graph F} {l₁ l₂ : List (List α)} {v : List F × List (Fl F)} :
    partitionCoefficients2DSerial G (l₁ ++ l₂) = .ok v ↔
      ∃ v₁ v₂, partitionCoefficients2DSerial G l₁ = .ok v₁ ∧ partitionCoefficients2DSerial G l₂ = .ok v₂ ∧
        v = (v₁.1 ++ v₂.1, v₁.2 ++ v₂.2) := by
  unfold partitionCoefficients2DSerial
  rw [mapM_append_py, mapM_append_py]
  cases h1 : l₁.mapM (adjacencyCoefficient G.directed G.edges) with
  | error e => exact ⟨fun h => (by cases h), fun ⟨_, _, h, _⟩ => by cases h⟩
  | ok a1 =>
    cases h2 : l₂.mapM (adjacencyCoefficient G.directed G.edges) with
    | error e => exact ⟨fun h => (by cases h), fun ⟨_, _, _, h, _⟩ => by cases h⟩
    | ok a2 =>
      cases h3 : l₁.mapM (nullModelNumerator G) with
      | error e => exact ⟨fun h => (by cases h), fun ⟨_, _, h, _⟩ => by cases h⟩
      | ok p1 =>
        cases h4 : l₂.mapM (nullModelNumerator G) with
        | error e => exact ⟨fun h => (by cases h), fun ⟨_, _, _, h, _⟩ => by cases h⟩
        | ok p2 =>
          constructor
          · intro h
            cases h
            refine ⟨_, _, rfl, rfl, ?_⟩
            simp only [List.map_append]
          · rintro ⟨_, _, h1, h2, rfl⟩
            cases h1; cases h2
            show Except.ok _ = _
            simp only [List.map_append]

theorem serial2D_flatten_iff {G : Graph F} {chunks : List (List (List α))} {v : List F × List (Fl F)} :
    partitionCoefficients2DSerial G chunks.flatten = .ok v ↔
      ∃ rs, chunks.mapM (partitionCoefficients2DSerial G) = .ok rs ∧
        v = (rs.flatMap (fun r => r.1), rs.flatMap (fun r => r.2)) := by
  induction chunks generalizing v with
  | nil =>
    constructor
    · intro h; cases h; exact ⟨[], rfl, rfl⟩
    · rintro ⟨rs, h, rfl⟩; cases h; rfl
  | cons c cs ih =>
    rw [List.flatten_cons, serial2D_append_iff, List.mapM_cons]
    constructor
    · rintro ⟨v1, v2, h1, h2, rfl⟩
      obtain ⟨rs, h3, rfl⟩ := ih.mp h2
      refine ⟨v1 :: rs, ?_, by simp⟩
      rw [h1, h3]; rfl
    · rintro ⟨rs, h, rfl⟩
      cases h1 : partitionCoefficients2DSerial G c with
      | error e => rw [h1] at h; cases h
      | ok v1 =>
        cases h2 : cs.mapM (partitionCoefficients2DSerial G) with
        | error e => rw [h1, h2] at h; cases h
        | ok r2 =>
          rw [h1, h2] at h; cases h
          exact ⟨v1, _, rfl, ih.mpr ⟨r2, h2, rfl⟩, by simp⟩

theorem serial2D_lengths {G : Graph F} {parts : List (List α)} {v : List F × List (Fl F)}
    (h : partitionCoefficients2DSerial G parts = .ok v) : v.1.length = parts.length ∧ v.2.length = parts.length := by
  unfold partitionCoefficients2DSerial at h
  cases h1 : parts.mapM (adjacencyCoefficient G.directed G.edges) with
  | error e => rw [h1] at h; cases h
  | ok a =>
    cases h2 : parts.mapM (nullModelNumerator G) with
    | error e => rw [h1, h2] at h; cases h
    | ok p =>
      rw [h1, h2] at h; cases h
      simp [mapM_length h1, mapM_length h2]

theorem serial3D_ok_iff {Gi Gx : Graph F} {layer : List Nat} {ec : List F} (hec : ecountPerLayer Gi layer = .ok ec)
    {parts : List (List α)} {v : List F × List (Fl F) × List F} :
    partitionCoefficients3DSerial Gi Gx layer parts = .ok v ↔
      ∃ a p c, parts.mapM (adjacencyCoefficient Gi.directed Gi.edges) = .ok a ∧
        parts.mapM (nullModelCoefficient3D Gi layer ec) = .ok p ∧
        parts.mapM (adjacencyCoefficient Gx.directed Gx.edges) = .ok c ∧
        v = (a.map (fun (a : Nat) => (a : F)), p, c.map (fun (c : Nat) => (c : F))) := by
  unfold partitionCoefficients3DSerial
  rw [hec]
  cases h1 : parts.mapM (adjacencyCoefficient Gi.directed Gi.edges) with
  | error e => exact ⟨fun h => (by cases h), fun ⟨_, _, _, h, _⟩ => by cases h⟩
  | ok a =>
    cases h2 : parts.mapM (nullModelCoefficient3D Gi layer ec) with
    | error e =>
      constructor
      · intro h
        have : (Except.error e : Py (List F × List (Fl F) × List F)) = .ok v := by
          rw [← h]; show _ = (do let P ← parts.mapM (nullModelCoefficient3D Gi layer ec); _ : Py _); rw [h2]; rfl
        cases this
      · rintro ⟨_, _, _, _, h, _⟩; cases h
    | ok p =>
      cases h3 : parts.mapM (adjacencyCoefficient Gx.directed Gx.edges) with
      | error e =>
        constructor
        · intro h
          have : (Except.error e : Py (List F × List (Fl F) × List F)) = .ok v := by
            rw [← h]; show _ = (do let P ← parts.mapM (nullModelCoefficient3D Gi layer ec); _ : Py _); rw [h2]; rfl
          cases this
        · rintro ⟨_, _, _, _, _, h, _⟩; cases h
      | ok c =>
        have : ∀ w, (do let P ← parts.mapM (nullModelCoefficient3D Gi layer ec)
                        let C ← (Except.ok c : Py (List Nat))
                        return (a.map (fun (a : Nat) => (a : F)), P, C.map (fun (c : Nat) => (c : F))) :
                        Py (List F × List (Fl F) × List F)) = .ok w ↔
            w = (a.map (fun (a : Nat) => (a : F)), p, c.map (fun (c : Nat) => (c : F))) := by
          intro w; rw [h2]
          constructor
          · intro h; cases h; rfl
          · rintro rfl; rfl
        refine (this v).trans ?_
        constructor
        · rintro rfl; exact ⟨_, _, _, rfl, rfl, rfl, rfl⟩
        · rintro ⟨_, _, _, e1, e2, e3, rfl⟩; cases e1; cases e2; cases e3; rfl

theorem serial3D_error {Gi Gx : Graph F} {layer : List Nat} {e : PyErr} (hec : ecountPerLayer Gi layer = .error e)
    (parts : List (List α)) (v) : partitionCoefficients3DSerial Gi Gx layer parts ≠ .ok v := by
  unfold partitionCoefficients3DSerial
  rw [hec]
  cases parts.mapM (adjacencyCoefficient Gi.directed Gi.edges) <;> intro h <;> cases h

theorem serial3D_append_iff {Gi Gx : Graph F} {layer : List Nat} {ec : List F} (hec : ecountPerLayer Gi layer = .ok ec)
    {l₁ l₂ : List (List α)} {v : List F × List (Fl F) × List F} :
    partitionCoefficients3DSerial Gi Gx layer (l₁ ++ l₂) = .ok v ↔
      ∃ v₁ v₂, partitionCoefficients3DSerial Gi Gx layer l₁ = .ok v₁ ∧
        partitionCoefficients3DSerial Gi Gx layer l₂ = .ok v₂ ∧
        v = (v₁.1 ++ v₂.1, v₁.2.1 ++ v₂.2.1, v₁.2.2 ++ v₂.2.2) := by
  simp only [serial3D_ok_iff hec, mapM_append_ok_iff]
  constructor
  · rintro ⟨_, _, _, ⟨a1, a2, ha1, ha2, rfl⟩, ⟨p1, p2, hp1, hp2, rfl⟩, ⟨c1, c2, hc1, hc2, rfl⟩, rfl⟩
    exact ⟨_, _, ⟨a1, p1, c1, ha1, hp1, hc1, rfl⟩, ⟨a2, p2, c2, ha2, hp2, hc2, rfl⟩, by simp⟩
  · rintro ⟨_, _, ⟨a1, p1, c1, ha1, hp1, hc1, rfl⟩, ⟨a2, p2, c2, ha2, hp2, hc2, rfl⟩, rfl⟩
    exact ⟨_, _, _, ⟨a1, a2, ha1, ha2, rfl⟩, ⟨p1, p2, hp1, hp2, rfl⟩, ⟨c1, c2, hc1, hc2, rfl⟩, by simp⟩

theorem serial3D_flatten_iff {Gi Gx : Graph F} {layer : List Nat} {chunks : List (List (List α))}
    (hne : chunks ≠ []) {v : List F × List (Fl F) × List F} :
    partitionCoefficients3DSerial Gi Gx layer chunks.flatten = .ok v ↔
      ∃ rs, chunks.mapM (partitionCoefficients3DSerial Gi Gx layer) = .ok rs ∧
        v = (rs.flatMap (fun r => r.1), rs.flatMap (fun r => r.2.1), rs.flatMap (fun r => r.2.2)) := by
  cases hec : ecountPerLayer Gi layer with
  | error e =>
    constructor
    · intro h; exact absurd h (serial3D_error hec _ _)
    · rintro ⟨rs, h, _⟩
      cases chunks with
      | nil => exact absurd rfl hne
      | cons c cs =>
        rw [List.mapM_cons] at h
        cases h1 : partitionCoefficients3DSerial Gi Gx layer c with
        | error e => rw [h1] at h; cases h
        | ok w => exact absurd h1 (serial3D_error hec _ _)
  | ok ec =>
    clear hne
    induction chunks generalizing v with
    | nil =>
      rw [List.flatten_nil, serial3D_ok_iff hec]
      constructor
      · rintro ⟨a, p, c, h1, h2, h3, rfl⟩; cases h1; cases h2; cases h3; exact ⟨[], rfl, rfl⟩
      · rintro ⟨rs, h, rfl⟩; cases h; exact ⟨[], [], [], rfl, rfl, rfl, rfl⟩
    | cons c cs ih =>
      rw [List.flatten_cons, serial3D_append_iff hec, List.mapM_cons]
      constructor
      · rintro ⟨v1, v2, h1, h2, rfl⟩
        obtain ⟨rs, h3, rfl⟩ := ih.mp h2
        refine ⟨v1 :: rs, ?_, by simp⟩
        rw [h1, h3]; rfl
      · rintro ⟨rs, h, rfl⟩
        cases h1 : partitionCoefficients3DSerial Gi Gx layer c with
        | error e => rw [h1] at h; cases h
        | ok v1 =>
          cases h2 : cs.mapM (partitionCoefficients3DSerial Gi Gx layer) with
          | error e => rw [h1, h2] at h; cases h
          | ok r2 =>
            rw [h1, h2] at h; cases h
            exact ⟨v1, _, rfl, ih.mpr ⟨r2, h2, rfl⟩, by simp⟩

theorem serial3D_lengths {Gi Gx : Graph F} {layer : List Nat} {parts : List (List α)}
    {v : List F × List (Fl F) × List F}
    (h : partitionCoefficients3DSerial Gi Gx layer parts = .ok v) :
    v.1.length = parts.length ∧ v.2.1.length = parts.length ∧ v.2.2.length = parts.length := by
  cases hec : ecountPerLayer Gi layer with
  | error e => exact absurd h (serial3D_error hec _ _)
  | ok ec =>
    obtain ⟨a, p, c, h1, h2, h3, rfl⟩ := (serial3D_ok_iff hec).mp h
    simp [mapM_length h1, mapM_length h2, mapM_length h3]

end Par
end Verif
