import Verif.Model.Louvain
import Verif.Proofs.Drivers
import Verif.Props.Coefficients

/-!
# Lemmas about the progress bar and the Louvain driver
-/

namespace Verif
open Spec Props

theorem Progress.bar_ok {rnd : Nat → Nat → Nat} {p : Progress} (hp : p.total ≠ 0) (i : Nat) :
    p.bar rnd i = .ok (List.replicate (rnd (p.length * i) p.total) '#' ++
      List.replicate (p.length - rnd (p.length * i) p.total) '.') := by
  unfold Progress.bar; rw [if_neg hp]

section
variable {env : LouvainEnv} {rnd : Nat → Nat → Nat} {lowMemory : Nat → Bool} {sched : Nat → List Nat}
  {Gi Gx : Graph ℝ} {layers : List Nat}

/-- The bars printed by `n` increments. -/
def barsFrom (rnd : Nat → Nat → Nat) (p : Progress) (n : Nat) : List (List Char) :=
  (List.range n).map fun m => List.replicate (rnd (p.length * (p.i + m + 1)) p.total) '#' ++
    List.replicate (p.length - rnd (p.length * (p.i + m + 1)) p.total) '.'

theorem barsFrom_succ (p : Progress) (n : Nat) :
    barsFrom rnd p (n + 1) = (List.replicate (rnd (p.length * (p.i + 1)) p.total) '#' ++
      List.replicate (p.length - rnd (p.length * (p.i + 1)) p.total) '.') :: barsFrom rnd { p with i := p.i + 1 } n := by
  unfold barsFrom
  rw [List.range_succ_eq_map, List.map_cons, List.map_map]
  congr 1
  apply List.map_congr_left
  intro m _
  simp only [Function.comp]
  have : p.i + m.succ + 1 = p.i + 1 + m + 1 := by omega
  rw [this]

theorem louvainLoop_spec (chunks : List (List (Nat × Fl ℝ × ℝ))) : ∀ (k : Nat) (total : Finset (List Nat))
    (progress : Option Progress) (pools : Nat), (∀ p, progress = some p → p.total ≠ 0) →
    (∀ m c, chunks[m]? = some c → ∀ i < c.length, i ∈ sched (k + m)) →
    ∃ r, louvainLoop env rnd lowMemory sched Gi Gx layers chunks k total progress pools = some r ∧
      (∀ S, (∃ x, r = .ok (S, x)) ↔ ∃ found,
        (chunks.flatten).mapM (fun t => multilayerLouvain env t.1 Gi Gx layers t.2.1 t.2.2) = .ok found ∧
        ∀ y, y ∈ S ↔ y ∈ total ∨ ∃ c ∈ found, canon c = y) ∧
      (∀ S bars p' n, r = .ok (S, bars, p', n) →
        (progress = none → bars = [] ∧ p' = none) ∧
        ∀ p, progress = some p → bars = barsFrom rnd p chunks.length ∧ p' = some { p with i := p.i + chunks.length }) := by
  induction chunks with
  | nil =>
    intro k total progress pools _ _
    refine ⟨_, rfl, ?_, ?_⟩
    · intro S
      constructor
      · rintro ⟨x, hx⟩
        simp only [Except.ok.injEq, Prod.mk.injEq] at hx
        refine ⟨[], rfl, fun y => ?_⟩
        rw [hx.1]; simp
      · rintro ⟨found, h1, h2⟩
        have : found = [] := by cases h1; rfl
        subst this
        refine ⟨([], progress, pools), ?_⟩
        have : total = S := by ext y; rw [h2 y]; simp
        rw [this]
    · intro S bars p' n h
      simp only [Except.ok.injEq, Prod.mk.injEq] at h
      obtain ⟨-, rfl, rfl, -⟩ := h
      exact ⟨fun h => ⟨rfl, h⟩, fun p h => ⟨rfl, h⟩⟩
  | cons chunk chunks ih =>
    intro k total progress pools hp hs
    unfold louvainLoop
    rw [poolStarmap_complete _ _ _ (by simpa using hs 0 chunk rfl)]
    simp only [List.flatten_cons]
    cases hc : chunk.mapM fun t => multilayerLouvain env t.1 Gi Gx layers t.2.1 t.2.2 with
    | error e =>
      refine ⟨_, rfl, ?_, fun _ _ _ _ h => (by cases h)⟩
      intro S
      constructor
      · rintro ⟨x, hx⟩; cases hx
      · rintro ⟨found, h1, -⟩
        rw [List.mapM_append, hc] at h1
        cases h1
    | ok found₁ =>
      simp only
      rw [mapM_ok (g := canon) (fun t _ => sortedTuple_eq t)]
      simp only
      obtain ⟨bars, progress', hshown, hnone, hsome⟩ : ∃ bars progress', showProgress rnd progress =
            .ok (bars, progress') ∧ (progress = none → bars = [] ∧ progress' = none) ∧
          ∀ p, progress = some p → bars = [List.replicate (rnd (p.length * (p.i + 1)) p.total) '#' ++
            List.replicate (p.length - rnd (p.length * (p.i + 1)) p.total) '.'] ∧
            progress' = some { p with i := p.i + 1 } := by
        cases progress with
        | none => exact ⟨_, _, rfl, fun _ => ⟨rfl, rfl⟩, fun p h => (by cases h)⟩
        | some p =>
          refine ⟨[List.replicate (rnd (p.length * (p.i + 1)) p.total) '#' ++
            List.replicate (p.length - rnd (p.length * (p.i + 1)) p.total) '.'], some { p with i := p.i + 1 }, ?_,
            fun h => (by cases h), fun p' h => ?_⟩
          · simp only [showProgress, Progress.increment, Progress.update]
            rw [Progress.bar_ok (hp p rfl), Py.ok_bind]
            rfl
          · obtain rfl := Option.some.inj h
            exact ⟨rfl, rfl⟩
      rw [hshown]
      simp only
      obtain ⟨r, h1, h2, h3⟩ := ih (k + 1) ((found₁.map canon).foldl (fun s c => insert c s) total) progress'
        (if lowMemory k then pools + 1 else pools) (by
          intro p' hp'
          cases hpr : progress with
          | none => rw [(hnone hpr).2] at hp'; cases hp'
          | some p =>
            rw [(hsome p hpr).2] at hp'
            obtain rfl := Option.some.inj hp'
            exact hp p hpr) (by
          intro m c hm i hi
          have := hs (m + 1) c (by simpa using hm) i hi
          rwa [show k + (m + 1) = k + 1 + m by omega] at this)
      refine ⟨r.map fun x => (x.1, bars ++ x.2.1, x.2.2), by rw [h1]; rfl, ?_, ?_⟩
      · intro S
        have : (∃ x, Except.map (fun x => (x.1, bars ++ x.2.1, x.2.2)) r = .ok (S, x)) ↔ ∃ x, r = .ok (S, x) := by
          cases r with
          | error e => simp [Except.map]
          | ok x =>
            obtain ⟨a, b, c⟩ := x
            simp [Except.map]
        rw [this, h2 S]
        constructor
        · rintro ⟨found₂, h4, h5⟩
          refine ⟨found₁ ++ found₂, by rw [List.mapM_append, hc, Py.ok_bind, h4]; rfl, ?_⟩
          intro y
          rw [h5 y, mem_foldl_insert]
          simp only [List.mem_map, List.mem_append]
          constructor
          · rintro ((⟨c, hc, rfl⟩ | h) | ⟨c, hc, rfl⟩)
            · exact Or.inr ⟨c, Or.inl hc, rfl⟩
            · exact Or.inl h
            · exact Or.inr ⟨c, Or.inr hc, rfl⟩
          · rintro (h | ⟨c, hc | hc, rfl⟩)
            · exact Or.inl (Or.inr h)
            · exact Or.inl (Or.inl ⟨c, hc, rfl⟩)
            · exact Or.inr ⟨c, hc, rfl⟩
        · rintro ⟨found, h4, h5⟩
          rw [List.mapM_append, hc, Py.ok_bind] at h4
          cases h6 : chunks.flatten.mapM fun t => multilayerLouvain env t.1 Gi Gx layers t.2.1 t.2.2 with
          | error e => rw [h6] at h4; cases h4
          | ok found₂ =>
            rw [h6, Py.ok_bind, Py.pure_eq] at h4
            obtain rfl := Except.ok.inj h4
            refine ⟨found₂, rfl, ?_⟩
            intro y
            rw [h5 y, mem_foldl_insert]
            simp only [List.mem_map, List.mem_append]
            constructor
            · rintro (h | ⟨c, hc | hc, rfl⟩)
              · exact Or.inl (Or.inr h)
              · exact Or.inl (Or.inl ⟨c, hc, rfl⟩)
              · exact Or.inr ⟨c, hc, rfl⟩
            · rintro ((⟨c, hc, rfl⟩ | h) | ⟨c, hc, rfl⟩)
              · exact Or.inr ⟨c, Or.inl hc, rfl⟩
              · exact Or.inl h
              · exact Or.inr ⟨c, Or.inr hc, rfl⟩
      · intro S bars' p' n h
        cases r with
        | error e => cases h
        | ok x =>
          obtain ⟨S', b', pr', n'⟩ := x
          simp only [Except.map, Except.ok.injEq, Prod.mk.injEq] at h
          obtain ⟨rfl, rfl, rfl, rfl⟩ := h
          obtain ⟨h4, h5⟩ := h3 _ _ _ _ rfl
          constructor
          · intro hpr
            obtain ⟨rfl, h6⟩ := hnone hpr
            obtain ⟨rfl, rfl⟩ := h4 h6
            exact ⟨rfl, rfl⟩
          · intro p hpr
            obtain ⟨rfl, h6⟩ := hsome p hpr
            obtain ⟨rfl, rfl⟩ := h5 _ h6
            refine ⟨?_, ?_⟩
            · rw [List.length_cons, barsFrom_succ]; rfl
            · simp only [List.length_cons, Option.some.injEq, Progress.mk.injEq, true_and]
              omega

/-! ### The whole driver -/

theorem multilayerLouvain_eq (h : env.installation = .multilayer) (i : Nat) (γ : Fl ℝ) (ω : ℝ) :
    multilayerLouvain env i Gi Gx layers γ ω =
      env.optimise i (defaulted env.test Gi) (defaulted env.test Gx) layers γ ω := by
  unfold multilayerLouvain
  rw [h, checkCapabilities, Py.ok_bind, ensureWeight_ecount, Py.ok_bind, ensureWeight_ecount, Py.ok_bind]

theorem numbered_getElem? {β : Type} (l : List β) (j : Nat) :
    (l.zipIdx.map fun pi => (pi.2, pi.1))[j]? = (l[j]?).map fun p => (j, p) := by
  rw [List.getElem?_map, List.getElem?_zipIdx]
  cases l[j]? <;> simp

theorem allFound_numbered {β : Type} {out : Nat → β → Py (List Nat)} {l : List β} {found : List (List Nat)} :
    (l.zipIdx.map fun pi => (pi.2, pi.1)).mapM (fun t => out t.1 t.2) = .ok found ↔ AllFound out l found := by
  rw [mapM_eq_ok_iff]
  unfold AllFound
  simp only [List.length_map, List.length_zipIdx]
  apply and_congr_right
  intro _
  constructor
  · intro h j p c hp hc
    exact h j (j, p) c (by rw [numbered_getElem?, hp]; rfl) hc
  · intro h j p c hp hc
    rw [numbered_getElem?] at hp
    cases hl : l[j]? with
    | none => rw [hl] at hp; cases hp
    | some q =>
      rw [hl] at hp
      obtain rfl := Option.some.inj hp
      exact h j q c hl hc

theorem louvainChunks_flatten {β : Type} (n : Nat) (b : Bool) (points : List β) :
    (louvainChunks n b points).1.flatten = points := by
  unfold louvainChunks
  simp only
  split
  · rename_i h; exact flatten_batches h.1 points
  · simp

theorem gridPoints_length {A B : Type} (gammas : List A) (omegas : List B) :
    (gridPoints gammas omegas).length = gammas.length * omegas.length := by
  unfold gridPoints
  rw [List.length_flatMap]
  simp

theorem louvainTotal {β : Type} {gammas : List β} {A : Type} {omegas : List A} {b : Bool} {points : List (Nat × β × A)}
    (hlen : points.length = gammas.length * omegas.length) (hg : gammas ≠ []) (ho : omegas ≠ []) :
    ∃ t, ceilDiv points.length (louvainChunks gammas.length b points).2 = .ok t ∧ t ≠ 0 := by
  have hg' := List.length_pos_of_ne_nil hg
  have ho' := List.length_pos_of_ne_nil ho
  have hp : 0 < points.length := by rw [hlen]; exact Nat.mul_pos hg' ho'
  have hd : 0 < (louvainChunks gammas.length b points).2 := by
    unfold louvainChunks
    simp only
    split
    · rename_i h; exact h.1
    · exact hg'
  unfold ceilDiv
  rw [if_neg hd.ne']
  refine ⟨_, rfl, ?_⟩
  have := Nat.div_pos (a := points.length + (louvainChunks gammas.length b points).2 - 1) (by omega) hd
  omega

/-- The number of iterations the progress bar is made for. -/
def louvainBarTotal (numGammas numPoints : Nat) (chunkDispatch : Bool) : Nat :=
  let d := if 0 < numPoints / 99 ∧ chunkDispatch then numPoints / 99 else numGammas
  (numPoints + d - 1) / d

theorem repeatedParallelLouvain_spec (gammas : List (Fl ℝ)) (omegas : List ℝ) (progressBar chunkDispatch : Bool)
    (hne : progressBar = false ∨ (gammas ≠ [] ∧ omegas ≠ []))
    (hs : ∀ (m : Nat) c, (louvainChunks gammas.length chunkDispatch
      ((gridPoints gammas omegas).zipIdx.map fun pi => (pi.2, pi.1))).1[m]? = some c → ∀ i < c.length, i ∈ sched m) :
    ∃ r, repeatedParallelLouvain env rnd lowMemory sched Gi Gx layers gammas omegas progressBar chunkDispatch = some r ∧
      (∀ S, (∃ bars, r = .ok (S, bars)) ↔ ∃ found,
        AllFound (fun j p => multilayerLouvain env j Gi Gx layers p.1 p.2) (gridPoints gammas omegas) found ∧
        CanonicalSetOf S found) ∧
      ∀ S bars, r = .ok (S, bars) →
        if progressBar then
          bars = (barsFrom rnd ⟨louvainBarTotal gammas.length (gammas.length * omegas.length) chunkDispatch, 80, 0⟩
            (louvainChunks gammas.length chunkDispatch
              ((gridPoints gammas omegas).zipIdx.map fun pi => (pi.2, pi.1))).1.length) ++
            [List.replicate (rnd (80 * louvainBarTotal gammas.length (gammas.length * omegas.length) chunkDispatch)
                (louvainBarTotal gammas.length (gammas.length * omegas.length) chunkDispatch)) '#' ++
              List.replicate (80 - rnd (80 * louvainBarTotal gammas.length (gammas.length * omegas.length) chunkDispatch)
                (louvainBarTotal gammas.length (gammas.length * omegas.length) chunkDispatch)) '.']
        else bars = [] := by
  have hplen : ((gridPoints gammas omegas).zipIdx.map fun pi => (pi.2, pi.1)).length = gammas.length * omegas.length := by
    rw [List.length_map, List.length_zipIdx, gridPoints_length]
  have hbt : ∀ t, ceilDiv ((gridPoints gammas omegas).zipIdx.map fun pi => (pi.2, pi.1)).length
      (louvainChunks gammas.length chunkDispatch ((gridPoints gammas omegas).zipIdx.map fun pi => (pi.2, pi.1))).2 = .ok t →
      t = louvainBarTotal gammas.length (gammas.length * omegas.length) chunkDispatch := by
    intro t ht
    unfold ceilDiv at ht
    split at ht
    · cases ht
    · obtain rfl := Except.ok.inj ht
      unfold louvainBarTotal louvainChunks
      rw [hplen]
      simp only
      by_cases hc : 0 < gammas.length * omegas.length / 99 ∧ chunkDispatch = true
      · rw [if_pos hc, if_pos hc]
      · rw [if_neg hc, if_neg hc]
  have hprog : ∃ pr, (if progressBar then do
      let total ← ceilDiv ((gridPoints gammas omegas).zipIdx.map fun pi => (pi.2, pi.1)).length
        (louvainChunks gammas.length chunkDispatch ((gridPoints gammas omegas).zipIdx.map fun pi => (pi.2, pi.1))).2
      let p ← Progress.new total 80
      return some p
      else .ok none : Py (Option Progress)) = .ok pr ∧ (∀ p, pr = some p → p.total ≠ 0) ∧
      pr = if progressBar then
        some ⟨louvainBarTotal gammas.length (gammas.length * omegas.length) chunkDispatch, 80, 0⟩ else none := by
    cases progressBar with
    | false => exact ⟨none, rfl, fun p h => (by cases h), rfl⟩
    | true =>
      rcases hne with h | ⟨hg, ho⟩
      · cases h
      · obtain ⟨t, ht, hz⟩ := louvainTotal (b := chunkDispatch) hplen hg ho
        refine ⟨some ⟨t, 80, 0⟩, ?_, ?_, ?_⟩
        · rw [if_pos rfl, ht, Py.ok_bind]; rfl
        · rintro p h; obtain rfl := Option.some.inj h; exact hz
        · rw [hbt t ht]; rfl
  obtain ⟨pr, hpr, hz, hpe⟩ := hprog
  obtain ⟨r, h1, h2, h3⟩ := louvainLoop_spec (env := env) (rnd := rnd) (lowMemory := lowMemory) (sched := sched) (Gi := Gi)
    (Gx := Gx) (layers := layers) (louvainChunks gammas.length chunkDispatch
      ((gridPoints gammas omegas).zipIdx.map fun pi => (pi.2, pi.1))).1 0 ∅ pr 1 hz (by simpa using hs)
  unfold repeatedParallelLouvain
  simp only
  rw [hpr]
  simp only
  rw [h1]
  have hset : ∀ S, (∃ x, r = .ok (S, x)) ↔ ∃ found,
      AllFound (fun j p => multilayerLouvain env j Gi Gx layers p.1 p.2) (gridPoints gammas omegas) found ∧
        CanonicalSetOf S found := by
    intro S
    rw [h2 S, louvainChunks_flatten]
    apply exists_congr
    intro found
    rw [← allFound_numbered, canonicalSetOf_iff]
    simp
  cases r with
  | error e =>
    refine ⟨_, rfl, ?_, fun _ _ h => (by cases h)⟩
    intro S
    rw [← hset S]
    constructor
    · rintro ⟨_, h⟩; cases h
    · rintro ⟨_, h⟩; cases h
  | ok x =>
    obtain ⟨S', bars', pr', n'⟩ := x
    obtain ⟨h4, h5⟩ := h3 _ _ _ _ rfl
    cases progressBar with
    | false =>
      simp only [Bool.false_eq_true, if_false] at hpe
      obtain ⟨rfl, rfl⟩ := h4 hpe
      refine ⟨_, rfl, ?_, ?_⟩
      · intro S
        rw [← hset S]
        simp
      · intro S bars h
        simp only [Except.ok.injEq, Prod.mk.injEq] at h
        simp only [Bool.false_eq_true, if_false]
        exact h.2.symm
    | true =>
      simp only [if_true] at hpe
      obtain ⟨rfl, rfl⟩ := h5 _ hpe
      have hz' := hz _ hpe
      simp only at hz' ⊢
      generalize louvainBarTotal gammas.length (gammas.length * omegas.length) chunkDispatch = T at *
      have hz' : ∀ k : Nat, (Progress.mk T 80 k).total ≠ 0 := fun _ => hz'
      refine ⟨_, rfl, ?_, ?_⟩
      · intro S
        rw [← hset S]
        rw [Progress.done, Progress.update, Progress.bar_ok (hz' _)]
        simp [Except.map, Py.ok_bind, Py.pure_eq]
      · intro S bars h
        rw [Progress.done, Progress.update, Progress.bar_ok (hz' _)] at h
        simp only [Py.ok_bind, Py.pure_eq, Except.map, Except.ok.injEq, Prod.mk.injEq] at h
        simp only [if_true]
        exact h.2.symm

end

end Verif
