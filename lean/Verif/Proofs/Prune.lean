import Verif.Proofs.Estimation
import Verif.Props.Champ2D
import Verif.Props.Stability
import Verif.Spec.Prune

/-!
# Proofs about `prune_to_stable_partitions`
-/

namespace Verif
open Verif.Spec Verif.Props

variable {α β : Type} [LinearOrder α] [LinearOrder β]

/-! ### Labels do not matter -/

theorem modularity_same {G : Graph ℝ} {p : List α} {q : List β} (h : SamePartition p q) (hp : p.length = G.vcount)
    (γ : ℝ) : modularity G γ p = modularity G γ q := by
  rw [modularity_affine, modularity_affine, withinAdj_same h hp, withinNull_same h hp]

theorem modularity_canon {G : Graph ℝ} {p : List α} (hp : p.length = G.vcount) (γ : ℝ) :
    modularity G γ (canon p) = modularity G γ p :=
  modularity_same (canon_same p) (by rw [canon_length, hp]) γ

theorem dedup_length_canon (p : List α) : (canon p).dedup.length = p.dedup.length := by
  have h1 : ((canon p).dedup).Perm (List.range p.dedup.length) := by
    rw [List.perm_ext_iff_of_nodup (List.nodup_dedup _) List.nodup_range]
    intro k
    rw [List.mem_dedup, canon_mem_iff, List.mem_range]
  have := h1.length_eq
  simpa using this

theorem dedup_length_same {p : List α} {q : List β} (h : SamePartition p q) : p.dedup.length = q.dedup.length := by
  rw [← dedup_length_canon p, ← dedup_length_canon q, (canon_eq_iff p q).mpr h]

theorem canon_canon_same {p : List α} {q : List β} (h : canon p = canon q) : SamePartition p q := (canon_eq_iff p q).mp h

/-! ### The candidate set -/

theorem canonicalParts_ok (setOrder : List (List Nat) → List (List Nat)) (parts : List (List α)) :
    canonicalParts setOrder (.memberships parts) = .ok (setOrder (parts.map canon)) := by
  have : parts.mapM sortedTuple = (.ok (parts.map canon) : Py _) := mapM_ok fun p _ => sortedTuple_eq p
  show (parts.mapM sortedTuple >>= _) = _
  rw [this]; rfl

theorem numCommunities_of_canon {c : List Nat} (hc : canon c = c) (hne : c ≠ []) :
    numCommunities (c.map Int.ofNat) = .ok c.dedup.length := by
  have := numCommunities_canon hne
  rwa [hc] at this

theorem mapM_ok_each {γ δ : Type} {f : γ → Py δ} {l : List γ} {v : List δ} (h : l.mapM f = .ok v) :
    ∀ x ∈ l, ∃ y, f x = .ok y := by
  induction l generalizing v with
  | nil => simp
  | cons a l ih =>
    rw [List.mapM_cons] at h
    obtain ⟨y, hy, h⟩ := Py.bind_ok' h
    obtain ⟨ys, hys, h⟩ := Py.bind_ok' h
    intro x hx
    rcases List.mem_cons.mp hx with rfl | hx
    · exact ⟨y, hy⟩
    · exact ih hys x hx

theorem restrictParts_ok {setOrder : List (List Nat) → List (List Nat)} {K : Nat} {ps : List (List Nat)}
    (hcan : ∀ c ∈ ps, canon c = c) (hne : ∀ c ∈ ps, c ≠ []) :
    restrictParts setOrder (some K) ps = .ok (setOrder (ps.filter fun c => decide (c.dedup.length = K))) := by
  have hm : (ps.mapM fun part => do
      let n ← numCommunities (part.map Int.ofNat)
      return if n = K then some part else none : Py (List (Option (List Nat)))) =
      .ok (ps.map fun c => if c.dedup.length = K then some c else none) := by
    refine mapM_ok fun c hc => ?_
    rw [numCommunities_of_canon (hcan c hc) (hne c hc)]; rfl
  show ((ps.mapM _ : Py (List (Option (List Nat)))) >>= _) = _
  rw [hm, Py.ok_bind, Py.pure_eq]
  congr 2
  clear hm hcan hne
  induction ps with
  | nil => rfl
  | cons c ps ih =>
    simp only [List.map_cons, List.filter_cons]
    by_cases h : c.dedup.length = K
    · simp [h, ← ih]
    · simp [h, ← ih]

theorem restrictParts_nonempty {setOrder : List (List Nat) → List (List Nat)} {K : Nat} {ps out : List (List Nat)}
    (h : restrictParts setOrder (some K) ps = .ok out) : ∀ c ∈ ps, c ≠ [] := by
  obtain ⟨v, hv, -⟩ := Py.bind_ok' h
  rintro c hc rfl
  obtain ⟨y, hy⟩ := mapM_ok_each hv [] hc
  cases hy

/-- The set handed to CHAMP. -/
theorem candidates_ok {env : PruneEnv} (he : SoundPruneEnv env) {parts : List (List α)} {restrict : Option Nat}
    {ps₁ ps : List (List Nat)} (h1 : canonicalParts env.setOrder (.memberships parts) = .ok ps₁)
    (h2 : restrictParts env.setOrder restrict ps₁ = .ok ps) :
    ps.Nodup ∧ ∀ c, c ∈ ps ↔ ∃ p, Candidate parts restrict p ∧ canon p = c := by
  rw [canonicalParts_ok] at h1
  obtain rfl := Except.ok.inj h1
  have hmem : ∀ c, c ∈ env.setOrder (parts.map canon) ↔ ∃ p ∈ parts, canon p = c := by
    intro c; rw [he.setMem, List.mem_map]
  have hcan : ∀ c ∈ env.setOrder (parts.map canon), canon c = c := by
    intro c hc
    obtain ⟨p, -, rfl⟩ := (hmem c).mp hc
    exact canon_idem p
  cases restrict with
  | none =>
    obtain rfl := Except.ok.inj h2
    refine ⟨he.setNodup _, fun c => ?_⟩
    rw [hmem]
    simp [Candidate]
  | some K =>
    rw [restrictParts_ok hcan (restrictParts_nonempty h2)] at h2
    obtain rfl := Except.ok.inj h2
    refine ⟨he.setNodup _, fun c => ?_⟩
    rw [he.setMem, List.mem_filter, hmem, decide_eq_true_iff]
    constructor
    · rintro ⟨⟨p, hp, rfl⟩, hK⟩
      refine ⟨p, ⟨hp, ?_⟩, rfl⟩
      rintro K' hK'
      rw [← dedup_length_canon, hK]; exact Option.some.inj hK'
    · rintro ⟨p, ⟨hp, hK⟩, rfl⟩
      exact ⟨⟨p, hp, rfl⟩, by rw [dedup_length_canon]; exact hK K rfl⟩

/-! ### Estimates along the threaded graph -/

theorem ensureWeight_idem {F : Type} [One F] {test : Graph F → Bool} {n : Nat} {G G' : Graph F}
    (h : ensureWeight test n G = .ok G') : ensureWeight test n G' = .ok G' := by
  unfold ensureWeight at h ⊢
  by_cases ht : test G = true
  · rw [if_pos ht] at h
    obtain rfl := Except.ok.inj h
    rw [if_pos ht]
  · rw [if_neg ht] at h
    by_cases ht' : test G' = true
    · rw [if_pos ht']
    · rw [if_neg ht']
      unfold Graph.setEsWeight at h ⊢
      split at h
      · cases h
      · rename_i hc
        obtain rfl := Except.ok.inj h
        rw [if_neg (by simpa using hc)]

theorem ensureWeight_vcount {F : Type} [One F] {test : Graph F → Bool} {n : Nat} {G G' : Graph F}
    (h : ensureWeight test n G = .ok G') : G'.vcount = G.vcount ∧ G'.edges = G.edges ∧ G'.directed = G.directed := by
  unfold ensureWeight Graph.setEsWeight at h
  split at h
  · obtain rfl := Except.ok.inj h; exact ⟨rfl, rfl, rfl⟩
  · split at h
    · cases h
    · obtain rfl := Except.ok.inj h; exact ⟨rfl, rfl, rfl⟩

theorem gammaEstimate_graph {test : Graph ℝ → Bool} {G G' : Graph ℝ} {c : List Nat} {e : Option (Fl ℝ)}
    (h : gammaEstimate test G c = .ok (e, G')) : ensureWeight test G.vcount G = .ok G' := by
  unfold gammaEstimate at h
  obtain ⟨G₁, h1, h⟩ := Py.bind_ok' h
  obtain ⟨m, h2, h⟩ := Py.bind_ok' h
  obtain ⟨r, h3, h⟩ := Py.bind_ok' h
  obtain ⟨-, rfl⟩ := Prod.mk.inj (Except.ok.inj h)
  exact h1

theorem gammaEstimate_thread {test : Graph ℝ → Bool} {G G' : Graph ℝ}
    (h : ensureWeight test G.vcount G = .ok G') (c : List Nat) : gammaEstimate test G' c = gammaEstimate test G c := by
  unfold gammaEstimate
  rw [(ensureWeight_vcount h).1, ensureWeight_idem (G := G) (G' := G') h, h]

/-- The estimate, if there is one. -/
noncomputable def estOf (test : Graph ℝ → Bool) (G : Graph ℝ) (c : List Nat) : Option (Fl ℝ) :=
  match gammaEstimate test G c with | .ok eG => eG.1 | .error _ => none

theorem rangesToGammaEstimates_ok {test : Graph ℝ → Bool} {G : Graph ℝ} {ranges : List (ℝ × ℝ × List Nat)}
    {ests : List (ℝ × ℝ × List Nat × Option (Fl ℝ))} {G' : Graph ℝ}
    (h : rangesToGammaEstimates test G ranges = .ok (ests, G')) :
    ests.length = ranges.length ∧ (ranges ≠ [] → ensureWeight test G.vcount G = .ok G') ∧
    ∃ est : List Nat → Option (Fl ℝ), (∀ r ∈ ranges, gammaEstimate test G r.2.2 = .ok (est r.2.2, G')) ∧
      ests = ranges.map fun r => (r.1, r.2.1, r.2.2, est r.2.2) := by
  have key : (ranges ≠ [] → ensureWeight test G.vcount G = .ok G') ∧
      ∀ est : List Nat → Option (Fl ℝ), (∀ c e G'', gammaEstimate test G c = .ok (e, G'') → est c = e) →
        (∀ r ∈ ranges, gammaEstimate test G r.2.2 = .ok (est r.2.2, G')) ∧
        ests = ranges.map fun r => (r.1, r.2.1, r.2.2, est r.2.2) := by
    induction ranges generalizing G ests with
    | nil =>
      obtain ⟨rfl, rfl⟩ := Prod.mk.inj (Except.ok.inj h)
      simp
    | cons r rest ih =>
      unfold rangesToGammaEstimates at h
      obtain ⟨⟨e, G₁⟩, h1, h⟩ := Py.bind_ok' h
      obtain ⟨⟨es, G₂⟩, h2, h⟩ := Py.bind_ok' h
      obtain ⟨rfl, rfl⟩ := Prod.mk.inj (Except.ok.inj h)
      have hg := gammaEstimate_graph h1
      have hth := gammaEstimate_thread hg
      obtain ⟨i1, i2⟩ := ih h2
      have hG : G₁ = G₂ := by
        by_cases hr : rest = []
        · subst hr
          exact (Prod.mk.inj (Except.ok.inj h2)).2
        · have := i1 hr
          rw [(ensureWeight_vcount hg).1, ensureWeight_idem hg] at this
          exact Except.ok.inj this
      subst hG
      refine ⟨fun _ => hg, fun est hest => ?_⟩
      obtain ⟨j1, j2⟩ := i2 est fun c e G'' hc => hest c e G'' (by rw [← hth]; exact hc)
      have he : est r.2.2 = e := hest _ _ _ h1
      constructor
      · intro r' hr'
        rcases List.mem_cons.mp hr' with rfl | hr'
        · rw [he]; exact h1
        · rw [← hth]; exact j1 r' hr'
      · simp only [List.map_cons, he, ← j2]
  classical
  obtain ⟨k1, k2⟩ := key
  obtain ⟨k3, k4⟩ := k2 (estOf test G) (fun c e G'' hc => by unfold estOf; rw [hc])
  exact ⟨by rw [k4, List.length_map], k1, estOf test G, k3, k4⟩

/-- Everything the pipeline did, if it returned. -/
theorem pruneToStable_facts {env : PruneEnv} (he : SoundPruneEnv env) {G : Graph ℝ}
    {parts : List (List α)} {γ₀ γf : ℝ} {restrict : Option Nat} {st : Bool} {out : List (List Nat)} {G' : Graph ℝ}
    (h : pruneToStable env G (.memberships parts) γ₀ γf restrict st = (some (.ok (out, G')) : Option _)) :
    ∃ ps : List (List Nat), (ps.Nodup ∧ ∀ c, c ∈ ps ↔ ∃ p, Candidate parts restrict p ∧ canon p = c) ∧
      ∃ ranges, champ2D env.toChampEnv G ps γ₀ γf st = (some (.ok ranges) : Option _) ∧
        (∀ r ∈ ranges, ∃ e, gammaEstimate env.test G r.2.2 = .ok (e, G')) ∧
        out.Sublist (ranges.map fun r => r.2.2) ∧
        ∀ c, c ∈ out ↔ ∃ r ∈ ranges, r.2.2 = c ∧ ∃ γ, r.1 ≤ γ ∧ γ ≤ r.2.1 ∧
          gammaEstimate env.test G c = .ok (some (.fin γ), G') := by
  classical
  unfold pruneToStable at h
  rw [Run.bind_ok] at h
  obtain ⟨ps₁, h1, h⟩ := h
  rw [Run.bind_ok] at h
  obtain ⟨ps, h2, h⟩ := h
  rw [Run.ofPy_ok] at h1 h2
  refine ⟨ps, candidates_ok he h1 h2, ?_⟩
  by_cases hps : ps.length = 0
  · rw [if_pos hps] at h
    obtain rfl := List.length_eq_zero_iff.mp hps
    obtain ⟨rfl, rfl⟩ := Prod.mk.inj (Except.ok.inj (Option.some.inj h))
    exact ⟨[], rfl, by simp, by simp, by simp⟩
  · rw [if_neg hps] at h
    rw [Run.bind_ok] at h
    obtain ⟨ranges, h3, h⟩ := h
    rw [Run.bind_ok] at h
    obtain ⟨⟨ests, G₁⟩, h4, h⟩ := h
    rw [Run.ofPy_ok] at h4
    obtain ⟨rfl, rfl⟩ := Prod.mk.inj (Except.ok.inj (Option.some.inj h))
    obtain ⟨-, -, est, e1, e2⟩ := rangesToGammaEstimates_ok h4
    refine ⟨ranges, h3, fun r hr => ⟨_, e1 r hr⟩, ?_, ?_⟩
    · rw [c35_single_layer_filter, e2]
      have := (List.filter_sublist (p := fun e : ℝ × ℝ × List Nat × Option (Fl ℝ) =>
        Classical.propDecidable (∃ g : ℝ, e.2.2.2 = some (.fin g) ∧ e.1 ≤ g ∧ g ≤ e.2.1) |>.decide)
        (l := ranges.map fun r => (r.1, r.2.1, r.2.2, est r.2.2))).map (fun e => e.2.2.1)
      rw [List.map_map] at this
      exact this
    · intro c
      rw [c35_single_layer_filter, e2, List.mem_map]
      constructor
      · rintro ⟨e, hm, rfl⟩
        obtain ⟨hm, hd⟩ := List.mem_filter.mp hm
        obtain ⟨r, hr, rfl⟩ := List.mem_map.mp hm
        rw [decide_eq_true_iff] at hd
        obtain ⟨g, hg, hl, hu⟩ := hd
        refine ⟨r, hr, rfl, g, hl, hu, ?_⟩
        have := e1 r hr
        simp only at hg
        rw [hg] at this
        exact this
      · rintro ⟨r, hr, rfl, g, hl, hu, hest⟩
        refine ⟨(r.1, r.2.1, r.2.2, est r.2.2), List.mem_filter.mpr ⟨List.mem_map.mpr ⟨r, hr, rfl⟩, ?_⟩, rfl⟩
        rw [decide_eq_true_iff]
        refine ⟨g, ?_, hl, hu⟩
        have := e1 r hr
        rw [hest] at this
        exact (Prod.mk.inj (Except.ok.inj this)).1.symm

end Verif
