import Verif.Model.SnapLouvain
import Verif.Props.Studies
import Verif.Proofs.Drivers
import Verif.Proofs.DataFiles

/-!
# C105: the Louvain partitions of the SNAP networks
-/

namespace Verif.Props
open Verif Spec

/-- The partition `p` has at most 100 communities, numbered from 0. -/
def AtMost100 (p : List Nat) : Prop := p ≠ [] ∧ ∃ K ≤ 100, Contiguous p K

/-- The partition `p` has more than 100 communities, numbered from 0. -/
def MoreThan100 (p : List Nat) : Prop := p ≠ [] ∧ ∃ K, 100 < K ∧ Contiguous p K

theorem atMost100_iff {p : List Nat} : AtMost100 p ↔ ∃ K ≤ 100, numCommunities (p.map Int.ofNat) = .ok K := by
  simp only [numCommunities_nat, AtMost100]
  constructor
  · rintro ⟨h, K, hK, hc⟩; exact ⟨K, hK, h, hc⟩
  · rintro ⟨K, hK, h, hc⟩; exact ⟨h, K, hK, hc⟩

theorem moreThan100_iff {p : List Nat} : MoreThan100 p ↔ ∃ K, 100 < K ∧ numCommunities (p.map Int.ofNat) = .ok K := by
  simp only [numCommunities_nat, MoreThan100]
  constructor
  · rintro ⟨h, K, hK, hc⟩; exact ⟨K, hK, h, hc⟩
  · rintro ⟨K, hK, h, hc⟩; exact ⟨h, K, hK, hc⟩

theorem sweep_iff (find : Nat → ℝ → List Nat) (γs : List ℝ) (k : Nat) (parts : List (List Nat)) :
    louvainSweep find k γs = .ok parts ↔ ∃ n ≤ γs.length, parts = (List.range n).map (fun j => find (k + j) (γs.getD j 0)) ∧
      (∀ j < n, AtMost100 (find (k + j) (γs.getD j 0))) ∧ (n < γs.length → MoreThan100 (find (k + n) (γs.getD n 0))) := by
  induction γs generalizing k parts with
  | nil =>
    simp only [louvainSweep, List.length_nil, Nat.le_zero_eq]
    constructor
    · intro h; cases h
      exact ⟨0, rfl, by simp, by simp, by simp⟩
    · rintro ⟨n, rfl, rfl, -, -⟩; simp
  | cons γ γs ih =>
    simp only [louvainSweep]
    constructor
    · intro h
      obtain ⟨K, hK, h⟩ := Py.bind_ok.1 h
      split at h
      · rename_i h100
        cases h
        exact ⟨0, by simp, by simp, by simp, fun _ => by simpa using moreThan100_iff.2 ⟨K, h100, hK⟩⟩
      · rename_i h100
        obtain ⟨rest, hr, h⟩ := Py.bind_ok.1 h
        cases h
        obtain ⟨n, hn, rfl, h1, h2⟩ := (ih (k + 1) rest).1 hr
        refine ⟨n + 1, by simpa using hn, ?_, ?_, ?_⟩
        · rw [List.range_succ_eq_map, List.map_cons, List.map_map]
          simp only [Nat.add_zero, List.getD_cons_zero, List.cons.injEq, true_and]
          refine List.map_congr_left fun j _ => ?_
          simp [Nat.add_assoc, Nat.add_comm 1 j]
        · intro j hj
          rcases j with _ | j
          · simpa using atMost100_iff.2 ⟨K, not_lt.1 h100, hK⟩
          · have := h1 j (by omega)
            simpa [Nat.add_assoc, Nat.add_comm 1 j] using this
        · intro hlt
          have := h2 (by simpa using hlt)
          simpa [Nat.add_assoc, Nat.add_comm 1 n] using this
    · rintro ⟨n, hn, rfl, h1, h2⟩
      rcases n with _ | n
      · obtain ⟨K, h100, hK⟩ := moreThan100_iff.1 (h2 (by simp))
        simp only [Nat.add_zero, List.getD_cons_zero] at hK
        rw [hK, Py.ok_bind, if_pos h100]
        rfl
      · obtain ⟨K, h100, hK⟩ := atMost100_iff.1 (h1 0 (by omega))
        simp only [Nat.add_zero, List.getD_cons_zero] at hK
        rw [hK, Py.ok_bind, if_neg (not_lt.2 h100), (ih (k + 1) _).2 ⟨n, by simpa using hn, rfl, ?_, ?_⟩]
        · rw [List.range_succ_eq_map, List.map_cons, List.map_map]
          simp only [Nat.add_zero, List.getD_cons_zero]
          change Except.ok _ = _
          congr 2
          refine List.map_congr_left fun j _ => ?_
          simp [Nat.add_assoc, Nat.add_comm 1 j]
        · intro j hj
          have := h1 (j + 1) (by omega)
          simpa [Nat.add_assoc, Nat.add_comm 1 j] using this
        · intro hlt
          have := h2 (by simpa using hlt)
          simpa [Nat.add_assoc, Nat.add_comm 1 n] using this

/-- The resolution parameter of the `k`-th run: 1000 values, evenly spaced from 0 to 10. -/
noncomputable def snapGamma (k : Nat) : ℝ := 10 * k / 999

theorem linspace_snap {k : Nat} (hk : k < 1000) : (linspace 0 10 1000).getD k 0 = snapGamma k := by
  rw [List.getD_eq_getElem?_getD]
  simp only [linspace, List.getElem?_map, List.getElem?_range hk, Option.map_some, Option.getD_some, snapGamma]
  push_cast
  ring

/-- **C105.** `run_louvain` returns the canonical tuples of the partitions found before the first one with more than 100 communities;
at least one, at most 1000. -/
theorem c105_run (find : Nat → ℝ → List Nat) (S : Finset (List Nat)) :
    snapRunLouvain find = .ok S ↔ ∃ n, 1 ≤ n ∧ n ≤ 1000 ∧ (∀ k < n, AtMost100 (find k (snapGamma k))) ∧
      (n < 1000 → MoreThan100 (find n (snapGamma n))) ∧
      CanonicalSetOf S ((List.range n).map fun k => find k (snapGamma k)) := by
  have hlen : (linspace 0 10 1000).length = 1000 := by simp [linspace]
  have hmap : ∀ n ≤ 1000, (List.range n).map (fun j => find (0 + j) ((linspace 0 10 1000).getD j 0)) =
      (List.range n).map fun k => find k (snapGamma k) := by
    intro n hn
    refine List.map_congr_left fun j hj => ?_
    rw [linspace_snap (by have := List.mem_range.1 hj; omega), Nat.zero_add]
  have hset : ∀ parts : List (List Nat), parts.mapM sortedTuple = .ok (parts.map canon) := fun parts =>
    mapM_of_ok fun p _ => sortedTuple_eq p
  constructor
  · intro h
    obtain ⟨parts, hp, h⟩ := Py.bind_ok.1 h
    obtain ⟨n, hn, rfl, h1, h2⟩ := (sweep_iff _ _ _ _).1 hp
    rw [hlen] at hn h2
    rw [hmap n hn] at h
    split at h
    · cases h
    · rename_i hne
      rw [hset] at h
      cases h
      refine ⟨n, ?_, hn, ?_, ?_, ?_⟩
      · simp at hne; omega
      · intro k hk
        have := h1 k hk
        rwa [linspace_snap (by omega), Nat.zero_add] at this
      · intro hlt
        have := h2 hlt
        rwa [linspace_snap hlt, Nat.zero_add] at this
      · rw [canonicalSetOf_iff]
        intro x
        simp
  · rintro ⟨n, h1n, hn, h1, h2, hc⟩
    have hs := (sweep_iff find (linspace 0 10 1000) 0 ((List.range n).map fun k => find k (snapGamma k))).2
      ⟨n, by rw [hlen]; exact hn, (hmap n hn).symm, fun j hj => by
        rw [linspace_snap (by omega), Nat.zero_add]; exact h1 j hj, fun hlt => by
        rw [hlen] at hlt; rw [linspace_snap hlt, Nat.zero_add]; exact h2 hlt⟩
    rw [snapRunLouvain, hs, Py.ok_bind, if_neg (by rw [List.length_map, List.length_range]; omega), hset, Py.ok_bind, Py.pure_eq]
    refine congrArg Except.ok (Finset.ext fun x => ?_)
    rw [canonicalSetOf_iff] at hc
    rw [hc, List.mem_toFinset, List.mem_map]

/-- **C105.** If the run with `γ = 0` already has more than 100 communities – e.g. on a graph with more than 100 components –, the
message about the time per partition raises `ZeroDivisionError`. -/
theorem c105_zero (find : Nat → ℝ → List Nat) :
    snapRunLouvain find = .error .zeroDivisionError ↔ MoreThan100 (find 0 0) := by
  have hlin : linspace 0 10 1000 = 0 :: (linspace 0 10 1000).tail := by
    have h0 : (linspace 0 10 1000)[0]? = some 0 := by simp [linspace]
    rcases h : linspace 0 10 1000 with _ | ⟨a, l⟩
    · rw [h] at h0; cases h0
    · rw [h] at h0; simp at h0; rw [h0]; rfl
  constructor
  · intro h
    rw [snapRunLouvain] at h
    rcases hs : louvainSweep find 0 (linspace 0 10 1000) with e | parts
    · rw [hs] at h
      exfalso
      have he : ∀ (γs : List ℝ) (k : Nat) (e : PyErr), louvainSweep find k γs = .error e → e ≠ .zeroDivisionError := by
        intro γs
        induction γs with
        | nil => intro k e h; cases h
        | cons γ γs ih =>
          intro k e h he
          simp only [louvainSweep] at h
          rcases hK : numCommunities ((find k γ).map Int.ofNat) with e' | K
          · rw [hK] at h
            cases h
            subst he
            unfold numCommunities at hK
            split at hK
            · cases hK
            · split at hK <;> cases hK
          · rw [hK, Py.ok_bind] at h
            split at h
            · cases h
            · rcases hr : louvainSweep find (k + 1) γs with e' | rest
              · rw [hr] at h
                cases h
                exact ih _ _ hr he
              · rw [hr] at h; cases h
      have h' : e = .zeroDivisionError := by cases h; rfl
      exact he _ _ _ hs h'
    · rw [hs, Py.ok_bind] at h
      split at h
      · rename_i hz
        obtain ⟨n, hn, rfl, -, h2⟩ := (sweep_iff _ _ _ _).1 hs
        simp only [List.length_map, List.length_range] at hz
        subst hz
        have := h2 (by simp [linspace])
        rw [linspace_snap (by omega)] at this
        simpa [snapGamma] using this
      · rw [mapM_of_ok fun p _ => sortedTuple_eq p] at h
        cases h
  · intro h
    obtain ⟨K, h100, hK⟩ := moreThan100_iff.1 h
    rw [snapRunLouvain, hlin, louvainSweep, hK, Py.ok_bind, if_pos h100]
    rfl

/-- **C105.** Every partition in the result is a canonical partition of all `N` vertices into between 1 and 100 communities, and there
is one. -/
theorem c105_partitions {find : Nat → ℝ → List Nat} {S : Finset (List Nat)} (h : snapRunLouvain find = .ok S) {N : Nat}
    (hN : ∀ k γ, (find k γ).length = N) :
    S.Nonempty ∧ ∀ x ∈ S, x.length = N ∧ FirstAppearanceOrder x ∧ AtMost100 x := by
  obtain ⟨n, h1n, -, h1, -, hc⟩ := (c105_run find S).1 h
  constructor
  · obtain ⟨x, hx, -⟩ := hc.1 _ (List.mem_map.2 ⟨0, List.mem_range.2 h1n, rfl⟩)
    exact ⟨x, hx⟩
  · intro x hx
    obtain ⟨hf, c, hcm, hs⟩ := hc.2 x hx
    obtain ⟨k, hk, rfl⟩ := List.mem_map.1 hcm
    have hk' := h1 k (List.mem_range.1 hk)
    have hcx : canon (find k (snapGamma k)) = x := by
      rw [canonicalSetOf_iff] at hc
      exact (firstAppearance_unique hf (canon_firstAppearance _) (hs.trans (canon_same _).symm)).symm
    refine ⟨hs.1.trans (hN _ _), hf, ?_⟩
    obtain ⟨hne, K, hK, hcont⟩ := hk'
    have hxl : x ≠ [] := by
      intro hx0
      have := hs.1
      rw [hx0] at this
      exact hne (List.length_eq_zero_iff.1 this.symm)
    refine ⟨hxl, K, hK, fun j => ?_⟩
    rw [← hcx, canon_mem_iff]
    have hd : (find k (snapGamma k)).dedup.length = K := by
      have : (find k (snapGamma k)).toFinset = Finset.range K := by
        ext j; simp [hcont j]
      have h2 := congrArg Finset.card this
      rwa [List.card_toFinset, Finset.card_range] at h2
    rw [hd]

/-- **C105.** The sweep ends for good at the first partition with more than 100 communities: what Louvain would find with larger `γ`,
few communities or many, has no influence. -/
theorem c105_stops {find find' : Nat → ℝ → List Nat} {n : Nat} (hn : MoreThan100 (find n (snapGamma n)))
    (h : ∀ k ≤ n, find k (snapGamma k) = find' k (snapGamma k)) (S : Finset (List Nat)) :
    snapRunLouvain find = .ok S ↔ snapRunLouvain find' = .ok S := by
  have key : ∀ f g : Nat → ℝ → List Nat, MoreThan100 (f n (snapGamma n)) → (∀ k ≤ n, f k (snapGamma k) = g k (snapGamma k)) →
      snapRunLouvain f = .ok S → snapRunLouvain g = .ok S := by
    intro f g hf hfg hS
    obtain ⟨m, h1, h2, h3, h4, h5⟩ := (c105_run f S).1 hS
    have hmn : m ≤ n := by
      by_contra hlt
      obtain ⟨-, K, hK, hc⟩ := h3 n (by omega)
      obtain ⟨-, K', hK', hc'⟩ := hf
      have : K' ≤ K := by
        by_contra hKK
        have := (hc K).1 ((hc' K).2 (by omega))
        omega
      omega
    refine (c105_run g S).2 ⟨m, h1, h2, fun k hk => hfg k (by omega) ▸ h3 k hk, fun hm => hfg m hmn ▸ h4 hm, ?_⟩
    have : (List.range m).map (fun k => g k (snapGamma k)) = (List.range m).map fun k => f k (snapGamma k) :=
      List.map_congr_left fun k hk => (hfg k (by have := List.mem_range.1 hk; omega)).symm
    rw [this]
    exact h5
  exact ⟨key find find' hn h, key find' find (h n le_rfl ▸ hn) fun k hk => (h k hk).symm⟩

/-- **C105.** `run_louvain_if_necessary` computes exactly the missing results, each from the runs on its own graph, or raises an
exception of one of them. -/
theorem c105_missing (present : Nat → Bool) (n : Nat) (find : Nat → Nat → ℝ → List Nat) (out : List (Nat × Finset (List Nat))) :
    snapLouvainMissing present n find = .ok out ↔
      out.map Prod.fst = (List.range n).filter (fun i => !present i) ∧ ∀ x ∈ out, snapRunLouvain (find x.1) = .ok x.2 := by
  simp only [snapLouvainMissing]
  generalize (List.range n).filter (fun i => !present i) = is
  induction is generalizing out with
  | nil =>
    simp only [List.mapM_nil, List.map_eq_nil_iff]
    constructor
    · intro h; cases h; simp
    · rintro ⟨rfl, -⟩; rfl
  | cons i is ih =>
    rw [List.mapM_cons]
    constructor
    · intro h
      obtain ⟨y, hy, h⟩ := Py.bind_ok.1 h
      obtain ⟨S, hS, hy⟩ := Py.bind_ok.1 hy
      cases hy
      obtain ⟨rest, hr, h⟩ := Py.bind_ok.1 h
      cases h
      obtain ⟨h1, h2⟩ := (ih rest).1 hr
      refine ⟨by simp [h1], ?_⟩
      intro x hx
      rcases List.mem_cons.1 hx with rfl | hx
      · exact hS
      · exact h2 x hx
    · rintro ⟨h1, h2⟩
      rcases out with _ | ⟨y, out⟩
      · cases h1
      · simp only [List.map_cons, List.cons.injEq] at h1
        have hy := h2 y (by simp)
        rw [h1.1] at hy
        rw [hy, Py.ok_bind, Py.pure_eq, Py.ok_bind, (ih out).2 ⟨h1.2, fun x hx => h2 x (by simp [hx])⟩, Py.ok_bind, ← h1.1]
        rfl

/-- Louvain on two vertices: one community for the first 500 values of `γ`, then two. -/
def exampleFind : Nat → ℝ → List Nat := fun k _ => if k < 500 then [0, 0] else [0, 1]

theorem exampleFind_small (k : Nat) (γ : ℝ) : AtMost100 (exampleFind k γ) := by
  unfold exampleFind
  split
  · exact ⟨by simp, 1, by omega, fun j => by simp⟩
  · exact ⟨by simp, 2, by omega, fun j => by simp; omega⟩

/-- The hypotheses of `c105_partitions`. -/
example : (∃ S, snapRunLouvain exampleFind = .ok S) ∧ ∀ k γ, (exampleFind k γ).length = 2 := by
  constructor
  · refine ⟨((List.range 1000).map fun k => canon (exampleFind k (snapGamma k))).toFinset, (c105_run _ _).2
      ⟨1000, by omega, le_rfl, fun k _ => exampleFind_small k _, fun h => absurd h (lt_irrefl _), ?_⟩⟩
    rw [canonicalSetOf_iff]
    intro x
    simp
  · intro k γ
    unfold exampleFind
    split <;> rfl

/-- The hypothesis of `c105_zero` and `c105_stops`: 101 vertices on their own. -/
example : MoreThan100 (List.range 101) := ⟨by simp, 101, by omega, fun j => by simp⟩

end Verif.Props
