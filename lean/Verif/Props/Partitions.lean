import Verif.Proofs.Communities

/-!
# Properties C01–C05: canonical labels, memoisation, community dictionaries
-/

namespace Verif.Props
open Verif Verif.Spec

/-- **C01.** `sorted_tuple` never raises, keeps the length and describes the same partition. -/
theorem c01_sorted_tuple_preserves_partition {α : Type _} [LinearOrder α] (t : List α) :
    ∃ r, sortedTuple t = .ok r ∧ r.length = t.length ∧ SamePartition r t :=
  ⟨canon t, sortedTuple_eq t, canon_length t, canon_same t⟩

example : sortedTuple ([7, 3, 7, 5, 3] : List Nat) = .ok [0, 1, 0, 2, 1] := by decide

/-- **C02.** `sorted_tuple s == sorted_tuple t` iff `s` and `t` are the same partition (labels may even have different
types); the result uses labels in order of first appearance, its labels are exactly `0..K-1` with `K` the number of
distinct input labels; and it is a fixed point of `sorted_tuple`. -/
theorem c02_sorted_tuple_canonical {α β : Type _} [LinearOrder α] [LinearOrder β] (s : List α) (t : List β) :
    (sortedTuple s = sortedTuple t ↔ SamePartition s t) ∧
    ∃ r, sortedTuple s = .ok r ∧ FirstAppearanceOrder r ∧ (∀ k, k ∈ r ↔ k < s.dedup.length) ∧
      sortedTuple r = .ok r := by
  refine ⟨?_, canon s, sortedTuple_eq s, canon_firstAppearance s, canon_mem_iff s, ?_⟩
  · rw [sortedTuple_eq, sortedTuple_eq, Except.ok.injEq]
    exact canon_eq_iff s t
  · rw [sortedTuple_eq, canon_idem]

example : sortedTuple ([7, 3, 7] : List Nat) = sortedTuple ([-1, 4, -1] : List Int) := by decide
example : sortedTuple ([7, 3, 7] : List Nat) ≠ sortedTuple ([-1, 4, 4] : List Int) := by decide

/-- **C03.** Memoisation is unobservable: starting from an empty cache of any capacity, after any history `ks` of calls,
every call returned exactly what the function computes, the cache holds at most `cap` entries, at most one per key, and
only correct ones. -/
theorem c03_memoisation_transparent {κ ν : Type _} [DecidableEq κ] (f : κ → Py ν) (cap : Nat) (ks : List κ) :
    let r := (LRU.empty cap : LRU κ ν).run (ks.map fun k => (k, f k))
    r.2 = ks.map f ∧ r.1.entries.length ≤ cap ∧ (r.1.entries.map Prod.fst).Nodup ∧
      ∀ e ∈ r.1.entries, f e.1 = .ok e.2 := by
  have h0 : (LRU.empty cap : LRU κ ν).Inv f := ⟨by simp [LRU.empty], by simp [LRU.empty], by simp [LRU.empty]⟩
  obtain ⟨h1, h2, h3⟩ := LRU.run_inv ks h0
  exact ⟨h2, h1.1.trans (le_of_eq h3), h1.2.1, h1.2.2⟩

/-- **C03 (instance).** The memoised `sorted_tuple` (`maxsize=1000`) after any history returns what the plain one
would. -/
theorem c03_sorted_tuple_memoised (ts : List (List Int)) (t : List Int) :
    (((LRU.empty 1000 : LRU (List Int) (List Nat)).run (ts.map fun k => (k, sortedTuple k))).1.call t
      (sortedTuple t)).2 = sortedTuple t := by
  have h0 : (LRU.empty 1000 : LRU (List Int) (List Nat)).Inv sortedTuple :=
    ⟨by simp [LRU.empty], by simp [LRU.empty], by simp [LRU.empty]⟩
  exact (LRU.call_inv (LRU.run_inv ts h0).1 t).2.1

-- eviction and hits really happen in a two-entry cache
example : ((LRU.empty 2 : LRU Nat Nat).run ([1, 2, 1, 3, 2].map fun k => (k, .ok (k * k)))).1.entries =
    [(2, 4), (3, 9)] := by decide

/-- **C04.** For non-empty memberships with non-negative labels, `num_communities` returns `K` iff the labels used are
exactly `0, …, K-1`; otherwise the assertion fails; the empty membership raises `ValueError`. -/
theorem c04_num_communities {m : List Int} (hpos : ∀ x ∈ m, 0 ≤ x) :
    (m = [] → ∃ msg, numCommunities m = .error (.valueError msg)) ∧
    (m ≠ [] → ∀ K : Nat, numCommunities m = .ok K ↔ ∀ x : Int, x ∈ m ↔ 0 ≤ x ∧ x < K) ∧
    (m ≠ [] → (¬ ∃ K : Nat, ∀ x : Int, x ∈ m ↔ 0 ≤ x ∧ x < K) → numCommunities m = .error .assertionError) := by
  refine ⟨?_, fun hne K => numCommunities_ok_iff hpos hne K, ?_⟩
  · rintro rfl; exact ⟨_, rfl⟩
  · intro hne h
    cases hr : numCommunities m with
    | ok K => exact absurd ⟨K, (numCommunities_ok_iff hpos hne K).mp hr⟩ h
    | error e =>
      unfold numCommunities at hr
      split at hr
      · rename_i hm; rw [List.max?_eq_none_iff] at hm; exact absurd hm hne
      · split at hr
        · cases hr
        · rw [← hr]

/-- **C04 (canonical inputs).** On the output of `sorted_tuple` for a non-empty tuple, `num_communities` never raises and
equals the number of distinct labels of the original tuple. -/
theorem c04_num_communities_canonical {α : Type _} [LinearOrder α] {t : List α} (ht : t ≠ []) :
    ∃ r, sortedTuple t = .ok r ∧ numCommunities (r.map Int.ofNat) = .ok t.dedup.length :=
  ⟨canon t, sortedTuple_eq t, numCommunities_canon ht⟩

example : numCommunities [0, 2, 1, 1] = .ok 3 := by decide
example : numCommunities [0, 2] = .error .assertionError := by decide
-- outside the non-negative domain the assertion can be fooled:
example : numCommunities [-1, 1] = .ok 2 := by decide

/-- **C05.** `membership_to_communities`: keys are the occurring labels, without repetition; the list of a label is
strictly increasing and contains exactly the vertices carrying it. -/
theorem c05_communities {α : Type _} [DecidableEq α] (m : List α) :
    ((membershipToCommunities m).map Prod.fst).Nodup ∧
    (∀ c, c ∈ (membershipToCommunities m).map Prod.fst ↔ c ∈ m) ∧
    ∀ c vs, (c, vs) ∈ membershipToCommunities m →
      vs.Pairwise (· < ·) ∧ ∀ v, v ∈ vs ↔ m[v]? = some c := by
  refine ⟨membershipToCommunities_nodup m, fun c => ?_, fun c vs h => ?_⟩
  · rw [List.mem_map]
    constructor
    · rintro ⟨⟨c', vs⟩, h, rfl⟩
      exact ((mem_membershipToCommunities m c' vs).mp h).1
    · intro h
      exact ⟨(c, verticesOf m c), (mem_membershipToCommunities m c _).mpr ⟨h, rfl⟩, rfl⟩
  · obtain ⟨_, rfl⟩ := (mem_membershipToCommunities m c vs).mp h
    refine ⟨List.Pairwise.filter _ List.pairwise_lt_range, fun v => ?_⟩
    simp only [verticesOf, List.mem_filter, List.mem_range, decide_eq_true_eq]
    constructor
    · exact fun h => h.2
    · intro h
      refine ⟨?_, h⟩
      by_contra hc
      rw [List.getElem?_eq_none (by omega)] at h
      cases h

/-- **C05 (layered).** With a layer for every vertex, the layered dictionary groups exactly by (label, layer); with too
few layers it raises `IndexError`. -/
theorem c05_layered_communities {α β : Type _} [DecidableEq α] [DecidableEq β] (m : List α) (layers : List β) :
    (layers.length < m.length → membershipToLayeredCommunities m layers = .error .indexError) ∧
    (m.length ≤ layers.length → ∃ d, membershipToLayeredCommunities m layers = .ok d ∧
      (d.map Prod.fst).Nodup ∧
      (∀ c l, (c, l) ∈ d.map Prod.fst ↔ ∃ v : Nat, m[v]? = some c ∧ layers[v]? = some l) ∧
      ∀ c l vs, ((c, l), vs) ∈ d →
        vs.Pairwise (· < ·) ∧ ∀ v, v ∈ vs ↔ m[v]? = some c ∧ layers[v]? = some l) := by
  refine ⟨membershipToLayeredCommunities_error m layers, fun h => ?_⟩
  refine ⟨_, membershipToLayeredCommunities_eq m layers h, (c05_communities _).1, ?_, ?_⟩
  · intro c l
    rw [(c05_communities (m.zip layers)).2.1, List.mem_iff_getElem?]
    simp [List.getElem?_zip_eq_some]
  · intro c l vs hvs
    obtain ⟨h1, h2⟩ := (c05_communities (m.zip layers)).2.2 _ _ hvs
    refine ⟨h1, fun v => ?_⟩
    rw [h2 v]
    simp [List.getElem?_zip_eq_some]

example : membershipToCommunities [4, 1, 4, 4, 1] = [(4, [0, 2, 3]), (1, [1, 4])] := by decide
example : membershipToLayeredCommunities [4, 1, 4, 4] [0, 0, 0, 1] =
    .ok [((4, 0), [0, 2]), ((1, 0), [1]), ((4, 1), [3])] := by decide

end Verif.Props
