import Verif.Model.DocExample
import Verif.Spec.DocExample
import Verif.Props.Synthetic
import Verif.Props.Workflow
import Verif.Props.Plotting
import Verif.Props.Explicit3D
import Verif.Props.Studies
import Verif.Props.DataFiles

/-!
# C109: the examples of the documentation
-/

namespace Verif.Props
open Verif Spec

/-! ## Counting labels -/

theorem labelCounts_fold {M : Nat} : ∀ (labels L : List Nat), L.length = M → (∀ k ∈ labels, k < M) →
    labels.foldlM countLabel L = .ok ((List.range M).map fun i => L.getD i 0 + labels.count i)
  | [], L, hL, _ => by
    rw [List.foldlM_nil]
    refine congrArg Except.ok (List.ext_getElem (by simp [hL]) fun i h1 h2 => ?_)
    simp [List.getD_eq_getElem?_getD, List.getElem?_eq_getElem h1]
  | x :: xs, L, hL, h => by
    have hx : x < L.length := by rw [hL]; exact h x (by simp)
    have hstep : countLabel L x = .ok (L.set x (L[x] + 1)) := by
      unfold countLabel; rw [List.getElem?_eq_getElem hx]
    rw [List.foldlM_cons, hstep]
    refine (Py.ok_bind _ _).trans ((labelCounts_fold xs _ (by simpa using hL) fun k hk => h k (by simp [hk])).trans ?_)
    refine congrArg Except.ok (List.map_congr_left fun i hi => ?_)
    rw [List.mem_range] at hi
    have hi' : i < L.length := by omega
    rw [List.getD_eq_getElem?_getD, List.getD_eq_getElem?_getD, List.getElem?_set, List.count_cons]
    by_cases hxi : x = i
    · subst hxi
      simp [hx]
      omega
    · simp [hxi, hi']

theorem labelCounts_ok {c : List Nat} {M : Nat} (hM : c.max? = some M) {labels : List Nat} (h : ∀ k ∈ labels, k ∈ c) :
    labelCounts c labels = .ok ((List.range (M + 1)).map labels.count) := by
  unfold labelCounts
  rw [hM]
  refine (labelCounts_fold labels _ (List.length_replicate) fun k hk => ?_).trans ?_
  · have := (List.max?_eq_some_iff.mp hM).2 k (h k hk)
    omega
  · refine congrArg Except.ok (List.map_congr_left fun i hi => ?_)
    rw [List.mem_range] at hi
    simp [List.getD_eq_getElem?_getD, List.getElem?_replicate, hi]

theorem firstMax_fold (f : Nat → Nat) : ∀ (m k a : Nat), a < k →
    (∀ j < k, f j ≤ f a) → (∀ j < a, f j < f a) →
    ∃ b, ((List.range' k m).map fun i => (i, f i)).foldl (fun best y => if best.2 < y.2 then y else best) (a, f a) = (b, f b) ∧
      b < k + m ∧ (∀ j < k + m, f j ≤ f b) ∧ ∀ j < b, f j < f b
  | 0, k, a, ha, h1, h2 => ⟨a, rfl, by omega, h1, h2⟩
  | m + 1, k, a, ha, h1, h2 => by
    rw [List.range'_succ, List.map_cons, List.foldl_cons]
    dsimp only
    by_cases hlt : f a < f k
    · rw [if_pos hlt]
      obtain ⟨b, e, h3, h4, h5⟩ := firstMax_fold f m (k + 1) k (by omega)
        (fun j hj => by
          rcases Nat.lt_succ_iff_lt_or_eq.mp hj with h | h
          · exact ((h1 j h).trans_lt hlt).le
          · rw [h])
        (fun j hj => (h1 j hj).trans_lt hlt)
      exact ⟨b, e, by omega, fun j hj => h4 j (by omega), h5⟩
    · rw [if_neg hlt]
      obtain ⟨b, e, h3, h4, h5⟩ := firstMax_fold f m (k + 1) a (by omega)
        (fun j hj => by
          rcases Nat.lt_succ_iff_lt_or_eq.mp hj with h | h
          · exact h1 j h
          · rw [h]; omega) h2
      exact ⟨b, e, by omega, fun j hj => h4 j (by omega), h5⟩

theorem mostCommonEntry_ok (M : Nat) (labels : List Nat) (h : ∀ k ∈ labels, k ≤ M) :
    ∃ k, mostCommonEntry ((List.range (M + 1)).map labels.count) = .ok (k, labels.count k) ∧ MostCommon labels k := by
  have hz : ((List.range (M + 1)).map labels.count).zipIdx.map Prod.swap =
      (List.range' 0 (M + 1)).map fun i => (i, labels.count i) := by
    refine List.ext_getElem (by simp) fun i h1 h2 => ?_
    simp
  obtain ⟨b, e, h3, h4, h5⟩ := firstMax_fold labels.count M 1 0 (by omega)
    (fun j hj => by rw [Nat.lt_one_iff.mp hj]) (fun j hj => by omega)
  refine ⟨b, ?_, fun j => ?_, h5⟩
  · unfold mostCommonEntry
    rw [hz, List.range'_succ, List.map_cons]
    exact congrArg Except.ok e
  · by_cases hj : j < 1 + M
    · exact h4 j hj
    · rw [List.count_eq_zero_of_not_mem fun hm => hj (by have := h j hm; omega)]
      exact Nat.zero_le _

theorem mostCommon_unique {labels : List Nat} {k k' : Nat} (h : MostCommon labels k) (h' : MostCommon labels k') : k = k' := by
  rcases Nat.lt_trichotomy k k' with hk | hk | hk
  · exact absurd (h'.2 k hk) (not_lt.mpr (h.1 k'))
  · exact hk
  · exact absurd (h.2 k' hk) (not_lt.mpr (h'.1 k))

theorem mostCommon_exists (labels : List Nat) : ∃ k, MostCommon labels k := by
  obtain ⟨k, -, h⟩ := mostCommonEntry_ok (labels.foldr max 0) labels (fun k hk => by
    induction labels with
    | nil => cases hk
    | cons x xs ih =>
      rcases List.mem_cons.mp hk with rfl | hk
      · exact le_max_left _ _
      · exact (ih hk).trans (le_max_right _ _))
  exact ⟨k, h⟩

theorem entry_ok {c : List Nat} (hc : c ≠ []) {labels : List Nat} (h : ∀ k ∈ labels, k ∈ c) :
    ∃ k, (labelCounts c labels >>= mostCommonEntry) = .ok (k, labels.count k) ∧ MostCommon labels k := by
  obtain ⟨M, hM⟩ : ∃ M, c.max? = some M := by
    cases hm : c.max? with
    | none => exact absurd (List.max?_eq_none_iff.mp hm) hc
    | some M => exact ⟨M, rfl⟩
  obtain ⟨k, h1, h2⟩ := mostCommonEntry_ok M labels fun k hk => (List.max?_eq_some_iff.mp hM).2 k (h k hk)
  exact ⟨k, by rw [labelCounts_ok hM h, Py.ok_bind, h1], h2⟩

theorem chunk_eq (s i : Nat) (c : List Nat) : (c.take (s * (i + 1))).drop (s * i) = blockOf s i c := by
  unfold blockOf
  rw [List.drop_take]
  congr 1
  rw [Nat.mul_succ]; omega

theorem chunkLabels_ok {c : List Nat} (hc : c ≠ []) (s m : Nat) : ∃ ks, chunkLabels s m c = .ok ks ∧ ks.length = m ∧
    ∀ i < m, ∃ k, ks[i]? = some k ∧ MostCommon (blockOf s i c) k := by
  have hone : ∀ i, ∃ k, (do
      let counts ← labelCounts c ((c.take (s * (i + 1))).drop (s * i))
      let best ← mostCommonEntry counts
      return best.1 : Py Nat) = .ok k ∧ MostCommon (blockOf s i c) k := by
    intro i
    obtain ⟨k, h1, h2⟩ := entry_ok hc (labels := blockOf s i c) fun k hk =>
      List.drop_subset _ _ (List.take_subset _ _ hk)
    refine ⟨k, ?_, h2⟩
    rw [chunk_eq, ← bind_assoc, h1]
    rfl
  choose f hf hf' using hone
  refine ⟨(List.range m).map f, ?_, by simp, fun i hi => ⟨f i, by simp [hi], hf' i⟩⟩
  unfold chunkLabels
  exact mapM_ok fun i _ => hf i

/-! ## The verdict of the test -/

theorem firstAppearance_contiguous {c : List Nat} (h : FirstAppearanceOrder c) : Contiguous c c.dedup.length := by
  have hc : canon c = c := firstAppearance_unique (canon_firstAppearance c) h (canon_same c)
  have := canon_mem_iff c
  rw [hc] at this
  exact this

theorem checkChunks_outcome {c : List Nat} (hc : c ≠ []) (hf : FirstAppearanceOrder c) (s : Nat) {m : Nat} (hm : 3 ≤ m) :
    (checkChunks s m c = .ok () ∧ (c.dedup.length = 3 → ∀ k0 k1 k2, MostCommon (blockOf s 0 c) k0 →
      MostCommon (blockOf s 1 c) k1 → MostCommon (blockOf s 2 c) k2 → k0 ≠ k1 ∧ k1 ≠ k2)) ∨
    (checkChunks s m c = .error .assertionError ∧ c.dedup.length = 3 ∧ ∃ k0 k1 k2, MostCommon (blockOf s 0 c) k0 ∧
      MostCommon (blockOf s 1 c) k1 ∧ MostCommon (blockOf s 2 c) k2 ∧ (k0 = k1 ∨ k1 = k2)) := by
  unfold checkChunks
  rw [numCommunities_nat.mpr ⟨hc, firstAppearance_contiguous hf⟩, Py.ok_bind]
  by_cases hK : c.dedup.length = 3
  · rw [if_neg (not_not.mpr hK)]
    obtain ⟨ks, e, -, h⟩ := chunkLabels_ok hc s m
    obtain ⟨k0, e0, m0⟩ := h 0 (by omega)
    obtain ⟨k1, e1, m1⟩ := h 1 (by omega)
    obtain ⟨k2, e2, m2⟩ := h 2 (by omega)
    have g : ∀ {i k : Nat}, ks[i]? = some k → pyGet ks i = .ok k := by
      intro i k hk; unfold pyGet; rw [hk]
    rw [e, Py.ok_bind, g e0, Py.ok_bind, g e1, Py.ok_bind]
    by_cases h01 : k0 = k1
    · rw [if_pos h01]
      exact Or.inr ⟨rfl, hK, k0, k1, k2, m0, m1, m2, Or.inl h01⟩
    · rw [if_neg h01, g e2, Py.ok_bind]
      by_cases h12 : k1 = k2
      · rw [if_pos h12]
        exact Or.inr ⟨rfl, hK, k0, k1, k2, m0, m1, m2, Or.inr h12⟩
      · rw [if_neg h12]
        refine Or.inl ⟨rfl, fun _ a0 a1 a2 b0 b1 b2 => ?_⟩
        rw [mostCommon_unique b0 m0, mostCommon_unique b1 m1, mostCommon_unique b2 m2]
        exact ⟨h01, h12⟩
  · rw [if_pos hK]
    exact Or.inl ⟨rfl, fun h => absurd h hK⟩

/-- The first demand. -/
def FirstDemand (s : Nat) (stable : List (List Nat)) : Prop :=
  ∀ c ∈ stable, c.dedup.length = 3 → ∀ k0 k1 k2, MostCommon (blockOf s 0 c) k0 → MostCommon (blockOf s 1 c) k1 →
    MostCommon (blockOf s 2 c) k2 → k0 ≠ k1 ∧ k1 ≠ k2

theorem checkFirstLayer_outcome (s : Nat) {m : Nat} (hm : 3 ≤ m) : ∀ stable : List (List Nat),
    (∀ c ∈ stable, c ≠ [] ∧ FirstAppearanceOrder c) →
    (checkFirstLayer s m stable = .ok () ∧ FirstDemand s stable) ∨
    (checkFirstLayer s m stable = .error .assertionError ∧ ¬ FirstDemand s stable)
  | [], _ => Or.inl ⟨rfl, fun c hc => by cases hc⟩
  | c :: rest, h => by
    unfold checkFirstLayer
    rcases checkChunks_outcome (h c (by simp)).1 (h c (by simp)).2 s hm with ⟨e, hd⟩ | ⟨e, hK, k0, k1, k2, m0, m1, m2, hk⟩
    · rw [e, Py.ok_bind]
      rcases checkFirstLayer_outcome s hm rest fun c hc => h c (by simp [hc]) with ⟨e', h'⟩ | ⟨e', h'⟩
      · refine Or.inl ⟨e', fun c' hc' => ?_⟩
        rcases List.mem_cons.mp hc' with rfl | hc'
        · exact hd
        · exact h' c' hc'
      · exact Or.inr ⟨e', fun hall => h' fun c' hc' => hall c' (by simp [hc'])⟩
    · rw [e]
      refine Or.inr ⟨rfl, fun hall => ?_⟩
      have := hall c (by simp) hK k0 k1 k2 m0 m1 m2
      rcases hk with hk | hk
      · exact this.1 hk
      · exact this.2 hk

theorem finalLayerShare_ok {c : List Nat} (hc : c ≠ []) {n : Nat} (hn : 0 < n) :
    ∃ k, finalLayerShare n c = .ok (((lastOf n c).count k : ℚ) / n) ∧ MostCommon (lastOf n c) k := by
  obtain ⟨k, h1, h2⟩ := entry_ok hc (labels := lastOf n c) fun k hk => List.drop_subset _ _ hk
  refine ⟨k, ?_, h2⟩
  unfold finalLayerShare
  have : (labelCounts c (c.drop (c.length - n)) >>= mostCommonEntry) = .ok (k, (lastOf n c).count k) := h1
  rw [← bind_assoc, this, Py.ok_bind]
  unfold pyDiv
  rw [if_neg (by exact_mod_cast hn.ne')]

/-- The demands on the last layer. -/
def LastDemand (n : Nat) (stable : List (List Nat)) : Prop :=
  (∃ c ∈ stable, ∃ k, 9 * n < 10 * (lastOf n c).count k) ∧ ∃ c ∈ stable, ∀ k, 2 * (lastOf n c).count k < n

theorem checkFinalLayer_outcome {n : Nat} (hn : 0 < n) {stable : List (List Nat)} (h : ∀ c ∈ stable, c ≠ []) :
    (checkFinalLayer n stable = .ok () ∧ LastDemand n stable) ∨
    (checkFinalLayer n stable = .error .assertionError ∧ ¬ LastDemand n stable) := by
  have hn' : (0 : ℚ) < n := by exact_mod_cast hn
  have hone : ∀ c, ∃ k, c ≠ [] → finalLayerShare n c = .ok (((lastOf n c).count k : ℚ) / n) ∧ MostCommon (lastOf n c) k := by
    intro c
    by_cases hc : c = []
    · exact ⟨0, fun h => absurd hc h⟩
    · obtain ⟨k, hk⟩ := finalLayerShare_ok hc hn
      exact ⟨k, fun _ => hk⟩
  choose f hf using hone
  have hs : stable.mapM (finalLayerShare n) = .ok (stable.map fun c => ((lastOf n c).count (f c) : ℚ) / n) :=
    mapM_ok fun c hc => (hf c (h c hc)).1
  have hu : 0 < ((stable.map fun c => ((lastOf n c).count (f c) : ℚ) / n).filter fun s => decide (s > 9 / 10)).length ↔
      ∃ c ∈ stable, ∃ k, 9 * n < 10 * (lastOf n c).count k := by
    rw [List.length_pos_iff_exists_mem]
    simp only [List.mem_filter, List.mem_map, decide_eq_true_eq]
    constructor
    · rintro ⟨_, ⟨c, hc, rfl⟩, hgt⟩
      rw [gt_iff_lt, lt_div_iff₀ hn'] at hgt
      refine ⟨c, hc, f c, ?_⟩
      have : (9 * n : ℚ) < 10 * (lastOf n c).count (f c) := by linarith
      exact_mod_cast this
    · rintro ⟨c, hc, k, hk⟩
      refine ⟨_, ⟨c, hc, rfl⟩, ?_⟩
      rw [gt_iff_lt, lt_div_iff₀ hn']
      have h1 : (9 * n : ℚ) < 10 * (lastOf n c).count k := by exact_mod_cast hk
      have h2 : ((lastOf n c).count k : ℚ) ≤ (lastOf n c).count (f c) := by exact_mod_cast (hf c (h c hc)).2.1 k
      linarith
  have hsp : 0 < ((stable.map fun c => ((lastOf n c).count (f c) : ℚ) / n).filter fun s =>
      !decide (s > 9 / 10) && decide (s < 1 / 2)).length ↔ ∃ c ∈ stable, ∀ k, 2 * (lastOf n c).count k < n := by
    rw [List.length_pos_iff_exists_mem]
    simp only [List.mem_filter, List.mem_map, Bool.and_eq_true, decide_eq_true_eq, Bool.not_eq_true', decide_eq_false_iff_not]
    constructor
    · rintro ⟨_, ⟨c, hc, rfl⟩, -, hlt⟩
      rw [div_lt_iff₀ hn'] at hlt
      refine ⟨c, hc, fun k => ?_⟩
      have h2 : ((lastOf n c).count k : ℚ) ≤ (lastOf n c).count (f c) := by exact_mod_cast (hf c (h c hc)).2.1 k
      have : (2 * (lastOf n c).count k : ℚ) < n := by linarith
      exact_mod_cast this
    · rintro ⟨c, hc, hk⟩
      have h1 : ((2 * (lastOf n c).count (f c) : ℕ) : ℚ) < n := by exact_mod_cast hk (f c)
      push_cast at h1
      have h2 : ((lastOf n c).count (f c) : ℚ) / n < 1 / 2 := by rw [div_lt_iff₀ hn']; linarith
      exact ⟨_, ⟨c, hc, rfl⟩, by linarith, h2⟩
  unfold checkFinalLayer
  rw [hs, Py.ok_bind]
  dsimp only
  unfold LastDemand
  rw [← hu, ← hsp]
  split
  · rename_i hnu
    exact Or.inr ⟨rfl, fun hd => hnu hd.1⟩
  · rename_i hnu
    split
    · rename_i hns
      exact Or.inr ⟨rfl, fun hd => hns hd.2⟩
    · rename_i hns
      exact Or.inl ⟨rfl, not_not.mp hnu, not_not.mp hns⟩

/-- **C109 (the verdict).** On non-empty partitions in canonical form (which pruning returns, C38/C43) the test of the documented
multilayer example passes exactly if: in every partition with three communities the most common communities of the first and
second, and of the second and third block differ; some partition has more than 90% of the last layer in one community; and in
some partition every community has less than half of the last layer.  Otherwise it fails with `AssertionError`; nothing else
happens. -/
theorem c109_verdict {s m n : Nat} (hm : 3 ≤ m) (hn : 0 < n) {stable : List (List Nat)}
    (h : ∀ c ∈ stable, c ≠ [] ∧ FirstAppearanceOrder c) :
    (docVerdict s m n stable = .ok () ↔ DocAccepted s n stable) ∧
    (¬ DocAccepted s n stable → docVerdict s m n stable = .error .assertionError) := by
  have key : DocAccepted s n stable ↔ FirstDemand s stable ∧ LastDemand n stable :=
    ⟨fun h => ⟨h.blocks, h.unified, h.split⟩, fun h => ⟨h.1, h.2.1, h.2.2⟩⟩
  rw [key]
  unfold docVerdict
  rcases checkFirstLayer_outcome s hm stable h with ⟨e, hd⟩ | ⟨e, hd⟩
  · rw [e, Py.ok_bind]
    rcases checkFinalLayer_outcome hn fun c hc => (h c hc).1 with ⟨e', hd'⟩ | ⟨e', hd'⟩
    · exact ⟨⟨fun _ => ⟨hd, hd'⟩, fun _ => e'⟩, fun hno => absurd ⟨hd, hd'⟩ hno⟩
    · exact ⟨⟨fun h => (by rw [e'] at h; cases h), fun h => absurd h.2 hd'⟩, fun _ => e'⟩
  · rw [e, Py.error_bind]
    exact ⟨⟨fun h => (by cases h), fun h => absurd h.1 hd⟩, fun _ => rfl⟩

/-- **C109 (what the verdict does not notice).** The first and the third block are never compared, and neither are the blocks of
the second layer: the test passes for stable partitions that put the first and third planted community of the first layer into
one community and treat the second layer as a single community. -/
theorem c109_third_block_unchecked :
    ∃ stable : List (List Nat), docVerdict 10 6 30 stable = .ok () ∧
      ∃ c ∈ stable, c.length = 90 ∧ c.dedup.length = 3 ∧ blockOf 10 0 c = blockOf 10 2 c ∧
        (∀ i < 30, c[30 + i]? = some 2) := by
  refine ⟨[List.replicate 10 0 ++ List.replicate 10 1 ++ List.replicate 10 0 ++ List.replicate 60 2,
    List.replicate 10 0 ++ List.replicate 10 1 ++ List.replicate 10 2 ++ List.replicate 30 1 ++
      List.replicate 10 0 ++ List.replicate 10 1 ++ List.replicate 10 2], by decide +kernel, _, List.mem_cons_self, ?_⟩
  decide +kernel

/-- The stable partitions printed in the documentation are accepted. -/
example : docVerdict 10 6 30
    [List.replicate 10 0 ++ List.replicate 10 1 ++ List.replicate 10 2 ++ List.replicate 10 0 ++ List.replicate 10 1 ++
        List.replicate 10 2 ++ List.replicate 30 0,
      List.replicate 10 0 ++ List.replicate 10 1 ++ List.replicate 10 2 ++ List.replicate 10 0 ++ List.replicate 10 1 ++
        List.replicate 10 2 ++ [0, 0, 0, 1, 1, 1, 2, 0, 0, 2, 1, 1, 0, 2, 2, 1, 0, 2, 1, 1, 0, 0, 2, 0, 2, 1, 0, 2, 0, 2]] =
    .ok () := by decide +kernel

/-- A single partition is never enough. -/
example : docVerdict 10 6 30
    [List.replicate 10 0 ++ List.replicate 10 1 ++ List.replicate 10 2 ++ List.replicate 10 0 ++ List.replicate 10 1 ++
        List.replicate 10 2 ++ List.replicate 30 0] = .error .assertionError := by decide +kernel

/-! ## The network of the example -/

/-- **C109 (planted labels).** For at most as many communities as vertices per layer, the planted labels of all layers but the last
are the blocks of `n // K` vertices; the last layer has a single community. -/
theorem c109_labels {n K : Nat} (hK : 0 < K) (hKn : K ≤ n) (T : Nat) :
    ∃ comm, docLabels n T K = .ok comm ∧ comm.length = n * T ∧
      (∀ l, l + 1 < T → ∀ v < n, ∀ k, LabelAt n comm l v k ↔ k = v / (n / K)) ∧
      (∀ l, l + 1 = T → ∀ v < n, ∀ k, LabelAt n comm l v k ↔ k = 0) := by
  have hs : n / K ≠ 0 := (Nat.div_pos hKn hK).ne'
  let lab : Nat → List Nat := fun layer => (List.range n).map fun i => if layer < T - 1 then i / (n / K) else 0
  have hrow : ∀ layer, ((List.range n).mapM fun i =>
      if layer < T - 1 then (do
        let size ← vcountFloorDiv n K
        vcountFloorDiv i size : Py Nat)
      else .ok 0) = .ok (lab layer) := by
    intro layer
    refine mapM_ok fun i _ => ?_
    by_cases h : layer < T - 1
    · simp only [if_pos h]
      unfold vcountFloorDiv
      rw [if_neg hK.ne', Py.ok_bind, if_neg hs]
    · simp only [if_neg h]
  have hlen : ∀ l, (lab l).length = n := fun l => by simp [lab]
  have hd : docLabels n T K = .ok ((List.range T).flatMap lab) := by
    unfold docLabels
    rw [mapM_ok (g := lab) fun l _ => hrow l, Py.ok_bind, ← List.flatMap_def]
    rfl
  refine ⟨_, hd, flatMap_length _ hlen T, ?_, ?_⟩
  · intro l hl v hv k
    unfold LabelAt
    rw [flatMap_get _ hlen T l v (by omega) hv]
    simp only [lab, List.getElem?_map, List.getElem?_range hv, Option.map_some, Option.some.injEq, if_pos (by omega : l < T - 1)]
    exact eq_comm
  · intro l hl v hv k
    unfold LabelAt
    rw [flatMap_get _ hlen T l v (by omega) hv]
    simp only [lab, List.getElem?_map, List.getElem?_range hv, Option.map_some, Option.some.injEq, if_neg (by omega : ¬ l < T - 1)]
    exact eq_comm

/-- **C109 (planted communities).** If `K` divides the number of vertices per layer, the blocks are `K` communities of equal size;
otherwise there are more than `K` communities (finding). -/
theorem c109_blocks {n K : Nat} (hK : 0 < K) (hKn : K ≤ n) :
    (K ∣ n → (∀ v < n, v / (n / K) < K) ∧ ∀ k < K, ∀ v, v / (n / K) = k ↔ k * (n / K) ≤ v ∧ v < (k + 1) * (n / K)) ∧
    (¬ K ∣ n → ∃ v < n, K ≤ v / (n / K)) := by
  have hs : 0 < n / K := Nat.div_pos hKn hK
  constructor
  · intro hd
    have hn : n / K * K = n := Nat.div_mul_cancel hd
    refine ⟨fun v hv => ?_, fun k _ v => ?_⟩
    · rw [Nat.div_lt_iff_lt_mul hs, Nat.mul_comm]
      omega
    · rw [Nat.div_eq_iff hs]
      constructor
      · rintro ⟨h1, h2⟩
        refine ⟨h1, ?_⟩
        rw [Nat.add_mul]; omega
      · rintro ⟨h1, h2⟩
        refine ⟨h1, ?_⟩
        rw [Nat.add_mul] at h2; omega
  · intro hd
    refine ⟨n / K * K, ?_, ?_⟩
    · exact lt_of_le_of_ne (Nat.div_mul_le_self n K) fun h => hd ⟨n / K, by rw [Nat.mul_comm]; exact h.symm⟩
    · rw [Nat.mul_div_cancel_left _ hs]

/-- **C109 (too many communities).** With no communities, or more communities than vertices per layer, the network cannot be
built: `ZeroDivisionError`, if there are two layers and a vertex. -/
theorem c109_too_many {n T K : Nat} (hn : 0 < n) (hT : 2 ≤ T) (hK : K = 0 ∨ n < K) (pIn pOut : ℝ) (draw : Nat → Nat → ℝ) :
    docNetwork n T K pIn pOut draw = .error .zeroDivisionError := by
  have hfst : ((List.range n).mapM fun i =>
      if 0 < T - 1 then (do
        let size ← vcountFloorDiv n K
        vcountFloorDiv i size : Py Nat)
      else .ok 0) = .error .zeroDivisionError := by
    obtain ⟨m, rfl⟩ := Nat.exists_eq_succ_of_ne_zero hn.ne'
    rw [List.range_succ_eq_map, List.mapM_cons, if_pos (by omega)]
    unfold vcountFloorDiv
    rcases hK with rfl | hK
    · rw [if_pos rfl]; rfl
    · rw [if_neg (by omega), Py.ok_bind, if_pos (Nat.div_eq_of_lt hK)]; rfl
  unfold docNetwork docLabels
  obtain ⟨m, rfl⟩ : ∃ m, T = m + 1 := ⟨T - 1, by omega⟩
  rw [List.range_succ_eq_map, List.mapM_cons, hfst]
  rfl

/-- **C109 (the network).** The intralayer edges of the example: a pair of vertices of one layer exactly if its random number is
below `p_in` (same planted community) or `p_out`; the last layer is a random graph with density `p_in`.  If every layer has an edge
and the last vertex has one, the three objects are a temporal network with `n` vertices per layer. -/
theorem c109_network {n T K : Nat} (hK : 0 < K) (hKn : K ≤ n) (hT : 2 ≤ T) (pIn pOut : ℝ) (draw : Nat → Nat → ℝ) :
    ∃ comm Gi, docNetwork n T K pIn pOut draw = .ok (Gi, couplingGraph n T, layerVector n T) ∧ docLabels n T K = .ok comm ∧
      Gi.directed = false ∧ Gi.weight = none ∧ Gi.WF ∧
      (∀ l < T, ∀ l' < T, ∀ u < n, ∀ v < n, (n * l + u, n * l' + v) ∈ Gi.edges ↔ v < u ∧ l = l' ∧
        draw (n * l' + v) (n * l + u) < if l + 1 = T ∨ u / (n / K) = v / (n / K) then pIn else pOut) ∧
      ((∃ e ∈ Gi.edges, e.1 = n * T - 1) → (∀ t < T, ∃ e ∈ Gi.edges, (layerVector n T)[e.1]? = some t) →
        TemporalNetwork Gi (couplingGraph n T) (layerVector n T) T n) ∧
      ((∀ e ∈ Gi.edges, e.1 ≠ n * T - 1) → Gi.vcount < n * T) := by
  obtain ⟨comm, hd, hlen, hl1, hl2⟩ := c109_labels hK hKn T
  have hn : 0 < n := by omega
  have hpos : 0 < n * T := Nat.mul_pos hn (by omega)
  have hlab : ∀ l < T, ∀ v < n, comm[n * l + v]? = some (if l + 1 = T then 0 else v / (n / K)) := by
    intro l hl v hv
    by_cases h : l + 1 = T
    · rw [if_pos h]; exact (hl2 l h v hv 0).mpr rfl
    · rw [if_neg h]; exact (hl1 l (by omega) v hv _).mpr rfl
  have hlay : ∀ l < T, ∀ v < n, (layerVector n T)[n * l + v]? = some l := fun l hl v hv => (c95_layers n T).2.2.1 l hl v hv
  have hlt : ∀ l < T, ∀ v < n, n * l + v < n * T := by
    intro l hl v hv
    have := Nat.mul_le_mul_left n (Nat.succ_le_of_lt hl)
    rw [Nat.mul_succ] at this; omega
  have hv := block_vcount (pIn := pIn) (pOut := pOut) (draw := draw) hlen hpos (layerVector n T)
  refine ⟨comm, _, by unfold docNetwork; rw [hd, Py.ok_bind]; rfl, hd, rfl, rfl, block_wf _ _ _ _ _, ?_, ?_, ?_⟩
  · intro l hl l' hl' u hu v hv
    refine ((c95_edges (layerVector n T) comm pIn pOut draw).1 _ _).trans ?_
    rw [hlay l hl u hu, hlay l' hl' v hv, hlab l hl u hu, hlab l' hl' v hv, hlen]
    constructor
    · rintro ⟨h1, -, h2, h3⟩
      obtain rfl : l = l' := Option.some.inj h2
      refine ⟨by omega, rfl, ?_⟩
      by_cases h : l + 1 = T
      · rw [if_pos (Or.inl h)]
        simpa [h] using h3
      · simp only [false_or, h, if_false, Option.some.injEq] at h3 ⊢
        by_cases huv : u / (n / K) = v / (n / K)
        · rw [if_pos huv]
          simpa [huv] using h3
        · rw [if_neg huv]
          simpa [huv] using h3
    · rintro ⟨h1, rfl, h3⟩
      refine ⟨by omega, hlt l hl u hu, rfl, ?_⟩
      by_cases h : l + 1 = T
      · rw [if_pos (Or.inl h)] at h3
        simpa [h] using h3
      · simp only [false_or, h, if_false, Option.some.injEq] at h3 ⊢
        by_cases huv : u / (n / K) = v / (n / K)
        · rw [if_pos huv] at h3
          simpa [huv] using h3
        · rw [if_neg huv] at h3
          simpa [huv] using h3
  · exact fun h1 h2 => c95_temporal hlen hn hT h1 h2
  · intro h
    have hle : (graphOfEdges (blockEdges (layerVector n T) comm pIn pOut draw)).vcount ≠ n * T := fun he => by
      obtain ⟨e, h1, h2⟩ := hv.mp he
      exact h e h1 h2
    have hub : (graphOfEdges (blockEdges (layerVector n T) comm pIn pOut draw)).vcount ≤ n * T := by
      by_cases he : blockEdges (layerVector n T) comm pIn pOut draw = []
      · rw [he]; exact Nat.zero_le _
      · obtain ⟨e, h1, h2⟩ := graphOfEdges_vcount _ he
        have := ((c95_edges (layerVector n T) comm pIn pOut draw).1 e.1 e.2).mp h1
        omega
    exact lt_of_le_of_ne hub hle

/-! ## The whole example -/

theorem outcome_sizes {env : LeidenEnv} (hp : ProducesPartitions env) {Gi Gx : Graph ℝ} {layers : List Nat} {i : Nat} {p : Fl ℝ × ℝ}
    {c : List Nat} (h : multilayerOutcome env Gi Gx layers i p = .ok c) : Gi.vcount = Gx.vcount := by
  rw [← multilayerOutcome_length hp h]
  unfold multilayerOutcome at h
  split at h
  · rename_i Gs hs
    unfold splitLayers at hs
    obtain ⟨T, hT, hs⟩ := Py.bind_ok.1 hs
    obtain ⟨es, -, hs⟩ := Py.bind_ok.1 hs
    obtain ⟨acc, -, hs⟩ := Py.bind_ok.1 hs
    have hT0 : 0 < T := by
      unfold countLayers at hT
      split at hT
      · cases hT; omega
      · cases hT
    obtain ⟨G, hG, h0⟩ := (mapM_ok_iff_map hs).1 0 (List.mem_range.mpr hT0)
    obtain ⟨edges, -, h0⟩ := Py.bind_ok.1 h0
    obtain ⟨g, hg, h0⟩ := Py.bind_ok.1 h0
    obtain ⟨ws, -, h0⟩ := Py.bind_ok.1 h0
    have hgv : g.vcount = Gi.vcount := by
      unfold newGraph at hg
      split at hg
      · cases hg; rfl
      · cases hg
    have hGv : G.vcount = g.vcount := by
      unfold Graph.setEsWeight at h0
      split at h0
      · cases h0
      · cases h0; rfl
    rw [← hgv, ← hGv]
    exact (hp.2 _ _ _ _ h G p.1 (Or.inl (by simp [multiplexProblem]; exact hG))).symm
  · cases h

section
variable {x : Execution} {Gi Gx : Graph ℝ} {layers : List Nat} {gammas : List (Fl ℝ)} {omegas : List ℝ}
  {heaps : Nat → Nat → Graph ℝ} {W : Window} {n T K size chunks : Nat} {pIn pOut : ℝ} {draw : Nat → Nat → ℝ}

/-- **C109 (an isolated last vertex).** If the last vertex of the network has no edge, igraph's graph is too small, and the example
does not produce a result: an exception, or it does not end. -/
theorem c109_isolated (hx : SoundExecution x (gammas.length * omegas.length)) (hg : gammas ≠ []) (ho : omegas ≠ [])
    (hK : 0 < K) (hKn : K ≤ n) (hT : 2 ≤ T)
    (hk : ∀ Gi, docNetwork n T K pIn pOut draw = .ok (Gi, couplingGraph n T, layerVector n T) → HealthyWorkers x Gi heaps)
    (hlast : ∀ Gi, docNetwork n T K pIn pOut draw = .ok (Gi, couplingGraph n T, layerVector n T) →
      ∀ e ∈ Gi.edges, e.1 ≠ n * T - 1) (out : List (List Nat)) :
    docExample x n T K pIn pOut draw gammas omegas W.γ₀ W.γf W.ω₀ W.ωf size chunks ≠ (some (.ok out) : Option _) := by
  intro h
  obtain ⟨comm, Gi, hnet, -, -, -, -, -, -, hsmall⟩ := c109_network hK hKn hT pIn pOut draw
  unfold docExample at h
  obtain ⟨net, h1, h⟩ := Run.bind_ok.mp h
  rw [Run.ofPy_ok, hnet] at h1
  cases h1
  obtain ⟨r, h2, -⟩ := Run.bind_ok.mp h
  dsimp only at h2
  unfold findAndPruneMultilayer at h2
  obtain ⟨S, hS, -⟩ := Run.bind_ok.mp h2
  have hk := hk Gi hnet
  obtain ⟨found, hf, -⟩ := (c51_multilayer_parallel hk.contents hk.reachable hk.graph (couplingGraph n T) (layerVector n T) gammas
    omegas x.cpu hx.order S).mp (Run.ofPy_ok.mp hS)
  have hgl : 0 < (gridPoints gammas omegas).length := by
    rw [(c51_grid gammas omegas).1]
    exact Nat.mul_pos (List.length_pos_of_ne_nil hg) (List.length_pos_of_ne_nil ho)
  have hfl : 0 < found.length := by rw [hf.1]; exact hgl
  have := outcome_sizes hx.produces (hf.2 0 _ _ (List.getElem?_eq_getElem hgl) (List.getElem?_eq_getElem hfl))
  rw [(defaulted_shape x.leiden.test Gi).1, (defaulted_shape x.leiden.test (couplingGraph n T)).1, (c95_coupling n T).2.2.2.2.2 hT] at this
  have := hsmall (hlast Gi hnet)
  omega

theorem multilayer_found_exists (hx : SoundExecution x (gammas.length * omegas.length)) (hk : HealthyWorkers x Gi heaps)
    (hM : Multilayer Gi Gx layers)
    (hfind : ∀ i, ∀ p ∈ gridPoints gammas omegas, ∃ c,
      multilayerOutcome x.leiden (defaulted x.leiden.test Gi) (defaulted x.leiden.test Gx) layers i p = .ok c) :
    ∃ S found, repeatedParallelMultilayerLeiden x.leiden x.cpu x.workers x.objs x.order Gi Gx layers gammas omegas = .ok S ∧
      RunsFoundMultilayer x Gi Gx layers gammas omegas found ∧ (∀ c, c ∈ S ↔ ∃ d ∈ found, canon d = c) ∧
      ∀ d ∈ found, d.length = Gi.vcount := by
  choose! f hf using hfind
  let N := gammas.length * omegas.length
  let found : List (List Nat) := (gridPoints gammas omegas).zipIdx.map fun gj =>
    f ((x.workers (gj.2 / poolChunkSize x.cpu N)).calls + gj.2 % poolChunkSize x.cpu N) gj.1
  have hfound : RunsFoundMultilayer x Gi Gx layers gammas omegas found := by
    refine ⟨by simp [found], ?_⟩
    intro j p c hj hc
    simp only [found, List.getElem?_map, List.getElem?_zipIdx, hj, Option.map_some, Option.some.injEq, Nat.zero_add] at hc
    rw [← hc]
    exact hf _ _ (List.mem_of_getElem? hj)
  have hS : CanonicalSetOf (found.map canon).toFinset found := by
    rw [canonicalSetOf_iff]
    intro c
    simp
  refine ⟨_, found, (c51_multilayer_parallel hk.contents hk.reachable hk.graph Gx layers gammas omegas x.cpu hx.order _).mpr
    ⟨found, hfound, hS⟩, hfound, canonicalSetOf_iff.mp hS, ?_⟩
  intro d hd
  obtain ⟨j, hj⟩ := List.getElem?_of_mem hd
  have hlt : j < (gridPoints gammas omegas).length := by
    rw [← hfound.1]; exact (List.getElem?_eq_some_iff.mp hj).1
  have := multilayerOutcome_length hx.produces (hfound.2 j _ d (List.getElem?_eq_getElem hlt) hj)
  rw [this, (defaulted_shape x.leiden.test Gx).1, hM.vcount]

/-- **C109 (the multilayer workflow completes).** On an unweighted temporal network, if Leiden returns at every point of the grid, the
solvers are exact and the window has an interior, then sweeping and pruning return – unless a partition that was found has a
copying probability strictly between 0 and 1 and no inner edge, or as many as expected (C69). -/
theorem c109_completes (hx : SoundExecution x (gammas.length * omegas.length)) (hex : ExactEnv x.prune.toChampEnv)
    (hk : HealthyWorkers x Gi heaps) (hG : TemporalNetwork Gi Gx layers T n) (hw : CountsAsUnweighted x.leiden.test Gi)
    (hfind : ∀ i, ∀ p ∈ gridPoints gammas omegas, ∃ c,
      multilayerOutcome x.leiden (defaulted x.leiden.test Gi) (defaulted x.leiden.test Gx) layers i p = .ok c)
    (hγ : W.γ₀ < W.γf) (hω : W.ω₀ < W.ωf)
    (hok : ∀ found, RunsFoundMultilayer x Gi Gx layers gammas omegas found → ∀ d ∈ found, ¬ Failing Gi Gx layers n T (canon d)) :
    ∃ out G', findAndPruneMultilayer x Gi Gx layers "temporal" gammas omegas W.γ₀ W.γf W.ω₀ W.ωf none =
      (some (.ok (out, G')) : Option _) := by
  obtain ⟨S, found, hS, hf, hc, hlen⟩ := multilayer_found_exists hx hk hG.toMultilayer hfind
  have hp : ∀ p ∈ x.iterate S, p.length = Gi.vcount := by
    intro p hp
    obtain ⟨d, hd, rfl⟩ := (hc p).mp ((hx.iterate S p).mp hp)
    rw [canon_length]; exact hlen d hd
  obtain ⟨out, G', h⟩ := c69_returns (W := W) (restrict := none) hx.prune hex hG (by rw [hx.test]; exact hw) hp hγ hω
    (fun p hpc => by
      obtain ⟨d, hd, rfl⟩ := (hc p).mp ((hx.iterate S p).mp hpc.1)
      exact hok found hf d hd)
  exact ⟨out, G', Run.bind_ok.mpr ⟨_, Run.ofPy_ok.mpr hS, h⟩⟩

/-- **C109 (the example).** If the documented multilayer example runs to its end, its network is a temporal network, the stable
partitions satisfy the demands of the test (`c109_verdict`), and each of them was found by a run, has its estimates in the window
(or a gamma estimate that is NaN) and is not beaten there by any partition found. -/
theorem c109_example (hx : SoundExecution x (gammas.length * omegas.length)) (hg : gammas ≠ []) (ho : omegas ≠ [])
    (hK : 0 < K) (hKn : K ≤ n) (hT : 2 ≤ T) (hc : 3 ≤ chunks)
    (hk : ∀ Gi, docNetwork n T K pIn pOut draw = .ok (Gi, couplingGraph n T, layerVector n T) → HealthyWorkers x Gi heaps)
    {out : List (List Nat)}
    (h : docExample x n T K pIn pOut draw gammas omegas W.γ₀ W.γf W.ω₀ W.ωf size chunks = (some (.ok out) : Option _)) :
    DocAccepted size n out ∧ ∃ Gi G' found, docNetwork n T K pIn pOut draw = .ok (Gi, couplingGraph n T, layerVector n T) ∧
      Multilayer Gi (couplingGraph n T) (layerVector n T) ∧
      RunsFoundMultilayer x Gi (couplingGraph n T) (layerVector n T) gammas omegas found ∧ ∀ c ∈ out, FirstAppearanceOrder c ∧
        (∃ d ∈ found, SamePartition c d) ∧
        ∃ g ω, gammaOmegaEstimate x.prune.test x.prune.fsolve Gi (couplingGraph n T) (layerVector n T) c defaultOmegaMax "temporal" =
            .ok ((some g, ω), G') ∧
          (g = .nan ∨ ∃ γ, g = .fin γ ∧ (W.γ₀ < γ ∧ γ < W.γf) ∧
            (W.ω₀ < min ω (W.ωf - 1 / 1000) ∧ min ω (W.ωf - 1 / 1000) < W.ωf) ∧
            ∀ q ∈ found, multilayerModularity Gi (couplingGraph n T) (layerVector n T) γ (min ω (W.ωf - 1 / 1000)) q ≤
              multilayerModularity Gi (couplingGraph n T) (layerVector n T) γ (min ω (W.ωf - 1 / 1000)) c) := by
  have hn : 0 < n := by omega
  have hrun := h
  obtain ⟨comm, Gi, hnet, hlab, -, -, hwf, -, -, -⟩ := c109_network hK hKn hT pIn pOut draw
  have hk' := hk Gi hnet
  unfold docExample at h
  obtain ⟨net, h1, h⟩ := Run.bind_ok.mp h
  rw [Run.ofPy_ok, hnet] at h1
  cases h1
  obtain ⟨⟨out', G'⟩, h2, h⟩ := Run.bind_ok.mp h
  obtain ⟨u, h3, h⟩ := Run.bind_ok.mp h
  dsimp only at h2 h3 h
  have hout : out' = out := by
    have : (some (Except.ok out') : Option (Except PyErr (List (List Nat)))) = some (.ok out) := h
    simpa using this
  subst hout
  have hM : Multilayer Gi (couplingGraph n T) (layerVector n T) := by
    obtain ⟨comm', hd', hlen, -, -⟩ := c109_labels hK hKn T
    rw [hlab] at hd'
    cases hd'
    have hGi : Gi = graphOfEdges (blockEdges (layerVector n T) comm pIn pOut draw) := by
      unfold docNetwork at hnet
      rw [hlab, Py.ok_bind] at hnet
      cases hnet
      rfl
    by_cases hl : ∃ e ∈ Gi.edges, e.1 = n * T - 1
    · have hpos : 0 < n * T := Nat.mul_pos hn (by omega)
      subst hGi
      have hv := (block_vcount (pIn := pIn) (pOut := pOut) (draw := draw) hlen hpos (layerVector n T)).mpr hl
      obtain ⟨-, -, -, -, hX, hXv⟩ := c95_coupling n T
      obtain ⟨-, hL, -, -, -⟩ := c95_layers n T
      exact { intra := hwf
              inter := hX
              vcount := by rw [hXv hT, hv]
              layers := by rw [hL, hv]
              noCross := Or.inr fun e he => (((c95_edges _ comm pIn pOut draw).1 e.1 e.2).mp he).2.2.1 }
    · exact absurd hrun (c109_isolated hx hg ho hK hKn hT hk (fun G hG => by
        rw [hnet] at hG
        cases hG
        intro e he hel
        exact hl ⟨e, he, hel⟩) _)
  obtain ⟨found, hf, hs⟩ := c94_multilayer_sound (W := W) (restrict := none) hx hk' hM h2
  have hlen : ∀ d ∈ found, d.length = Gi.vcount := by
    intro d hd
    obtain ⟨j, hj⟩ := List.getElem?_of_mem hd
    have hlt : j < (gridPoints gammas omegas).length := by
      rw [← hf.1]; exact (List.getElem?_eq_some_iff.mp hj).1
    have := multilayerOutcome_length hx.produces (hf.2 j _ d (List.getElem?_eq_getElem hlt) hj)
    rw [this, (defaulted_shape x.leiden.test (couplingGraph n T)).1, hM.vcount]
  have hGpos : 0 < Gi.vcount := by
    rw [← hM.vcount, (c95_coupling n T).2.2.2.2.2 hT]
    exact Nat.mul_pos hn (by omega)
  refine ⟨((c109_verdict hc hn fun c hcm => ?_).1.mp (Run.ofPy_ok.mp h3)), Gi, G', found, hnet, hM, hf, fun c hcm => ?_⟩
  · obtain ⟨h1, ⟨d, hd, hdc⟩, -⟩ := hs c hcm
    refine ⟨?_, h1⟩
    rintro rfl
    have : ([] : List Nat).length = d.length := hdc.1
    rw [hlen d hd.1] at this
    simp at this
    omega
  · obtain ⟨h1, ⟨d, hd, hdc⟩, g, ω, hE, hb⟩ := hs c hcm
    refine ⟨h1, ⟨d, hd.1, hdc⟩, g, ω, hE, ?_⟩
    rcases hb with hb | ⟨γ, e, b1, b2, b3⟩
    · exact Or.inl hb
    · exact Or.inr ⟨γ, e, b1, b2, fun q hq => b3 q ⟨hq, by intro K h; cases h⟩⟩

/-! ## The plot of the estimates -/

/-- The gamma estimates of all ranges exist, on an undirected graph without isolated vertices and with positive weights. -/
theorem gamma_estimates_exist {test : Graph ℝ → Bool} {G : Graph ℝ} (hG : G.WF) (hv : 0 < G.vcount)
    (hiso : ∀ v < G.vcount, ∃ e ∈ G.edges, e.1 = v ∨ e.2 = v)
    (hw : test G = true → ∃ ws, G.weight = some ws ∧ ∀ w ∈ ws, 0 < w) (ranges : List (ℝ × ℝ × List Nat))
    (hr : ∀ r ∈ ranges, r.2.2.length = G.vcount ∧ FirstAppearanceOrder r.2.2) :
    ∃ es G₂, rangesToGammaEstimates test G ranges = .ok (es, G₂) := by
  obtain ⟨G₁, hens, hWF, ws, hws, hpos⟩ : ∃ G₁, ensureWeight test G.vcount G = .ok G₁ ∧ G₁.WF ∧
      ∃ ws, G₁.weight = some ws ∧ ∀ w ∈ ws, 0 < w := by
    unfold ensureWeight
    by_cases ht : test G = true
    · obtain ⟨ws, h1, h2⟩ := hw ht
      exact ⟨G, by rw [if_pos ht], hG, ws, h1, h2⟩
    · refine ⟨{ G with weight := some (List.replicate G.edges.length 1) }, by rw [if_neg ht, setEsWeight_ones hv],
        ⟨hG.1, ?_⟩, List.replicate G.edges.length 1, rfl, ?_⟩
      · intro ws h; rw [← Option.some.inj h]; simp
      · intro w hw'; rw [List.eq_of_mem_replicate hw']; exact one_pos
  obtain ⟨v1, v2, v3⟩ := ensureWeight_vcount hens
  have hgam : ∀ p : List Nat, p.length = G.vcount → FirstAppearanceOrder p → ∃ e, gammaEstimate test G p = .ok (e, G₁) := by
    intro p hp hf
    obtain ⟨r, hr⟩ := c25_no_isolated_vertices hWF hws hpos (c := p) (by rw [hp, v1])
      (K := p.dedup.length) (firstAppearance_contiguous hf) (by rw [v1]; exact hv) (by rw [v1, v2]; exact hiso)
    refine ⟨gammaFromParameters r.1 r.2, ?_⟩
    unfold gammaEstimate
    rw [hens, Py.ok_bind]
    unfold leidenPartWithMembership
    rw [if_pos (by rw [hp, v1]), Py.ok_bind, hr]
    rfl
  have hests : ∀ (ranges : List (ℝ × ℝ × List Nat)) (G₀ : Graph ℝ),
      (∀ r ∈ ranges, ∃ e, gammaEstimate test G₀ r.2.2 = .ok (e, G₁)) →
      ensureWeight test G₀.vcount G₀ = .ok G₁ →
      ∃ es G₂, rangesToGammaEstimates test G₀ ranges = .ok (es, G₂) := by
    intro ranges
    induction ranges with
    | nil => intro G₀ _ _; exact ⟨_, _, rfl⟩
    | cons r rest ih =>
      intro G₀ hr hG₀
      obtain ⟨e, he'⟩ := hr r (by simp)
      have hth := gammaEstimate_thread hG₀
      obtain ⟨es, G₂, hrest⟩ := ih G₁
        (fun r' hr' => by rw [hth]; exact hr r' (List.mem_cons_of_mem _ hr'))
        (by rw [(ensureWeight_vcount hG₀).1]; exact ensureWeight_idem hG₀)
      refine ⟨(r.1, r.2.1, r.2.2, e) :: es, G₂, ?_⟩
      unfold rangesToGammaEstimates
      rw [he', Py.ok_bind, hrest]; rfl
  exact hests ranges G (fun r hr' => hgam _ (hr r hr').1 (hr r hr').2) hens

/-- **C109 (the plot of the estimates).** Under the conditions of C94 the documented plot is made.  Every segment of it belongs to a
partition found by one of the runs and spans exactly the resolutions at which no partition found is better; its height is that
partition's number of communities; the estimate drawn for it is the gamma estimate of the partition; together the segments cover
the window. -/
theorem c109_plot_estimates {limits : List ((ℝ × ℝ) × Nat) → (ℝ × ℝ) × (ℝ × ℝ)} {G : Graph ℝ} {γ₀ γf : ℝ}
    (hx : SoundExecution x gammas.length) (hex : ExactEnv x.prune.toChampEnv) (hg : gammas ≠ [])
    (hfind : ∀ i, ∀ γ ∈ gammas, ∃ c, x.leiden.findPartition i (defaulted x.leiden.test G) γ = .ok c) (hG : G.WF)
    (hd : G.directed = false) (hv : 0 < G.vcount) (hiso : ∀ v < G.vcount, ∃ e ∈ G.edges, e.1 = v ∨ e.2 = v)
    (hw : x.leiden.test G = true → ∃ ws, G.weight = some ws ∧ ∀ w ∈ ws, 0 < w) (hγ : γ₀ < γf) :
    ∃ found ests plot, RunsFound x G gammas found ∧
      docPlotEstimates x limits G gammas γ₀ γf = (some (.ok (ests, plot)) : Option _) ∧
      (∀ e ∈ ests, (∃ d ∈ found, SamePartition e.2.2.1 d) ∧ (∃ H, gammaEstimate x.prune.test G e.2.2.1 = .ok (e.2.2.2, H)) ∧
        ∀ γ, (e.1 ≤ γ ∧ γ ≤ e.2.1) ↔ (γ₀ ≤ γ ∧ γ ≤ γf) ∧ ∀ d ∈ found, modularity G γ d ≤ modularity G γ e.2.2.1) ∧
      (∀ γ, γ₀ ≤ γ → γ ≤ γf → ∃ e ∈ ests, e.1 ≤ γ ∧ γ ≤ e.2.1) ∧
      plot.segments = ests.map fun e => ((e.1, e.2.1), e.2.2.1.dedup.length) := by
  choose! f hf using hfind
  let found : List (List Nat) := gammas.zipIdx.map fun gj =>
    f ((x.workers (gj.2 / poolChunkSize x.cpu gammas.length)).calls + gj.2 % poolChunkSize x.cpu gammas.length) gj.1
  have hfound : RunsFound x G gammas found := by
    refine ⟨by simp [found], ?_⟩
    intro j γ c hj hc
    simp only [found, List.getElem?_map, List.getElem?_zipIdx, hj, Option.map_some, Option.some.injEq, Nat.zero_add] at hc
    rw [← hc]
    exact hf _ _ (List.mem_of_getElem? hj)
  have hS : CanonicalSetOf (found.map canon).toFinset found := by
    rw [canonicalSetOf_iff]
    intro c
    simp
  have hSm := canonicalSetOf_iff.mp hS
  have h1 := (c51_parallel G gammas x.cpu x.workers hx.order _).mpr ⟨found, hfound, hS⟩
  have hlen : ∀ d ∈ found, d.length = G.vcount := by
    intro d hd
    obtain ⟨j, hj⟩ := List.getElem?_of_mem hd
    have hlt : j < gammas.length := by
      rw [← hfound.1]; exact (List.getElem?_eq_some_iff.mp hj).1
    have := hx.produces.1 _ _ _ _ (hfound.2 j gammas[j] d (List.getElem?_eq_getElem hlt) hj)
    rw [this, (defaulted_shape x.leiden.test G).1]
  set parts := x.iterate (found.map canon).toFinset with hparts
  have hmem : ∀ p, p ∈ parts ↔ ∃ d ∈ found, canon d = p := fun p => (hx.iterate _ p).trans (hSm p)
  have hp : ∀ p ∈ parts, p.length = G.vcount := by
    intro p hp
    obtain ⟨d, hd, rfl⟩ := (hmem p).mp hp
    rw [canon_length]; exact hlen d hd
  have hne : parts ≠ [] := by
    have : 0 < found.length := by
      rw [hfound.1]; exact List.length_pos_of_ne_nil hg
    exact List.ne_nil_of_mem ((hmem _).mpr ⟨found[0], List.getElem_mem this, rfl⟩)
  have hm : 0 < G.ecount := by
    obtain ⟨e, he', -⟩ := hiso 0 hv
    exact List.length_pos_of_mem he'
  obtain ⟨ranges, h2⟩ := c17_returns hex hG hd hm hp hne hγ false
  have hcor := c17_ranges_correct hx.prune.toSoundEnv hG hp h2
  have hpart : ∀ r ∈ ranges, r.2.2.length = G.vcount ∧ FirstAppearanceOrder r.2.2 := by
    intro r hr
    refine ⟨hp _ (hcor r hr).2.2.2.1, ?_⟩
    obtain ⟨d, -, e⟩ := (hmem _).mp (hcor r hr).2.2.2.1
    rw [← e]; exact canon_firstAppearance d
  obtain ⟨ests, G₂, h3⟩ := gamma_estimates_exist (test := x.prune.test) hG hv hiso (by rw [hx.test]; exact hw) ranges hpart
  obtain ⟨-, -, est, hest, rfl⟩ := rangesToGammaEstimates_ok h3
  have hnum : ∀ r ∈ ranges, numCommunities (r.2.2.map Int.ofNat) = .ok r.2.2.dedup.length := by
    intro r hr
    obtain ⟨h4, h5⟩ := hpart r hr
    refine numCommunities_nat.mpr ⟨?_, firstAppearance_contiguous h5⟩
    intro h
    rw [h] at h4
    simp at h4; omega
  obtain ⟨plot, h4⟩ := (c61_returns (limits := limits)
    (ests := (ranges.map fun r => (r.1, r.2.1, r.2.2, est r.2.2)).map fun e => (e.1, e.2.1, e.2.2.1.map Int.ofNat, e.2.2.2))).mpr (by
      intro e he
      rw [List.map_map] at he
      obtain ⟨r, hr, rfl⟩ := List.mem_map.mp he
      exact ⟨_, hnum r hr⟩)
  refine ⟨found, _, plot, hfound, Run.bind_ok.mpr ⟨_, Run.ofPy_ok.mpr h1, Run.bind_ok.mpr ⟨ranges, h2, Run.bind_ok.mpr
    ⟨_, Run.ofPy_ok.mpr h3, Run.bind_ok.mpr ⟨plot, Run.ofPy_ok.mpr h4, rfl⟩⟩⟩⟩, ?_, ?_, ?_⟩
  · intro e he
    obtain ⟨r, hr, rfl⟩ := List.mem_map.mp he
    obtain ⟨-, -, -, hin, hiff⟩ := hcor r hr
    obtain ⟨d, hd, e⟩ := (hmem _).mp hin
    refine ⟨⟨d, hd, e ▸ canon_same d⟩, ⟨_, hest r hr⟩, fun γ => (hiff γ).trans (and_congr_right fun _ => ?_)⟩
    constructor
    · intro h d hd
      rw [← modularity_canon (hlen d hd)]
      exact h _ ((hmem _).mpr ⟨d, hd, rfl⟩)
    · intro h c hc
      obtain ⟨d, hd, rfl⟩ := (hmem c).mp hc
      rw [modularity_canon (hlen d hd)]
      exact h d hd
  · intro γ h5 h6
    obtain ⟨r, hr, r1, r2, -⟩ := c18_ranges_cover hx.prune.toSoundEnv hG hp hne h2 h5 h6
    exact ⟨_, List.mem_map.mpr ⟨r, hr, rfl⟩, r1, r2⟩
  · have h5 := (c61_arrows h4).1
    have h6 : List.Forall₂ (fun e s => s = e) (ranges.map fun r => ((r.1, r.2.1), r.2.2.dedup.length)) plot.segments := by
      rw [List.map_map, List.forall₂_map_left_iff] at h5
      rw [List.forall₂_map_left_iff]
      rw [List.forall₂_iff_get] at h5 ⊢
      refine ⟨h5.1, fun i hi hi' => ?_⟩
      obtain ⟨a, b⟩ := h5.2 i hi hi'
      dsimp only [Function.comp] at a b
      rw [hnum _ (List.get_mem ranges ⟨i, hi⟩)] at b
      exact Prod.ext a (Except.ok.inj b).symm
    rw [List.map_map]
    exact (List.forall₂_eq_eq_eq.symm ▸ (h6.imp fun _ _ h => h.symm) : _ = plot.segments).symm

end

/-! ## Cases -/

/-- The numbers of the documentation: the network of `c109_network` is a temporal network if all random numbers are 0. -/
example : ∃ Gi, docNetwork 30 3 3 (1 / 2) (1 / 20) (fun _ _ => 0) = .ok (Gi, couplingGraph 30 3, layerVector 30 3) ∧
    TemporalNetwork Gi (couplingGraph 30 3) (layerVector 30 3) 3 30 := by
  obtain ⟨comm, Gi, h1, -, -, -, -, he, ht, -⟩ := c109_network (n := 30) (T := 3) (K := 3) (by norm_num) (by norm_num) (by norm_num)
    (1 / 2) (1 / 20) (fun _ _ => 0)
  have hed : ∀ l < 3, ∀ u < 30, ∀ v < 30, v < u → (30 * l + u, 30 * l + v) ∈ Gi.edges := by
    intro l hl u hu v hv huv
    refine (he l hl l hl u hu v hv).mpr ⟨huv, rfl, ?_⟩
    split <;> norm_num
  refine ⟨Gi, h1, ht ⟨_, hed 2 (by norm_num) 29 (by norm_num) 0 (by norm_num) (by norm_num), rfl⟩ fun t ht => ?_⟩
  exact ⟨_, hed t ht 29 (by norm_num) 0 (by norm_num) (by norm_num), (c95_layers 30 3).2.2.1 t ht 29 (by norm_num)⟩

/-- The hypothesis of `c109_isolated`: if all random numbers are large there are no edges. -/
example : ∃ Gi, docNetwork 30 3 3 (1 / 2) (1 / 20) (fun _ _ => 9 / 10) = .ok (Gi, couplingGraph 30 3, layerVector 30 3) ∧
    (∀ e ∈ Gi.edges, e.1 ≠ 30 * 3 - 1) ∧ Gi.vcount < 30 * 3 := by
  obtain ⟨comm, Gi, h1, -, -, -, -, he, -, hs⟩ := c109_network (n := 30) (T := 3) (K := 3) (by norm_num) (by norm_num) (by norm_num)
    (1 / 2) (1 / 20) (fun _ _ => 9 / 10)
  have hno : ∀ e ∈ Gi.edges, e.1 ≠ 30 * 3 - 1 := by
    intro e hm hl
    have hb : e.2 < 30 * 3 := by
      obtain ⟨comm', hc, hlen, -⟩ := c109_labels (n := 30) (K := 3) (by norm_num) (by norm_num) 3
      unfold docNetwork at h1
      rw [hc, Py.ok_bind] at h1
      cases h1
      have := ((c95_edges (layerVector 30 3) comm' _ _ _).1 e.1 e.2).mp hm
      omega
    have e1 : e = (30 * (e.1 / 30) + e.1 % 30, 30 * (e.2 / 30) + e.2 % 30) := by
      rw [Nat.div_add_mod, Nat.div_add_mod]
    rw [e1] at hm
    have := ((he (e.1 / 30) (by omega) (e.2 / 30) (by omega) (e.1 % 30) (by omega) (e.2 % 30) (by omega)).mp hm).2.2
    split at this <;> norm_num at this
  exact ⟨Gi, h1, hno, hs hno⟩

/-- With 4 communities for 10 vertices per layer there are 5 planted communities. -/
example : ∃ comm, docLabels 10 3 4 = .ok comm ∧ comm.dedup.length = 5 := ⟨_, rfl, by decide⟩

end Verif.Props
