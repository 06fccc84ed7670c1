import Verif.Proofs.NonMonotone
import Verif.Spec.Nested
import Verif.Props.Champ2D
import Verif.Props.Partitions

/-!
# Property C86: the number of communities along the ranges of optimality
-/

namespace Verif.Props
open Verif Verif.Spec Verif.Proofs Finset

variable {α : Type} [LinearOrder α]

theorem gNine_wf : gNine.WF := by
  refine ⟨by decide, ?_⟩
  intro ws h; cases h

theorem adj_symm {G : Graph ℝ} (hd : G.directed = false) (i j : Nat) : adj G i j = adj G j i := by
  unfold adj; rw [hd]; simp [add_comm]

theorem nine_adj_diag : ∀ i < 9, adj gNine i i = 0 := by decide

theorem nine_squares : ∑ i ∈ range 9, rowSum gNine i * rowSum gNine i = 78 := by decide

theorem nine_total : total gNine = 24 := by decide

/-- modularity of a labelling of the nine vertices through its pair weights -/
theorem nine_modularity {c : List Nat} (hc : c.length = 9) (γ : ℝ) :
    modularity gNine γ c = 2 * (((pairWeights nineRowsLit [] c).1 : ℝ) - γ * (pairWeights nineRowsLit [] c).2 / 24) -
      γ * 78 / 24 := by
  have hd : gNine.directed = false := rfl
  have hp := pairWeights_eq (fun u v => adj gNine u v) (fun u v => rowSum gNine u * rowSum gNine v) c []
  rw [hc] at hp
  change pairWeights nineRows [] c = _ at hp
  rw [← nineRows_eq, hp]
  simp only [List.length_nil, zero_add, List.reverse_nil, List.nil_append]
  have hs := half_sum 9 (fun i j => if c[i]? = c[j]? then (adj gNine i j : ℝ) -
    γ * ((colSum gNine i : ℝ) * (rowSum gNine j : ℝ) / (total gNine : ℝ)) else 0) (by
      intro i j
      simp only [colSum_eq_rowSum hd, adj_symm hd i j, eq_comm (a := c[i]?), mul_comm (rowSum gNine i : ℝ)])
  have hdiag : ∑ i ∈ range 9, ((adj gNine i i : ℝ) - γ * ((colSum gNine i : ℝ) * (rowSum gNine i : ℝ) / (total gNine : ℝ))) =
      - (γ * 78 / 24) := by
    have h1 : ∀ i ∈ range 9, ((adj gNine i i : ℝ) - γ * ((colSum gNine i : ℝ) * (rowSum gNine i : ℝ) / (total gNine : ℝ))) =
        - (γ / 24) * ((rowSum gNine i * rowSum gNine i : ℕ) : ℝ) := by
      intro i hi
      rw [nine_adj_diag i (Finset.mem_range.mp hi), colSum_eq_rowSum hd, nine_total]
      push_cast; ring
    rw [Finset.sum_congr rfl h1, ← Finset.mul_sum, ← Nat.cast_sum, nine_squares]
    push_cast; ring
  unfold modularity
  change ∑ i ∈ range 9, ∑ j ∈ range 9, _ = _
  simp only [if_true] at hs
  rw [hdiag] at hs
  have : ∀ x y z : ℝ, 2 * x = y - (-z) → y = 2 * x - z := by intros; linarith
  rw [this _ _ _ hs]
  congr 1
  congr 1
  push_cast
  rw [mul_div_assoc, Finset.sum_div, Finset.mul_sum, ← Finset.sum_sub_distrib]
  refine Finset.sum_congr rfl fun i _ => ?_
  rw [Finset.sum_div, Finset.mul_sum, ← Finset.sum_sub_distrib]
  refine Finset.sum_congr rfl fun j _ => ?_
  rw [colSum_eq_rowSum hd, nine_total]
  split_ifs
  · push_cast; ring
  · simp

/-- the three communities: core and the two pendant paths -/
def nineThree : List Nat := [0, 0, 0, 0, 0, 1, 1, 2, 2]

/-- the two communities: four core vertices; the hub with both paths -/
def nineTwo : List Nat := [0, 0, 0, 0, 1, 1, 1, 1, 1]

/-- **C86 (more resolution, fewer communities).** On a connected simple graph with 9 vertices, among all partitions of the
vertices (labels of any type) the best at `γ = 3/4` has three communities and the best at the larger `γ = 24/25` has two; both
are unique up to renaming the labels. -/
theorem c86_optimum {c : List α} (hc : c.length = 9) :
    (¬ SamePartition c nineThree → modularity gNine (3 / 4) c < modularity gNine (3 / 4) nineThree) ∧
    (¬ SamePartition c nineTwo → modularity gNine (24 / 25) c < modularity gNine (24 / 25) nineTwo) := by
  have hl : (canon c).length = 9 := by rw [canon_length, hc]
  have hs := search_complete nine_search (ks := canon c) (by rw [hl]; rfl) (grows_of_first (canon_firstAppearance c))
  rw [List.append_nil, zero_add, zero_add] at hs
  unfold nineLeaf at hs
  simp only [Bool.and_eq_true, Bool.or_eq_true, decide_eq_true_eq, Nat.blt_eq] at hs
  have e3 : pairWeights nineRowsLit [] nineThree = (10, 132) := by decide
  have e2 : pairWeights nineRowsLit [] nineTwo = (9, 106) := by decide
  rw [← modularity_canon (G := gNine) (p := c) hc, ← modularity_canon (G := gNine) (p := c) hc, nine_modularity hl, nine_modularity hl,
    nine_modularity (c := nineThree) rfl, nine_modularity (c := nineTwo) rfl, e3, e2]
  constructor
  · intro hn
    rcases hs.1 with h | h
    · have : 96 * ((pairWeights nineRowsLit [] (canon c)).1 : ℝ) + 396 <
          960 + 3 * ((pairWeights nineRowsLit [] (canon c)).2 : ℝ) := by exact_mod_cast h
      push_cast
      linarith
    · exfalso; apply hn
      have : canon c = nineThree := by
        rw [← List.reverse_reverse (canon c), h]; rfl
      rw [← this]
      exact (canon_same c).symm
  · intro hn
    rcases hs.2 with h | h
    · have : 25 * ((pairWeights nineRowsLit [] (canon c)).1 : ℝ) + 106 <
          225 + ((pairWeights nineRowsLit [] (canon c)).2 : ℝ) := by exact_mod_cast h
      push_cast
      linarith
    · exfalso; apply hn
      have : canon c = nineTwo := by
        rw [← List.reverse_reverse (canon c), h]; rfl
      rw [← this]
      exact (canon_same c).symm

/-! ### the ranges of `CHAMP_2D` -/

theorem dropsAt_false {l : List Nat} : dropsAt l = false ↔ l.IsChain (· ≤ ·) := by
  induction l with
  | nil => simp [dropsAt]
  | cons a l ih =>
    cases l with
    | nil => simp [dropsAt]
    | cons b l =>
      simp only [dropsAt, Bool.or_eq_false_iff, decide_eq_false_iff_not, not_lt, ih, List.isChain_cons_cons]

theorem numCommunities_contiguous {c : List Int} (hc : ContiguousLabels c) (hne : c ≠ []) :
    numCommunities c = .ok c.dedup.length := by
  obtain ⟨K, hK⟩ := hc
  have h := (numCommunities_ok_iff (fun x hx => ((hK x).mp hx).1) hne K).mpr hK
  have h2 := h
  unfold numCommunities at h
  split at h
  · cases h
  · split at h
    · injection h with h
      rw [h2, h]
    · cases h

theorem nonMonotonicK_eq {ranges : List (ℝ × ℝ × List Int)} (h : ∀ r ∈ ranges, ContiguousLabels r.2.2 ∧ r.2.2 ≠ []) :
    nonMonotonicK ranges = .ok (dropsAt (ranges.map fun r => r.2.2.dedup.length)) := by
  unfold nonMonotonicK rangeKs
  rw [mapM_ok (g := fun r => r.2.2.dedup.length) fun r hr => numCommunities_contiguous (h r hr).1 (h r hr).2]
  rfl

/-- **C86 (the search finds this graph).** Whatever candidates the optimiser finds, as long as the two partitions are among
them: the ranges returned by `CHAMP_2D` on a window containing 3/4 and 24/25 are reported as non-monotonic. -/
theorem c86_found {env : ChampEnv} (he : SoundEnv env) {parts : List (List Int)} (hp : ∀ c ∈ parts, c.length = 9)
    (hlab : ∀ c ∈ parts, ContiguousLabels c) (h3 : ∃ c ∈ parts, SamePartition c nineThree)
    (h2 : ∃ c ∈ parts, SamePartition c nineTwo) {γ₀ γf : ℝ} (h0 : γ₀ ≤ 3 / 4) (hf : 24 / 25 ≤ γf) {st : Bool}
    {ranges : List (ℝ × ℝ × List Int)} (h : champ2D env gNine parts γ₀ γf st = (some (.ok ranges) : Option _)) :
    nonMonotonicK ranges = .ok true := by
  obtain ⟨c3, hc3, s3⟩ := h3
  obtain ⟨c2, hc2, s2⟩ := h2
  have hne : parts ≠ [] := List.ne_nil_of_mem hc3
  have hin : ∀ r ∈ ranges, r.2.2 ∈ parts := fun r hr => (c17_ranges_correct he gNine_wf hp h r hr).2.2.2.1
  rw [nonMonotonicK_eq fun r hr => ⟨hlab _ (hin r hr), by
    have := hp _ (hin r hr)
    intro hn; rw [hn] at this; simp at this⟩]
  congr 1
  by_contra hfalse
  rw [Bool.not_eq_true, dropsAt_false] at hfalse
  have hmono := List.isChain_iff_pairwise.mp hfalse
  rw [List.pairwise_map] at hmono
  obtain ⟨r, hr, r1, r2, r3⟩ := c18_ranges_cover he gNine_wf hp hne h h0 (show (3 / 4 : ℝ) ≤ γf by linarith)
  obtain ⟨s, hs, s1, s2', s3'⟩ := c18_ranges_cover he gNine_wf hp hne h (show γ₀ ≤ (24 / 25 : ℝ) by linarith) hf
  have hr3 : SamePartition r.2.2 nineThree := by
    by_contra hn
    have e1 := (c86_optimum (hp _ (hin r hr))).1 hn
    have e2 := r3 c3 hc3
    rw [modularity_same s3 (hp _ hc3)] at e2
    linarith
  have hs2 : SamePartition s.2.2 nineTwo := by
    by_contra hn
    have e1 := (c86_optimum (hp _ (hin s hs))).2 hn
    have e2 := s3' c2 hc2
    rw [modularity_same s2 (hp _ hc2)] at e2
    linarith
  have k3 : r.2.2.dedup.length = 3 := by rw [dedup_length_same hr3]; decide
  have k2 : s.2.2.dedup.length = 2 := by rw [dedup_length_same hs2]; decide
  have hrs : r ≠ s := by
    intro e; rw [e, k2] at k3; omega
  obtain ⟨-, -, -, ht⟩ := champ2D_tiling he gNine_wf hp hne h
  have hboth := hmono.and ht
  have hsym := List.Pairwise.forall_of_forall_of_flip (R := fun a b => (a.2.2.dedup.length ≤ b.2.2.dedup.length ∧ a.2.1 ≤ b.1) ∨
    (b.2.2.dedup.length ≤ a.2.2.dedup.length ∧ b.2.1 ≤ a.1) ∨ a = b) (l := ranges)
    (fun x _ => Or.inr (Or.inr rfl)) (hboth.imp fun h => Or.inl h) (hboth.imp fun h => Or.inr (Or.inl h)) hr hs
  rcases hsym with ⟨h1, -⟩ | ⟨-, h1⟩ | h1
  · omega
  · linarith
  · exact hrs h1

theorem finer_card {c d : List Int} (h : Finer c d) : d.dedup.length ≤ c.dedup.length := by
  rw [← List.card_toFinset, ← List.card_toFinset]
  have : d.toFinset ⊆ c.toFinset.image fun x => d.getD (c.idxOf x) 0 := by
    intro y hy
    rw [List.mem_toFinset] at hy
    obtain ⟨i, hi, rfl⟩ := List.mem_iff_getElem.mp hy
    have hic : i < c.length := by rw [h.1]; exact hi
    rw [Finset.mem_image]
    refine ⟨c[i], List.mem_toFinset.mpr (List.getElem_mem hic), ?_⟩
    have hlt : c.idxOf c[i] < c.length := List.idxOf_lt_length_iff.mpr (List.getElem_mem hic)
    have := h.2 (c.idxOf c[i]) i hlt hic (by
      rw [List.getElem?_eq_getElem hlt, List.getElem?_eq_getElem hic, List.getElem_idxOf])
    rw [List.getD_eq_getElem?_getD, this, List.getElem?_eq_getElem hi]
    rfl
  exact (Finset.card_le_card this).trans Finset.card_image_le

/-- **C86 (nested candidates are monotonic).** If of any two candidates one refines the other, then on every graph the number
of communities never drops along the ranges returned by `CHAMP_2D`. -/
theorem c86_nested {env : ChampEnv} (he : SoundEnv env) {G : Graph ℝ} (hG : G.WF) (hn : 0 < G.vcount) {parts : List (List Int)}
    (hp : ∀ c ∈ parts, c.length = G.vcount) (hlab : ∀ c ∈ parts, ContiguousLabels c)
    (hnest : ∀ c ∈ parts, ∀ d ∈ parts, Finer c d ∨ Finer d c) {γ₀ γf : ℝ} {st : Bool}
    {ranges : List (ℝ × ℝ × List Int)} (h : champ2D env G parts γ₀ γf st = (some (.ok ranges) : Option _)) :
    nonMonotonicK ranges = .ok false := by
  by_cases hne : parts = []
  · subst hne
    have : champ2D env G ([] : List (List Int)) γ₀ γf st = (some (.ok []) : Option _) := rfl
    rw [this] at h
    cases h
    rfl
  have hin : ∀ r ∈ ranges, r.2.2 ∈ parts := fun r hr => (c17_ranges_correct he hG hp h r hr).2.2.2.1
  rw [nonMonotonicK_eq fun r hr => ⟨hlab _ (hin r hr), by
    have := hp _ (hin r hr)
    intro hn'; rw [hn'] at this; simp at this; omega⟩]
  congr 1
  rw [dropsAt_false, List.isChain_map]
  obtain ⟨-, -, -, ht⟩ := champ2D_tiling he hG hp hne h
  refine List.Pairwise.isChain ?_
  refine List.Pairwise.imp_of_mem ?_ ht
  intro r s hr hs hrs
  rcases hnest _ (hin r hr) _ (hin s hs) with hf | hf
  · exfalso
    obtain ⟨-, l1, -, -, i1⟩ := c17_ranges_correct he hG hp h r hr
    obtain ⟨-, l2, -, -, i2⟩ := c17_ranges_correct he hG hp h s hs
    have hP : withinNull G r.2.2 ≤ withinNull G s.2.2 := withinNull_mono fun i j hi hj => hf.2 i j (by
      rw [hp _ (hin r hr)]; exact hi) (by rw [hp _ (hin r hr)]; exact hj)
    have a1 := ((i1 r.1).mp ⟨le_rfl, l1.le⟩)
    have a2 := ((i2 s.2.1).mp ⟨l2.le, le_rfl⟩)
    have b1 := a1.2 _ (hin s hs)
    have b2 := a2.2 _ (hin r hr)
    have hback := (i1 s.2.1).mpr ⟨a2.1, fun c hc => (a2.2 c hc).trans ?_⟩
    · linarith [hback.2]
    · simp only [modularity_affine] at b1 b2 ⊢
      nlinarith
  · exact finer_card hf

/-- candidates for the examples -/
def nineParts : List (List Int) :=
  [[0, 0, 0, 0, 0, 1, 1, 2, 2], [1, 1, 1, 1, 0, 0, 0, 0, 0], [0, 0, 0, 0, 0, 0, 0, 0, 0]]

theorem nineParts_contiguous : ∀ c ∈ nineParts, ContiguousLabels c := by
  intro c hc
  simp only [nineParts, List.mem_cons, List.not_mem_nil, or_false] at hc
  rcases hc with rfl | rfl | rfl
  · exact ⟨3, fun x => by simp; omega⟩
  · exact ⟨2, fun x => by simp; omega⟩
  · exact ⟨1, fun x => by simp; omega⟩

/-- The hypotheses of `c86_found` are met, and `CHAMP_2D` returns. -/
example : ∃ ranges, champ2D exactEnv gNine nineParts 0 1 false = (some (.ok ranges) : Option _) ∧
    nonMonotonicK ranges = .ok true := by
  obtain ⟨ranges, h⟩ := c17_returns (parts := nineParts) (γ₀ := 0) (γf := 1) exactEnv_exact gNine_wf rfl (by decide)
    (by decide) (by decide) (by norm_num) false
  refine ⟨ranges, h, c86_found exactEnv_exact.toSoundEnv (by decide) nineParts_contiguous ?_ ?_ (by norm_num) (by norm_num) h⟩
  · exact ⟨[0, 0, 0, 0, 0, 1, 1, 2, 2], by decide, canon_canon_same (by decide)⟩
  · exact ⟨[1, 1, 1, 1, 0, 0, 0, 0, 0], by decide, canon_canon_same (by decide)⟩

/-- The hypotheses of `c86_nested` are met: without the two communities the candidates are nested. -/
example : (∀ c ∈ ([[0, 0, 0, 0, 0, 1, 1, 2, 2], [0, 0, 0, 0, 0, 0, 0, 0, 0]] : List (List Int)),
    ∀ d ∈ ([[0, 0, 0, 0, 0, 1, 1, 2, 2], [0, 0, 0, 0, 0, 0, 0, 0, 0]] : List (List Int)), Finer c d ∨ Finer d c) := by
  have key : ∀ c : List Int, c.length = 9 → Finer c ([0, 0, 0, 0, 0, 0, 0, 0, 0] : List Int) := by
    intro c hc
    refine ⟨hc, fun i j hi hj _ => ?_⟩
    rw [hc] at hi hj
    have : ∀ i < 9, ([0, 0, 0, 0, 0, 0, 0, 0, 0] : List Int)[i]? = some 0 := by decide
    rw [this i hi, this j hj]
  have hrefl : ∀ c : List Int, Finer c c := fun c => ⟨rfl, fun _ _ _ _ h => h⟩
  intro c hc d hd
  simp only [List.mem_cons, List.not_mem_nil, or_false] at hc hd
  rcases hc with rfl | rfl <;> rcases hd with rfl | rfl
  · exact Or.inl (hrefl _)
  · exact Or.inl (key _ rfl)
  · exact Or.inr (key _ rfl)
  · exact Or.inl (hrefl _)

end Verif.Props
