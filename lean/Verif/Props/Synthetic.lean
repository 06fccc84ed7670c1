import Verif.Spec.Synthetic
import Verif.Props.Explicit3D
import Verif.Props.FixedPoint
import Verif.Props.Invariance
import Verif.Props.Warnings

/-!
# Property C95: the synthetic temporal block models
-/

namespace Verif.Props
open Verif Verif.Spec

/-! ## Vectors layer by layer -/

/-- Entry `n l + v` of the concatenation of `T` lists of length `n`. -/
theorem flatMap_get {α : Type} {n : Nat} (f : Nat → List α) (hf : ∀ l, (f l).length = n) :
    ∀ T l v, l < T → v < n → ((List.range T).flatMap f)[n * l + v]? = (f l)[v]? := by
  intro T
  induction T with
  | zero => intro l v h; omega
  | succ T ih =>
    intro l v hl hv
    have hlen : ((List.range T).flatMap f).length = n * T := by
      rw [List.length_flatMap]
      simp [hf, Nat.mul_comm]
    rw [List.range_succ, List.flatMap_append, List.flatMap_singleton]
    rcases Nat.lt_or_ge l T with h | h
    · have : n * l + v < n * T := by
        have := Nat.mul_le_mul_left n (Nat.succ_le_of_lt h)
        rw [Nat.mul_succ] at this; omega
      rw [List.getElem?_append_left (by omega), ih l v h hv]
    · have : l = T := by omega
      subst this
      rw [List.getElem?_append_right (by omega), hlen]
      congr 1; omega

theorem flatMap_length {α : Type} {n : Nat} (f : Nat → List α) (hf : ∀ l, (f l).length = n) (T : Nat) :
    ((List.range T).flatMap f).length = n * T := by
  rw [List.length_flatMap]
  simp [hf, Nat.mul_comm]

/-- every index of a network with `n` vertices per layer is a vertex of a layer -/
theorem index_split {n T i : Nat} (hi : i < n * T) : ∃ l v, l < T ∧ v < n ∧ i = n * l + v := by
  have hn : 0 < n := by rcases Nat.eq_zero_or_pos n with h | h; (subst h; simp at hi); exact h
  refine ⟨i / n, i % n, (Nat.div_lt_iff_lt_mul hn).mpr (by rwa [Nat.mul_comm]), Nat.mod_lt _ hn, (Nat.div_add_mod i n).symm⟩

theorem index_lt {n T l v : Nat} (hl : l < T) (hv : v < n) : n * l + v < n * T := by
  have := Nat.mul_le_mul_left n (Nat.succ_le_of_lt hl)
  rw [Nat.mul_succ] at this; omega

theorem layerVector_get {n T i : Nat} (hi : i < n * T) : (layerVector n T)[i]? = some (i / n) := by
  unfold layerVector; simp [hi]

theorem sum_list_range_nat (T : Nat) (f : Nat → Nat) : ((List.range T).map f).sum = ∑ i ∈ Finset.range T, f i := by
  induction T with
  | zero => rfl
  | succ T ih => rw [List.range_succ, List.map_append, List.sum_append, Finset.sum_range_succ, ih]; simp

theorem layerVector_length (n T : Nat) : (layerVector n T).length = n * T := by simp [layerVector]

/-- **C95.** The two ways in which layer vectors are built give the same vector: `n T` entries, `n` for each layer, the `l`-th
block of `n` vertices being layer `l`. -/
theorem c95_layers (n T : Nat) :
    layerMembership n T = layerVector n T ∧ (layerVector n T).length = n * T ∧
      (∀ l < T, ∀ v < n, LabelAt n (layerVector n T) l v l) ∧ (∀ l < T, (layerVector n T).count l = n) ∧
      (0 < n → Contiguous (layerVector n T) T) := by
  have hget : ∀ l < T, ∀ v < n, LabelAt n (layerVector n T) l v l := by
    intro l hl v hv
    unfold LabelAt
    rw [layerVector_get (index_lt hl hv)]
    congr 1
    rw [Nat.mul_add_div (by omega), Nat.div_eq_of_lt hv]; rfl
  have heq : layerMembership n T = layerVector n T := by
    have hlen : (layerMembership n T).length = n * T := flatMap_length _ (by simp) T
    refine List.ext_getElem? fun i => ?_
    rcases Nat.lt_or_ge i (n * T) with hi | hi
    · obtain ⟨l, v, hl, hv, rfl⟩ := index_split hi
      rw [hget l hl v hv]
      unfold layerMembership
      rw [flatMap_get _ (by simp) T l v hl hv]
      simp [hv]
    · rw [List.getElem?_eq_none (by omega), List.getElem?_eq_none (by rw [layerVector_length]; omega)]
  refine ⟨heq, layerVector_length n T, hget, ?_, ?_⟩
  · intro l hl
    rw [← heq]
    unfold layerMembership
    rw [List.count_flatMap]
    have : (List.map (List.count l ∘ fun i => List.replicate n i) (List.range T)) =
        (List.range T).map fun i => if i = l then n else 0 := by
      apply List.map_congr_left
      intro i _
      simp [List.count_replicate]
    rw [this]
    have hs := sum_list_range_nat T fun i => if i = l then n else 0
    rw [hs, Finset.sum_ite_eq']
    simp [hl]
  · intro hn k
    rw [← heq]
    unfold layerMembership
    simp only [List.mem_flatMap, List.mem_range, List.mem_replicate]
    constructor
    · rintro ⟨a, ha, -, rfl⟩; exact ha
    · intro h; exact ⟨k, h, by omega, rfl⟩

/-! ## Labels -/

variable {d : Draws} {eta : ℝ} {first : List Nat} {T K n : Nat}

theorem copiedLabels_length (d : Draws) (eta : ℝ) (first : List Nat) (l : Nat) :
    (copiedLabels d eta first l).length = first.length := by cases l <;> simp [copiedLabels]

theorem labelVector_length (d : Draws) (eta : ℝ) (first : List Nat) (T : Nat) :
    (labelVector d eta first T).length = first.length * T := flatMap_length _ (copiedLabels_length d eta first) T

theorem labelVector_get {l v : Nat} (hl : l < T) (hv : v < first.length) :
    (labelVector d eta first T)[first.length * l + v]? = (copiedLabels d eta first l)[v]? :=
  flatMap_get _ (copiedLabels_length d eta first) T l v hl hv

/-- **C95.** The labels: `n T` of them; the first layer has the given ones; in every later layer a vertex has the label of
its copy in the layer before if its random number is below the copying probability, and its random label otherwise. -/
theorem c95_labels (d : Draws) (eta : ℝ) (first : List Nat) (T : Nat) :
    (labelVector d eta first T).length = first.length * T ∧
      (0 < T → ∀ v < first.length, ∀ k, LabelAt first.length (labelVector d eta first T) 0 v k ↔ first[v]? = some k) ∧
      ∀ l, l + 1 < T → ∀ v < first.length, ∀ k,
        (LabelAt first.length (labelVector d eta first T) (l + 1) v k ↔
          (d.copy (l + 1) v < eta ∧ LabelAt first.length (labelVector d eta first T) l v k) ∨
          (eta ≤ d.copy (l + 1) v ∧ k = d.label (l + 1) v)) := by
  refine ⟨labelVector_length d eta first T, ?_, ?_⟩
  · intro hT v hv k
    unfold LabelAt
    rw [labelVector_get hT hv]; rfl
  · intro l hl v hv k
    unfold LabelAt
    rw [labelVector_get hl hv, labelVector_get (by omega) hv]
    have hvl : v < (copiedLabels d eta first l).length := by rw [copiedLabels_length]; exact hv
    rw [copiedLabels]
    simp only [List.getElem?_map, List.getElem?_range hv, Option.map_some, Option.some.injEq]
    split_ifs with h
    · rw [List.getD_eq_getElem?_getD, List.getElem?_eq_getElem hvl]
      simp [h, not_le.mpr h]
    · simp [h, not_lt.mp h, eq_comm]

/-- the label of a vertex -/
theorem label_exists {l v : Nat} (hl : l < T) (hv : v < first.length) :
    ∃ k, LabelAt first.length (labelVector d eta first T) l v k := by
  unfold LabelAt
  have h : first.length * l + v < (labelVector d eta first T).length := by
    rw [labelVector_length]; exact index_lt hl hv
  exact ⟨_, List.getElem?_eq_getElem h⟩

/-- **C95.** All labels are among `0, …, K - 1`. -/
theorem c95_label_range (hd : RandomDraws d K) (hf : ∀ k ∈ first, k < K) : ∀ k ∈ labelVector d eta first T, k < K := by
  have key : ∀ l, l < T → ∀ v < first.length, ∀ k, LabelAt first.length (labelVector d eta first T) l v k → k < K := by
    intro l
    induction l with
    | zero =>
      intro hl v hv k hk
      exact hf k (List.mem_of_getElem? (((c95_labels d eta first T).2.1 hl v hv k).mp hk))
    | succ l ih =>
      intro hl v hv k hk
      rcases ((c95_labels d eta first T).2.2 l hl v hv k).mp hk with ⟨-, h⟩ | ⟨-, rfl⟩
      · exact ih (by omega) v hv k h
      · exact hd.label _ _
  intro k hk
  obtain ⟨i, hi, rfl⟩ := List.getElem_of_mem hk
  rw [labelVector_length] at hi
  obtain ⟨l, v, hl, hv, rfl⟩ := index_split hi
  exact key l hl v hv _ (by unfold LabelAt; exact List.getElem?_eq_getElem _)

/-- **C95.** With copying probability 1 all layers have the labels of the first. -/
theorem c95_full_copying (hd : RandomDraws d K) (heta : 1 ≤ eta) :
    ∀ l < T, ∀ v < first.length, ∀ k, LabelAt first.length (labelVector d eta first T) l v k ↔ first[v]? = some k := by
  intro l
  induction l with
  | zero => intro hl v hv k; exact (c95_labels d eta first T).2.1 hl v hv k
  | succ l ih =>
    intro hl v hv k
    rw [(c95_labels d eta first T).2.2 l hl v hv k, ih (by omega) v hv k]
    have := (hd.copy (l + 1) v).2
    constructor
    · rintro (⟨-, h⟩ | ⟨h, -⟩)
      · exact h
      · linarith
    · intro h; exact Or.inl ⟨by linarith, h⟩

/-- **C95.** With copying probability 0 the labels of the later layers are the random ones. -/
theorem c95_no_copying (hd : RandomDraws d K) (heta : eta ≤ 0) :
    ∀ l, l + 1 < T → ∀ v < first.length, ∀ k,
      LabelAt first.length (labelVector d eta first T) (l + 1) v k ↔ k = d.label (l + 1) v := by
  intro l hl v hv k
  rw [(c95_labels d eta first T).2.2 l hl v hv k]
  have := (hd.copy (l + 1) v).1
  constructor
  · rintro (⟨h, -⟩ | ⟨-, h⟩)
    · linarith
    · exact h
  · intro h; exact Or.inr ⟨by linarith, h⟩

/-! ## Edges -/

/-- **C95.** The intralayer edges: each pair of vertices at most once, never a loop, only inside a layer, and present exactly
if its random number is below `p_in` (same label) or `p_out` (different labels). -/
theorem c95_edges (layers comm : List Nat) (pIn pOut : ℝ) (draw : Nat → Nat → ℝ) :
    (∀ a b, (a, b) ∈ blockEdges layers comm pIn pOut draw ↔
      b < a ∧ a < comm.length ∧ layers[a]? = layers[b]? ∧
        ((comm[a]? = comm[b]? ∧ draw b a < pIn) ∨ (comm[a]? ≠ comm[b]? ∧ draw b a < pOut))) ∧
      (blockEdges layers comm pIn pOut draw).Nodup ∧
      ∀ a b, (a, b) ∈ blockEdges layers comm pIn pOut draw → (b, a) ∉ blockEdges layers comm pIn pOut draw := by
  have hmem : ∀ a b, (a, b) ∈ blockEdges layers comm pIn pOut draw ↔
      b < a ∧ a < comm.length ∧ layers[a]? = layers[b]? ∧
        ((comm[a]? = comm[b]? ∧ draw b a < pIn) ∨ (comm[a]? ≠ comm[b]? ∧ draw b a < pOut)) := by
    intro a b
    unfold blockEdges
    simp only [List.mem_flatMap, List.mem_range, List.mem_map, List.mem_filter, List.mem_range'_1, decide_eq_true_eq,
      Prod.mk.injEq]
    constructor
    · rintro ⟨v, hv, u, ⟨⟨h1, h2⟩, h3, h4⟩, rfl, rfl⟩
      refine ⟨by omega, by omega, h3.symm, ?_⟩
      split_ifs at h4 with h
      · exact Or.inl ⟨h.symm, h4⟩
      · exact Or.inr ⟨fun h' => h h'.symm, h4⟩
    · rintro ⟨h1, h2, h3, h4⟩
      refine ⟨b, by omega, a, ⟨⟨by omega, by omega⟩, h3.symm, ?_⟩, rfl, rfl⟩
      rcases h4 with ⟨h, h4⟩ | ⟨h, h4⟩
      · rw [if_pos h.symm]; exact h4
      · rw [if_neg fun h' => h h'.symm]; exact h4
  refine ⟨hmem, ?_, ?_⟩
  · unfold blockEdges
    rw [List.nodup_flatMap]
    refine ⟨fun v _ => ?_, ?_⟩
    · exact (((List.nodup_range' (step := 1)).filter _).map fun a b h => (Prod.mk.inj h).1)
    · refine List.Pairwise.imp_of_mem ?_ (List.nodup_range (n := comm.length))
      intro v w _ _ hvw
      rw [Function.onFun, List.disjoint_left]
      rintro ⟨a, b⟩ h1 h2
      obtain ⟨u, -, h1⟩ := List.mem_map.mp h1
      obtain ⟨u', -, h2⟩ := List.mem_map.mp h2
      exact hvw ((Prod.mk.inj h1).2.trans (Prod.mk.inj h2).2.symm)
  · intro a b h h'
    have := ((hmem a b).mp h).1
    have := ((hmem b a).mp h').1
    omega

/-- **C95.** With probabilities 1 inside and 0 between communities, the edges are exactly the pairs of one layer with the same
label; with equal probabilities the labels do not matter. -/
theorem c95_extremes {pIn pOut : ℝ} {draw : Nat → Nat → ℝ} (hd : ∀ v u, 0 ≤ draw v u ∧ draw v u < 1)
    (layers comm : List Nat) :
    (1 ≤ pIn → pOut ≤ 0 → ∀ a b, (a, b) ∈ blockEdges layers comm pIn pOut draw ↔
      b < a ∧ a < comm.length ∧ layers[a]? = layers[b]? ∧ comm[a]? = comm[b]?) ∧
    ∀ comm', comm'.length = comm.length → blockEdges layers comm pIn pIn draw = blockEdges layers comm' pIn pIn draw := by
  refine ⟨?_, ?_⟩
  · intro h1 h0 a b
    rw [(c95_edges layers comm pIn pOut draw).1]
    have := hd b a
    constructor
    · rintro ⟨h2, h3, h4, ⟨h, -⟩ | ⟨-, h⟩⟩
      · exact ⟨h2, h3, h4, h⟩
      · linarith
    · rintro ⟨h2, h3, h4, h⟩
      exact ⟨h2, h3, h4, Or.inl ⟨h, by linarith⟩⟩
  · intro comm' h
    unfold blockEdges
    rw [h]
    simp only [ite_self]

/-! ## Coupling -/

/-- **C95.** The coupling edges join every vertex to its copy in the next layer, once, and nothing else; with two or more
layers the coupling graph has all `n T` vertices. -/
theorem c95_coupling (n T : Nat) :
    (∀ a b, (a, b) ∈ (couplingGraph n T).edges ↔ ∃ l v, l + 1 < T ∧ v < n ∧ a = n * l + v ∧ b = n * (l + 1) + v) ∧
      (couplingGraph n T).edges.Nodup ∧ (couplingGraph n T).ecount = n * (T - 1) ∧ (couplingGraph n T).directed = true ∧
      (couplingGraph n T).WF ∧ (2 ≤ T → (couplingGraph n T).vcount = n * T) := by
  have hedges : (couplingGraph n T).edges = couplingEdges n T := rfl
  have hmem : ∀ a b, (a, b) ∈ couplingEdges n T ↔ ∃ l v, l + 1 < T ∧ v < n ∧ a = n * l + v ∧ b = n * (l + 1) + v := by
    intro a b
    unfold couplingEdges
    simp only [List.mem_flatMap, List.mem_range, List.mem_map, Prod.mk.injEq]
    constructor
    · rintro ⟨l, hl, v, hv, rfl, rfl⟩
      exact ⟨l, v, by omega, hv, rfl, by rw [Nat.mul_succ]; omega⟩
    · rintro ⟨l, v, hl, hv, rfl, rfl⟩
      exact ⟨l, by omega, v, hv, rfl, by rw [Nat.mul_succ]; omega⟩
  have hbound : ∀ e ∈ couplingEdges n T, e.1 < n * T ∧ e.2 < n * T := by
    rintro ⟨a, b⟩ he
    obtain ⟨l, v, hl, hv, rfl, rfl⟩ := (hmem a b).mp he
    exact ⟨index_lt (by omega) hv, index_lt hl hv⟩
  refine ⟨by rw [hedges]; exact hmem, ?_, ?_, rfl, ⟨?_, ?_⟩, ?_⟩
  · rw [hedges]
    unfold couplingEdges
    rw [List.nodup_flatMap]
    refine ⟨fun l _ => List.nodup_range.map fun a b h => by have := (Prod.mk.inj h).1; omega, ?_⟩
    refine List.Pairwise.imp_of_mem ?_ (List.nodup_range (n := T - 1))
    intro l m _ _ hlm
    rw [Function.onFun, List.disjoint_left]
    rintro ⟨a, b⟩ h1 h2
    obtain ⟨v, hv, h1⟩ := List.mem_map.mp h1
    obtain ⟨w, hw, h2⟩ := List.mem_map.mp h2
    rw [List.mem_range] at hv hw
    have h3 : n * l + v = n * m + w := (Prod.mk.inj h1).1.trans (Prod.mk.inj h2).1.symm
    have e1 : (n * l + v) / n = l := by rw [Nat.mul_add_div (by omega), Nat.div_eq_of_lt hv]; rfl
    have e2 : (n * m + w) / n = m := by rw [Nat.mul_add_div (by omega), Nat.div_eq_of_lt hw]; rfl
    exact hlm (by rw [← e1, h3, e2])
  · show (couplingEdges n T).length = _
    exact flatMap_length _ (by simp) (T - 1)
  · intro e he
    exact (graphOfEdges_vcount_le _ _).mp (le_refl (graphOfEdges (couplingEdges n T)).vcount) e he
  · intro ws h; cases h
  · intro hT
    rcases Nat.eq_zero_or_pos n with h0 | hn
    · subst h0
      have : (graphOfEdges (couplingEdges 0 T)).vcount ≤ 0 * T := (graphOfEdges_vcount_le _ _).mpr hbound
      show (graphOfEdges (couplingEdges 0 T)).vcount = 0 * T
      omega
    · apply le_antisymm ((graphOfEdges_vcount_le _ _).mpr hbound)
      have hlast : (n * (T - 2) + (n - 1), n * (T - 2 + 1) + (n - 1)) ∈ couplingEdges n T :=
        (hmem _ _).mpr ⟨T - 2, n - 1, by omega, by omega, rfl, rfl⟩
      have := ((graphOfEdges_vcount_le _ _).mp (le_refl (graphOfEdges (couplingEdges n T)).vcount) _ hlast).2
      have e : n * T = n * (T - 2 + 1) + n := by rw [← Nat.mul_succ]; congr 1; omega
      show n * T ≤ (graphOfEdges (couplingEdges n T)).vcount
      simp only at this
      omega

/-! ## The benchmark -/

/-- **C95.** The labels of the benchmark's first layer, if `K` divides `n`: `K` blocks of `n / K` vertices. -/
theorem c95_balanced (hK : 0 < K) (hn : 0 < n) (hKn : K ∣ n) :
    (balancedLabels n K).length = n ∧ Contiguous (balancedLabels n K) K ∧ ∀ k < K, (balancedLabels n K).count k = n / K := by
  have h : balancedLabels n K = layerVector (n / K) K := by
    unfold balancedLabels layerVector
    rw [Nat.div_mul_cancel hKn]
  have hm : 0 < n / K := Nat.div_pos (Nat.le_of_dvd hn hKn) hK
  obtain ⟨-, h2, -, h4, h5⟩ := c95_layers (n / K) K
  rw [h]
  exact ⟨by rw [h2, Nat.div_mul_cancel hKn], h5 hm, h4⟩

/-- The labels `0, …, K - 1` are used. -/
theorem labels_contiguous (hd : RandomDraws d K) (hf : Contiguous first K) (hT : 0 < T) :
    Contiguous (labelVector d eta first T) K := by
  intro k
  constructor
  · exact c95_label_range hd (fun k hk => (hf k).mp hk) k
  · intro hk
    obtain ⟨v, hv, hvk⟩ := List.getElem_of_mem ((hf k).mpr hk)
    have := ((c95_labels d eta first T).2.1 hT v hv k).mpr (by rw [List.getElem?_eq_getElem hv, hvk])
    exact List.mem_of_getElem? this

section Network
variable {comm : List Nat} {pIn pOut : ℝ} {draw : Nat → Nat → ℝ} {test : Graph ℝ → Bool} {fsolve : (ℝ → ℝ) → ℝ → ℝ}

theorem block_wf (layers comm : List Nat) (pIn pOut : ℝ) (draw : Nat → Nat → ℝ) :
    (graphOfEdges (blockEdges layers comm pIn pOut draw)).WF :=
  ⟨(graphOfEdges_vcount_le _ _).mp (le_refl _), by intro ws h; cases h⟩

/-- The vertex count is `n T` iff the last vertex has an edge. -/
theorem block_vcount (hc : comm.length = n * T) (hn : 0 < n * T) (layers : List Nat) :
    (graphOfEdges (blockEdges layers comm pIn pOut draw)).vcount = n * T ↔
      ∃ e ∈ blockEdges layers comm pIn pOut draw, e.1 = n * T - 1 := by
  have hmem := (c95_edges layers comm pIn pOut draw).1
  have hle : (graphOfEdges (blockEdges layers comm pIn pOut draw)).vcount ≤ n * T := by
    rw [graphOfEdges_vcount_le]
    rintro ⟨a, b⟩ he
    have := (hmem a b).mp he
    simp only
    omega
  constructor
  · intro h
    by_contra hno
    push Not at hno
    have : (graphOfEdges (blockEdges layers comm pIn pOut draw)).vcount ≤ n * T - 1 := by
      rw [graphOfEdges_vcount_le]
      rintro ⟨a, b⟩ he
      have h1 := (hmem a b).mp he
      have h2 := hno _ he
      simp only at h2 ⊢
      omega
    omega
  · rintro ⟨e, he, hel⟩
    have := (block_wf layers comm pIn pOut draw).1 e he
    omega

/-- **C95.** If the last vertex has an edge and every layer has one, the generated network is a temporal network in the sense
in which the estimates and the pruning are specified, with `n` vertices in each of `T` layers. -/
theorem c95_temporal (hc : comm.length = n * T) (hn : 0 < n) (hT : 2 ≤ T)
    (hlast : ∃ e ∈ blockEdges (layerVector n T) comm pIn pOut draw, e.1 = n * T - 1)
    (hlayer : ∀ t < T, ∃ e ∈ blockEdges (layerVector n T) comm pIn pOut draw, (layerVector n T)[e.1]? = some t) :
    TemporalNetwork (graphOfEdges (blockEdges (layerVector n T) comm pIn pOut draw)) (couplingGraph n T)
      (layerVector n T) T n := by
  have hpos : 0 < n * T := Nat.mul_pos hn (by omega)
  have hv := (block_vcount (pIn := pIn) (pOut := pOut) (draw := draw) hc hpos (layerVector n T)).mpr hlast
  obtain ⟨-, -, -, -, hX, hXv⟩ := c95_coupling n T
  obtain ⟨-, hL, -, -, hC⟩ := c95_layers n T
  exact { intra := block_wf _ _ _ _ _
          inter := hX
          vcount := by rw [hXv hT, hv]
          layers := by rw [hL, hv]
          noCross := Or.inr fun e he => (((c95_edges _ comm pIn pOut draw).1 e.1 e.2).mp he).2.2.1
          undirected := rfl
          ordered := rfl
          layersBelow := hC hn
          twoLayers := hT
          perLayer := by rw [hv, Nat.mul_div_cancel _ (by omega)]
          nonempty := hn
          edgeInLayer := hlayer }

theorem unweighted_counts {G : Graph ℝ} (ht : SaneTest test G) (hw : G.weight = none) : CountsAsUnweighted test G :=
  fun h => absurd hw (ht h)

theorem ones_counts (G : Graph ℝ) : CountsAsUnweighted test (withOnes G) := fun _ => rfl

/-- **C95.** If the last vertex has no edge, igraph's graph is too small and `gamma_omega_estimate` raises `ValueError`. -/
theorem c95_isolated (hc : comm.length = n * T) (hn : 0 < n) (hT : 0 < T)
    (hlast : ∀ e ∈ blockEdges (layerVector n T) comm pIn pOut draw, e.1 ≠ n * T - 1) (Gx : Graph ℝ) (ωmax : ℝ)
    (model : String) :
    gammaOmegaEstimate test fsolve (graphOfEdges (blockEdges (layerVector n T) comm pIn pOut draw)) Gx (layerVector n T) comm
      ωmax model = .error (.valueError "Membership vector has incorrect size.") := by
  have hpos : 0 < n * T := Nat.mul_pos hn hT
  have hv := mt (block_vcount (pIn := pIn) (pOut := pOut) (draw := draw) hc hpos (layerVector n T)).mp
    (by rintro ⟨e, he, h⟩; exact hlast e he h)
  have hcl : countLayers (layerVector n T) = .ok (T - 1 + 1) := by
    unfold countLayers
    rw [contiguous_max ((c95_layers n T).2.2.2.2 hn) hT]
  rw [gammaOmegaEstimate_def, hcl, Py.ok_bind]
  unfold leidenPartWithMembership
  rw [if_neg (by rw [hc]; exact fun h => hv h.symm), Py.error_bind]

/-- **C95.** If the last vertex has an edge but some layer has none, `gamma_omega_estimate` raises `ZeroDivisionError`. -/
theorem c95_empty_layer (hc : comm.length = n * T) (hn : 0 < n) (hT : 0 < T)
    (hlast : ∃ e ∈ blockEdges (layerVector n T) comm pIn pOut draw, e.1 = n * T - 1) {t : Nat} (ht : t < T)
    (hempty : ∀ e ∈ blockEdges (layerVector n T) comm pIn pOut draw, (layerVector n T)[e.1]? ≠ some t) (Gx : Graph ℝ)
    (htest : SaneTest test (graphOfEdges (blockEdges (layerVector n T) comm pIn pOut draw))) (ωmax : ℝ) (model : String) :
    gammaOmegaEstimate test fsolve (graphOfEdges (blockEdges (layerVector n T) comm pIn pOut draw)) Gx (layerVector n T) comm
      ωmax model = .error .zeroDivisionError := by
  have hpos : 0 < n * T := Nat.mul_pos hn hT
  have hv := (block_vcount (pIn := pIn) (pOut := pOut) (draw := draw) hc hpos (layerVector n T)).mpr hlast
  have hC := (c95_layers n T).2.2.2.2 hn
  have hcl : countLayers (layerVector n T) = .ok T := by
    unfold countLayers
    rw [contiguous_max hC hT]
    show Except.ok (T - 1 + 1) = Except.ok T
    rw [Nat.sub_add_cancel hT]
  have hne : 0 < (graphOfEdges (blockEdges (layerVector n T) comm pIn pOut draw)).ecount := by
    obtain ⟨e, he, -⟩ := hlast
    exact List.length_pos_of_mem he
  rw [gammaOmegaEstimate_def, hcl, Py.ok_bind]
  unfold leidenPartWithMembership
  rw [if_pos (by rw [hc, hv]), Py.ok_bind, ensure_unweighted (unweighted_counts htest rfl) (Or.inl hne), Py.ok_bind,
    estimateMultilayerSBM_countLayers _ _ _ _ _ _ hcl,
    c28_empty_layer fsolve (Gi := withOnes (graphOfEdges (blockEdges (layerVector n T) comm pIn pOut draw)))
      (ws := List.replicate (blockEdges (layerVector n T) comm pIn pOut draw).length 1)
      ⟨(block_wf _ _ _ _ _).1, by
        intro ws h
        obtain rfl := Option.some.inj h
        exact List.length_replicate⟩ (by show (layerVector n T).length = _; rw [layerVector_length]; exact hv.symm)
      rfl hC ht hempty (by rw [hc]; exact hv.symm) model, Py.error_bind]

/-- On a temporal network the estimates of labels `0, …, K - 1` are those of the canonical labels. -/
theorem estimates_contiguous {Gi Gx : Graph ℝ} {layer : List Nat} {N : Nat} (hG : TemporalNetwork Gi Gx layer T N)
    (hw : CountsAsUnweighted test Gi) {c : List Nat} (hc : c.length = Gi.vcount) (hK : Contiguous c K) (ωmax : ℝ) :
    gammaOmegaEstimate test fsolve Gi Gx layer c ωmax "temporal" =
      gammaOmegaEstimate test fsolve Gi Gx layer (canon c) ωmax "temporal" := by
  rw [estimates_eq hG hw hc, c69_temporal_estimates hG fsolve hw hc hK, contiguous_dedup hK]

theorem TemporalNetwork_withOnes {Gi Gx : Graph ℝ} {layer : List Nat} {N : Nat} (hG : TemporalNetwork Gi Gx layer T N) :
    TemporalNetwork (withOnes Gi) Gx layer T N :=
  { intra := ⟨hG.intra.1, by
      intro ws h
      obtain rfl := Option.some.inj h
      exact List.length_replicate⟩
    inter := hG.inter
    vcount := hG.vcount
    layers := hG.layers
    noCross := hG.noCross
    undirected := hG.undirected
    ordered := hG.ordered
    layersBelow := hG.layersBelow
    twoLayers := hG.twoLayers
    perLayer := hG.perLayer
    nonempty := hG.nonempty
    edgeInLayer := hG.edgeInLayer }

end Network

section Benchmark
variable {test : Graph ℝ → Bool} {fsolve : (ℝ → ℝ) → ℝ → ℝ} {ε γ₀ ω₀ : ℝ}

open Classical in
/-- One attempt, with the probabilities, labels and edges in view. -/
theorem attempt_eq (hK : 0 < K) (hn : 0 < n) (hKn : K ∣ n) (hε : 0 ≤ ε) (γ₀ ω₀ : ℝ) (d : Draws) :
    syntheticAttempt test fsolve n T K eta ε γ₀ ω₀ d = (do
      let r ← gammaOmegaEstimate test fsolve (graphOfEdges (benchmarkEdges n T K eta ε d)) (couplingGraph n T)
        (layerVector n T) (labelVector d eta (balancedLabels n K) T) defaultOmegaMax "temporal"
      match r.1.1 with
      | none => .error .typeError
      | some (.fin γ) =>
        if |γ - γ₀| < 5 / 1000 ∧ |r.1.2 - ω₀| < 5 / 1000 then
          return some (r.2, couplingGraph n T, layerVector n T, labelVector d eta (balancedLabels n K) T)
        else return none
      | some _ => return none) := by
  obtain ⟨-, hcon, hcnt⟩ := c95_balanced hK hn hKn
  unfold syntheticAttempt pyDiv
  rw [if_neg (by linarith), Py.ok_bind]
  dsimp only
  rw [if_neg]
  · rfl
  · rw [not_not]
    intro k hk
    rw [hcnt k ((hcon k).mp hk), hcnt 0 hK]

/-- the labels of the benchmark -/
theorem benchmark_labels (hK : 0 < K) (hn : 0 < n) (hKn : K ∣ n) (hT : 0 < T) (hd : RandomDraws d K) :
    (labelVector d eta (balancedLabels n K) T).length = n * T ∧ Contiguous (labelVector d eta (balancedLabels n K) T) K := by
  obtain ⟨h1, h2, -⟩ := c95_balanced hK hn hKn
  exact ⟨by rw [labelVector_length, h1], labels_contiguous hd h2 hT⟩

/-- **C95.** On a network without the two defects, the attempt is accepted iff the ground truth has estimates, both within
0.005 of the wanted ones. -/
theorem c95_accepts (hK : 0 < K) (hn : 0 < n) (hKn : K ∣ n) (hT : 2 ≤ T) (hε : 0 ≤ ε) (hd : RandomDraws d K)
    (htest : SaneTest test (graphOfEdges (benchmarkEdges n T K eta ε d)))
    (hlast : ∃ e ∈ benchmarkEdges n T K eta ε d, e.1 = n * T - 1)
    (hlayer : ∀ t < T, ∃ e ∈ benchmarkEdges n T K eta ε d, (layerVector n T)[e.1]? = some t)
    (r : Graph ℝ × Graph ℝ × List Nat × List Nat) :
    syntheticAttempt test fsolve n T K eta ε γ₀ ω₀ d = .ok (some r) ↔
      r = (withOnes (graphOfEdges (benchmarkEdges n T K eta ε d)), couplingGraph n T, layerVector n T,
        labelVector d eta (balancedLabels n K) T) ∧
      ∃ γ ω, HasEstimates test fsolve (graphOfEdges (benchmarkEdges n T K eta ε d)) (couplingGraph n T) (layerVector n T)
        "temporal" (labelVector d eta (balancedLabels n K) T) γ ω ∧ |γ - γ₀| < 5 / 1000 ∧ |ω - ω₀| < 5 / 1000 := by
  obtain ⟨hlen, hcon⟩ := benchmark_labels (eta := eta) hK hn hKn (by omega : 0 < T) hd
  have hG : TemporalNetwork (graphOfEdges (benchmarkEdges n T K eta ε d)) (couplingGraph n T) (layerVector n T) T n :=
    c95_temporal hlen hn hT hlast hlayer
  have hw : CountsAsUnweighted test (graphOfEdges (benchmarkEdges n T K eta ε d)) := unweighted_counts htest rfl
  have hlen' : (labelVector d eta (balancedLabels n K) T).length =
      (graphOfEdges (benchmarkEdges n T K eta ε d)).vcount := by
    rw [← hG.layers, layerVector_length, hlen]
  rw [attempt_eq hK hn hKn hε]
  have hest := estimates_contiguous (fsolve := fsolve) hG hw hlen' hcon defaultOmegaMax
  constructor
  · intro h
    obtain ⟨⟨⟨g, ω⟩, G'⟩, h1, h⟩ := Py.bind_ok' h
    have hG' : G' = withOnes (graphOfEdges (benchmarkEdges n T K eta ε d)) := by
      have := Verif.gammaOmegaEstimate_graph h1
      rw [ensure_unweighted hw (by
        obtain ⟨e, he, -⟩ := hlast
        exact Or.inl (List.length_pos_of_mem he))] at this
      exact (Except.ok.inj this).symm
    dsimp only at h
    split at h
    · cases h
    · rename_i γ
      split at h
      · rename_i htol
        refine ⟨?_, γ, ω, ⟨_, G', sortedTuple_eq _, ?_⟩, htol⟩
        · rw [← Option.some.inj (Except.ok.inj h), hG']
        · rw [← hest]; exact h1
      · cases h
    · cases h
  · rintro ⟨rfl, γ, ω, ⟨c, G', hc, h1⟩, htol⟩
    rw [sortedTuple_eq] at hc
    obtain rfl := Except.ok.inj hc
    rw [← hest] at h1
    have hG' : G' = withOnes (graphOfEdges (benchmarkEdges n T K eta ε d)) := by
      have := Verif.gammaOmegaEstimate_graph h1
      rw [ensure_unweighted hw (by
        obtain ⟨e, he, -⟩ := hlast
        exact Or.inl (List.length_pos_of_mem he))] at this
      exact (Except.ok.inj this).symm
    rw [h1, Py.ok_bind]
    dsimp only
    rw [if_pos htol, hG']
    rfl

/-- An attempt that raises no exception made a network without the two defects. -/
theorem attempt_ok (hK : 0 < K) (hn : 0 < n) (hKn : K ∣ n) (hT : 2 ≤ T) (hε : 0 ≤ ε) (hd : RandomDraws d K)
    (htest : SaneTest test (graphOfEdges (benchmarkEdges n T K eta ε d)))
    {r : Option (Graph ℝ × Graph ℝ × List Nat × List Nat)}
    (h : syntheticAttempt test fsolve n T K eta ε γ₀ ω₀ d = .ok r) :
    (∃ e ∈ benchmarkEdges n T K eta ε d, e.1 = n * T - 1) ∧
      ∀ t < T, ∃ e ∈ benchmarkEdges n T K eta ε d, (layerVector n T)[e.1]? = some t := by
  obtain ⟨hlen, -⟩ := benchmark_labels (eta := eta) hK hn hKn (by omega : 0 < T) hd
  rw [attempt_eq hK hn hKn hε] at h
  have hlast : ∃ e ∈ benchmarkEdges n T K eta ε d, e.1 = n * T - 1 := by
    by_contra hno
    push Not at hno
    unfold benchmarkEdges at h hno
    rw [c95_isolated hlen hn (by omega) hno] at h
    cases h
  refine ⟨hlast, ?_⟩
  by_contra hno
  push Not at hno
  obtain ⟨t, ht, hno⟩ := hno
  unfold benchmarkEdges at h hno hlast htest
  rw [c95_empty_layer hlen hn (by omega) hlast ht hno _ htest] at h
  cases h

/-- **C95.** What `generate_synthetic_network` returns: the ground truth uses the labels `0, …, K - 1`, starts with `K` blocks of
equal size, the network is a temporal network with `n` vertices per layer, and the estimates of the ground truth — which exist —
are within 0.005 of the wanted ones. -/
theorem c95_benchmark (hK : 0 < K) (hn : 0 < n) (hKn : K ∣ n) (hT : 2 ≤ T) (hε : 0 ≤ ε)
    (htest : ∀ G : Graph ℝ, G.weight = none → test G = false) {draws : Nat → Draws} (hd : ∀ k, RandomDraws (draws k) K)
    {k fuel : Nat} {Gi Gx : Graph ℝ} {layers comm : List Nat}
    (h : syntheticNetwork (syntheticAttempt test fsolve n T K eta ε γ₀ ω₀) draws k fuel =
      some (.ok (Gi, Gx, layers, comm))) :
    TemporalNetwork Gi Gx layers T n ∧ UnitWeights Gi ∧ Gi.edges.Nodup ∧ comm.length = Gi.vcount ∧ Contiguous comm K ∧
      (∀ l < T, layers.count l = n) ∧ (∀ v < n, ∀ c, LabelAt n comm 0 v c ↔ c = v / (n / K)) ∧
      (∀ a b, (a, b) ∈ Gx.edges ↔ ∃ l v, l + 1 < T ∧ v < n ∧ a = n * l + v ∧ b = n * (l + 1) + v) ∧
      ∃ γ ω, HasEstimates test fsolve Gi Gx layers "temporal" comm γ ω ∧ |γ - γ₀| < 5 / 1000 ∧ |ω - ω₀| < 5 / 1000 := by
  have hsane : ∀ G : Graph ℝ, SaneTest test G := fun G h hw => by rw [htest G hw] at h; cases h
  induction fuel generalizing k with
  | zero => cases h
  | succ fuel ih =>
    rw [syntheticNetwork] at h
    split at h
    · cases h
    · rename_i r hr
      obtain rfl := Except.ok.inj (Option.some.inj h)
      obtain ⟨hlast, hlayer⟩ := attempt_ok hK hn hKn hT hε (hd k) (hsane _) hr
      obtain ⟨hrr, γ, ω, hest, htol⟩ := (c95_accepts hK hn hKn hT hε (hd k) (hsane _) hlast hlayer _).mp hr
      simp only [Prod.mk.injEq] at hrr
      obtain ⟨rfl, rfl, rfl, rfl⟩ := hrr
      obtain ⟨hlen, hcon⟩ := benchmark_labels (eta := eta) hK hn hKn (by omega : 0 < T) (hd k)
      have hG : TemporalNetwork (graphOfEdges (benchmarkEdges n T K eta ε (draws k))) (couplingGraph n T) (layerVector n T) T n :=
        c95_temporal hlen hn hT hlast hlayer
      have hlen' : (labelVector (draws k) eta (balancedLabels n K) T).length =
          (graphOfEdges (benchmarkEdges n T K eta ε (draws k))).vcount := by
        rw [← hG.layers, layerVector_length, hlen]
      refine ⟨TemporalNetwork_withOnes hG, rfl, (c95_edges _ _ _ _ _).2.1, hlen', hcon, (c95_layers n T).2.2.2.1, ?_,
        (c95_coupling n T).1, γ, ω, ?_, htol⟩
      · intro v hv c
        have hfirst := (c95_balanced hK hn hKn).1
        have := (c95_labels (draws k) eta (balancedLabels n K) T).2.1 (by omega) v (by omega) c
        rw [hfirst] at this
        rw [this]
        unfold balancedLabels
        simp [hv, eq_comm]
      · rw [c69_has_estimates hG (unweighted_counts (hsane _) rfl) hlen'] at hest
        rw [c69_has_estimates (TemporalNetwork_withOnes hG) (ones_counts _) hlen']
        exact hest
    · exact ih h

/-- **C95.** The generator makes a fresh attempt, with fresh random numbers, for as long as attempts are rejected, and its result
(or exception) is that of the first attempt that is not. -/
theorem c95_rounds {attempt : Draws → Py (Option (Graph ℝ × Graph ℝ × List Nat × List Nat))} {draws : Nat → Draws} {k fuel : Nat}
    {r : Py (Graph ℝ × Graph ℝ × List Nat × List Nat)} :
    syntheticNetwork attempt draws k fuel = some r ↔
      ∃ i < fuel, (∀ j < i, attempt (draws (k + j)) = .ok none) ∧ attempt (draws (k + i)) = r.map some := by
  induction fuel generalizing k with
  | zero => simp [syntheticNetwork]
  | succ fuel ih =>
    rw [syntheticNetwork]
    have hstop : ∀ x, attempt (draws k) = x → x ≠ .ok none →
        ((∃ i < fuel + 1, (∀ j < i, attempt (draws (k + j)) = .ok none) ∧ attempt (draws (k + i)) = r.map some) ↔
          x = r.map some) := by
      intro x hx hne
      constructor
      · rintro ⟨i, -, h1, h2⟩
        cases i with
        | zero => rw [← hx]; exact h2
        | succ i => exact absurd (hx ▸ h1 0 (by omega)) hne
      · intro h
        exact ⟨0, by omega, fun j hj => absurd hj (by omega), by rw [Nat.add_zero, hx]; exact h⟩
    split
    · rename_i e he
      rw [hstop _ he (by simp)]
      cases r with
      | error e' => simp [Except.map]
      | ok v => simp [Except.map]
    · rename_i v he
      rw [hstop _ he (by simp)]
      cases r with
      | error e' => simp [Except.map]
      | ok v => simp [Except.map]
    · rename_i he
      rw [ih]
      constructor
      · rintro ⟨i, hi, h1, h2⟩
        refine ⟨i + 1, by omega, ?_, by rw [← h2]; congr 2; omega⟩
        intro j hj
        cases j with
        | zero => exact he
        | succ j => rw [← h1 j (by omega)]; congr 2; omega
      · rintro ⟨i, hi, h1, h2⟩
        cases i with
        | zero =>
          rw [Nat.add_zero, he] at h2
          cases r <;> simp [Except.map] at h2
        | succ i =>
          refine ⟨i, by omega, fun j hj => ?_, by rw [← h2]; congr 2; omega⟩
          rw [← h1 (j + 1) (by omega)]; congr 2; omega

/-- **C95 (finding).** An attempt whose last vertex gets no edge does not lead to another attempt: `ValueError`. -/
theorem c95_aborts (hK : 0 < K) (hn : 0 < n) (hKn : K ∣ n) (hT : 2 ≤ T) (hε : 0 ≤ ε) {draws : Nat → Draws} {k fuel : Nat}
    (hd : RandomDraws (draws k) K) (hlast : ∀ e ∈ benchmarkEdges n T K eta ε (draws k), e.1 ≠ n * T - 1) :
    syntheticNetwork (syntheticAttempt test fsolve n T K eta ε γ₀ ω₀) draws k (fuel + 1) =
      some (.error (.valueError "Membership vector has incorrect size.")) := by
  obtain ⟨hlen, -⟩ := benchmark_labels (eta := eta) hK hn hKn (by omega : 0 < T) hd
  have : syntheticAttempt test fsolve n T K eta ε γ₀ ω₀ (draws k) =
      .error (.valueError "Membership vector has incorrect size.") := by
    rw [attempt_eq hK hn hKn hε]
    unfold benchmarkEdges at hlast ⊢
    rw [c95_isolated hlen hn (by omega) hlast, Py.error_bind]
  rw [syntheticNetwork, this]

/-- **C95 (finding).** With `epsilon = 0` (no edges between communities) the ground truth never has a gamma estimate, and the
generator raises an exception at the first attempt. -/
theorem c95_zero_epsilon (hK : 0 < K) (hn : 0 < n) (hKn : K ∣ n) (hT : 2 ≤ T) {draws : Nat → Draws} {k fuel : Nat}
    (hd : RandomDraws (draws k) K) (htest : SaneTest test (graphOfEdges (benchmarkEdges n T K eta 0 (draws k)))) :
    ∃ e, syntheticNetwork (syntheticAttempt test fsolve n T K eta 0 γ₀ ω₀) draws k (fuel + 1) = some (.error e) := by
  have key : ∃ e, syntheticAttempt test fsolve n T K eta 0 γ₀ ω₀ (draws k) = .error e := by
    cases hr : syntheticAttempt test fsolve n T K eta 0 γ₀ ω₀ (draws k) with
    | error e => exact ⟨e, rfl⟩
    | ok r =>
      exfalso
      obtain ⟨hlast, hlayer⟩ := attempt_ok hK hn hKn hT le_rfl hd htest hr
      obtain ⟨hlen, hcon⟩ := benchmark_labels (eta := eta) hK hn hKn (by omega : 0 < T) hd
      have hG : TemporalNetwork (graphOfEdges (benchmarkEdges n T K eta 0 (draws k))) (couplingGraph n T) (layerVector n T) T n :=
        c95_temporal hlen hn hT hlast hlayer
      have hlen' : (labelVector (draws k) eta (balancedLabels n K) T).length =
          (graphOfEdges (benchmarkEdges n T K eta 0 (draws k))).vcount := by
        rw [← hG.layers, layerVector_length, hlen]
      have hA : withinAdj (graphOfEdges (benchmarkEdges n T K eta 0 (draws k)))
          (labelVector (draws k) eta (balancedLabels n K) T) =
          2 * ((graphOfEdges (benchmarkEdges n T K eta 0 (draws k))).ecount : ℝ) := by
        rw [withinAdj_undirected hG.intra hG.undirected hlen']
        congr 2
        unfold insideCount Graph.ecount
        rw [List.countP_eq_length]
        intro e he
        have := ((c95_edges _ _ _ _ _).1 e.1 e.2).mp he
        have h0 := hd.edge e.2 e.1
        rcases this.2.2.2 with ⟨h, -⟩ | ⟨-, h⟩
        · simpa using h
        · linarith
      rw [attempt_eq hK hn hKn le_rfl, c69_temporal_estimates hG fsolve (unweighted_counts htest rfl) hlen' hcon, hA] at hr
      have hnone : gammaFromParameters (affinities (2 * ((graphOfEdges (benchmarkEdges n T K eta 0 (draws k))).ecount : ℝ))
          (withinNullLayered (graphOfEdges (benchmarkEdges n T K eta 0 (draws k))) (layerVector n T)
            (labelVector (draws k) eta (balancedLabels n K) T))
          (2 * ((graphOfEdges (benchmarkEdges n T K eta 0 (draws k))).ecount : ℝ))).1
          (affinities (2 * ((graphOfEdges (benchmarkEdges n T K eta 0 (draws k))).ecount : ℝ))
          (withinNullLayered (graphOfEdges (benchmarkEdges n T K eta 0 (draws k))) (layerVector n T)
            (labelVector (draws k) eta (balancedLabels n K) T))
          (2 * ((graphOfEdges (benchmarkEdges n T K eta 0 (draws k))).ecount : ℝ))).2 = none := by
        unfold gammaFromParameters
        rw [if_pos]
        right
        unfold affinities
        simp
      rw [hnone] at hr
      obtain ⟨x, hx, hr⟩ := Py.bind_ok' hr
      cases hω : temporalOmega (affinities (2 * ((graphOfEdges (benchmarkEdges n T K eta 0 (draws k))).ecount : ℝ))
          (withinNullLayered (graphOfEdges (benchmarkEdges n T K eta 0 (draws k))) (layerVector n T)
            (labelVector (draws k) eta (balancedLabels n K) T))
          (2 * ((graphOfEdges (benchmarkEdges n T K eta 0 (draws k))).ecount : ℝ))).1
          (affinities (2 * ((graphOfEdges (benchmarkEdges n T K eta 0 (draws k))).ecount : ℝ))
          (withinNullLayered (graphOfEdges (benchmarkEdges n T K eta 0 (draws k))) (layerVector n T)
            (labelVector (draws k) eta (balancedLabels n K) T))
          (2 * ((graphOfEdges (benchmarkEdges n T K eta 0 (draws k))).ecount : ℝ))).2
          (copying K (withinAdj (couplingGraph n T) (labelVector (draws k) eta (balancedLabels n K) T)) n T) K
          defaultOmegaMax with
      | error e => rw [hω] at hx; cases hx
      | ok ω =>
        rw [hω] at hx
        obtain rfl := Except.ok.inj hx
        cases hr
  obtain ⟨e, he⟩ := key
  exact ⟨e, by rw [syntheticNetwork, he]⟩

/-- **C95 (finding).** With copying probability 1 all coupling edges stay inside communities and the omega estimate of the ground
truth is the cut-off 1000: no attempt is accepted unless 1000 is the wanted value. -/
theorem c95_full_copying_rejected (hK : 0 < K) (hn : 0 < n) (hKn : K ∣ n) (hT : 2 ≤ T) (hε : 0 ≤ ε) (heta : 1 ≤ eta)
    (hω₀ : 5 / 1000 ≤ |1000 - ω₀|) (htest : ∀ G : Graph ℝ, G.weight = none → test G = false) {draws : Nat → Draws}
    (hd : ∀ k, RandomDraws (draws k) K) (k fuel : Nat) (r : Graph ℝ × Graph ℝ × List Nat × List Nat) :
    syntheticNetwork (syntheticAttempt test fsolve n T K eta ε γ₀ ω₀) draws k fuel ≠ some (.ok r) := by
  have hsane : ∀ G : Graph ℝ, SaneTest test G := fun G h hw => by rw [htest G hw] at h; cases h
  induction fuel generalizing k with
  | zero => intro h; cases h
  | succ fuel ih =>
    intro h
    rw [syntheticNetwork] at h
    split at h
    · cases h
    · rename_i r' hr
      obtain ⟨hlast, hlayer⟩ := attempt_ok hK hn hKn hT hε (hd k) (hsane _) hr
      obtain ⟨hrr, γ, ω, hest, -, htol⟩ := (c95_accepts hK hn hKn hT hε (hd k) (hsane _) hlast hlayer _).mp hr
      obtain ⟨hlen, hcon⟩ := benchmark_labels (eta := eta) hK hn hKn (by omega : 0 < T) (hd k)
      have hG : TemporalNetwork (graphOfEdges (benchmarkEdges n T K eta ε (draws k))) (couplingGraph n T) (layerVector n T) T n :=
        c95_temporal hlen hn hT hlast hlayer
      have hlen' : (labelVector (draws k) eta (balancedLabels n K) T).length =
          (graphOfEdges (benchmarkEdges n T K eta ε (draws k))).vcount := by
        rw [← hG.layers, layerVector_length, hlen]
      rw [c69_has_estimates hG (unweighted_counts (hsane _) rfl) hlen'] at hest
      obtain ⟨-, -, -, -, -, rfl⟩ := hest
      have hC : withinAdj (couplingGraph n T) (labelVector (draws k) eta (balancedLabels n K) T) = ((n * (T - 1) : Nat) : ℝ) := by
        rw [withinAdj_directed_count hG.inter rfl (hlen'.trans hG.vcount.symm)]
        congr 1
        rw [← (c95_coupling n T).2.2.1]
        unfold insideCount Graph.ecount
        rw [List.countP_eq_length]
        rintro ⟨a, b⟩ he
        obtain ⟨l, v, hl, hv, rfl, rfl⟩ := ((c95_coupling n T).1 a b).mp he
        have hf := (c95_balanced hK hn hKn).1
        have hcopy := c95_full_copying (T := T) (first := balancedLabels n K) (hd k) heta
        rw [hf] at hcopy
        have hv' : v < (balancedLabels n K).length := by omega
        have e1 := (hcopy l (by omega) v hv _).mpr (List.getElem?_eq_getElem hv')
        have e2 := (hcopy (l + 1) hl v hv _).mpr (List.getElem?_eq_getElem hv')
        unfold LabelAt at e1 e2
        simp only [decide_eq_true_eq]
        rw [e1, e2]
      have hq : copying (labelVector (draws k) eta (balancedLabels n K) T).dedup.length
          (withinAdj (couplingGraph n T) (labelVector (draws k) eta (balancedLabels n K) T)) n T = 1 := by
        unfold copying
        rw [if_neg]
        rintro ⟨h, -⟩
        rw [hC] at h
        push_cast [Nat.cast_sub (by omega : 1 ≤ T)] at h
        exact lt_irrefl _ h
      rw [hq] at htol
      unfold temporalCoupling at htol
      rw [if_neg one_ne_zero, if_pos rfl] at htol
      linarith
    · exact ih _ h

end Benchmark

/-! ## The networks and partitions of the tests -/

/-- **C95.** `generate_connected_multilayer_ER`: the random graph's edges are divided, without loss, into those inside a layer and
those between layers; the result is a multilayer network with `n` vertices in each of `T` layers. -/
theorem c95_split {G : Graph ℝ} (hG : G.WF) (hv : G.vcount = n * T) :
    ∃ Gi Gx, splitByLayer G n T = .ok (Gi, Gx, layerVector n T) ∧ Multilayer Gi Gx (layerVector n T) ∧
      Gi.vcount = n * T ∧ Gi.directed = G.directed ∧ Gx.directed = G.directed ∧ (Gi.edges ++ Gx.edges).Perm G.edges ∧
      (∀ e ∈ Gi.edges, e.1 / n = e.2 / n) ∧ ∀ e ∈ Gx.edges, e.1 / n ≠ e.2 / n := by
  have hlay : ∀ i < n * T, (layerVector n T)[i]? = some (i / n) := fun i hi => layerVector_get hi
  have hmap : ∀ es : List (Nat × Nat), (∀ e ∈ es, e.1 < n * T ∧ e.2 < n * T) →
      (es.mapM fun e => do
        let a ← pyGet (layerVector n T) e.1
        let b ← pyGet (layerVector n T) e.2
        return decide (a = b) : Py (List Bool)) = .ok (es.map fun e => decide (e.1 / n = e.2 / n)) := by
    intro es hes
    apply mapM_ok
    intro e he
    unfold pyGet
    rw [hlay _ (hes e he).1, hlay _ (hes e he).2]
    rfl
  have hb : ∀ e ∈ G.edges, e.1 < n * T ∧ e.2 < n * T := fun e he => hv ▸ hG.1 e he
  have hzip : ∀ (es : List (Nat × Nat)) (f : Nat × Nat → Bool) (g : Bool → Bool),
      ((es.zip (es.map f)).filter fun x => g x.2).map Prod.fst = es.filter fun e => g (f e) := by
    intro es f g
    induction es with
    | nil => rfl
    | cons e es ih =>
      simp only [List.map_cons, List.zip_cons_cons, List.filter_cons]
      split_ifs with h
      · rw [List.map_cons, ih]
      · exact ih
  have hnew : ∀ p : Nat × Nat → Bool, newGraph (F := ℝ) (n * T) (G.edges.filter p) G.directed =
      .ok ⟨n * T, G.directed, G.edges.filter p, none⟩ := by
    intro p
    unfold newGraph
    rw [if_pos]
    rw [List.all_eq_true]
    intro e he
    simpa using hb e (List.mem_of_mem_filter he)
  refine ⟨⟨n * T, G.directed, G.edges.filter fun e => decide (e.1 / n = e.2 / n), none⟩,
    ⟨n * T, G.directed, G.edges.filter fun e => !decide (e.1 / n = e.2 / n), none⟩, ?_, ?_, rfl, rfl, rfl, ?_, ?_, ?_⟩
  · unfold splitByLayer
    dsimp only
    rw [hmap _ hb, Py.ok_bind]
    rw [hzip G.edges _ fun b => b, hzip G.edges _ fun b => !b, hnew, Py.ok_bind, hnew, Py.ok_bind]
    rfl
  · refine ⟨⟨fun e he => hb e (List.mem_of_mem_filter he), by intro ws h; cases h⟩,
      ⟨fun e he => hb e (List.mem_of_mem_filter he), by intro ws h; cases h⟩, rfl, layerVector_length n T, Or.inr ?_⟩
    intro e he
    have := hb e (List.mem_of_mem_filter he)
    rw [hlay _ this.1, hlay _ this.2]
    simpa using (List.mem_filter.mp he).2
  · exact List.filter_append_perm _ _
  · intro e he; simpa using (List.mem_filter.mp he).2
  · intro e he; simpa using (List.mem_filter.mp he).2

/-- **C95.** `generate_random_partition`: what is returned is one of the random tuples and uses exactly the labels
`0, …, K - 1`. -/
theorem c95_random_partition {draws : Nat → List Nat} (hd : ∀ k, ∀ x ∈ draws k, x < K) {k fuel : Nat} {p : List Nat}
    (h : randomPartition K draws k fuel = some p) : (∃ j, p = draws j) ∧ Contiguous p K := by
  induction fuel generalizing k with
  | zero => cases h
  | succ fuel ih =>
    rw [randomPartition] at h
    split at h
    · rename_i hK
      obtain rfl := Option.some.inj h
      refine ⟨⟨k, rfl⟩, ?_⟩
      intro x
      refine ⟨hd k x, fun hx => ?_⟩
      have hsub : (draws k).dedup ⊆ List.range K := by
        intro y hy
        exact List.mem_range.mpr (hd k y (List.mem_dedup.mp hy))
      have hperm : (draws k).dedup.Perm (List.range K) :=
        (List.subperm_of_subset (List.nodup_dedup _) hsub).perm_of_length_le (by rw [List.length_range, hK])
      exact List.mem_dedup.mp (hperm.mem_iff.mpr (List.mem_range.mpr hx))
    · exact ih h

/-- **C95.** If some tuple uses all `K` labels the loop ends with the first such tuple; with fewer vertices than communities it
never ends. -/
theorem c95_random_partition_returns (draws : Nat → List Nat) (K k : Nat) :
    (∀ j, (draws (k + j)).dedup.length = K → (∀ i < j, (draws (k + i)).dedup.length ≠ K) →
      randomPartition K draws k (j + 1) = some (draws (k + j))) ∧
    ((∀ j, (draws j).length < K) → ∀ fuel, randomPartition K draws k fuel = none) := by
  refine ⟨?_, ?_⟩
  · intro j
    induction j generalizing k with
    | zero => intro h _; rw [randomPartition, if_pos (by simpa using h)]; rfl
    | succ j ih =>
      intro h hb
      rw [randomPartition, if_neg (by simpa using hb 0 (by omega)), ih (k + 1) (by rwa [Nat.add_right_comm, Nat.add_assoc] at *)]
      · congr 2; omega
      · intro i hi
        have := hb (i + 1) (by omega)
        rwa [show k + 1 + i = k + (i + 1) by omega]
  · intro h fuel
    induction fuel generalizing k with
    | zero => rfl
    | succ fuel ih =>
      rw [randomPartition, if_neg, ih]
      have := (draws k).dedup_sublist.length_le
      have := h k
      omega

/-- **C95.** `generate_multilayer_intralayer_SBM` with the coupling of every vertex to its copy in the next layer: a temporal network
unless the last vertex or a layer has no edge. -/
theorem c95_test_model (d : Draws) (copying pIn pOut : ℝ) {first : List Nat} (hf : first ≠ []) (hT : 2 ≤ T)
    (hlast : ∃ e ∈ (testBlockModel d copying pIn pOut first T).1.edges, e.1 = first.length * T - 1)
    (hlayer : ∀ t < T, ∃ e ∈ (testBlockModel d copying pIn pOut first T).1.edges,
      (testBlockModel d copying pIn pOut first T).2[e.1]? = some t) :
    TemporalNetwork (testBlockModel d copying pIn pOut first T).1 (couplingGraph first.length T)
      (testBlockModel d copying pIn pOut first T).2 T first.length := by
  unfold testBlockModel at *
  rw [(c95_layers first.length T).1] at *
  exact c95_temporal (labelVector_length _ _ _ _) (List.length_pos_iff.mpr hf) hT hlast hlayer

/-- **C95.** Which edges `generate_multilayer_intralayer_SBM` draws: an undirected pair of vertices of one layer exactly if its random
number is below `p_in` (same label) or `p_out` (different labels). -/
theorem c95_test_model_edges (d : Draws) (copying pIn pOut : ℝ) (first : List Nat) (T : Nat) :
    (testBlockModel d copying pIn pOut first T).1.directed = false ∧
    (∀ a b, (a, b) ∈ (testBlockModel d copying pIn pOut first T).1.edges ↔ b < a ∧ a < first.length * T ∧
      (layerVector first.length T)[a]? = (layerVector first.length T)[b]? ∧
      (((labelVector d copying first T)[a]? = (labelVector d copying first T)[b]? ∧ d.edge b a < pIn) ∨
        ((labelVector d copying first T)[a]? ≠ (labelVector d copying first T)[b]? ∧ d.edge b a < pOut))) := by
  unfold testBlockModel
  rw [(c95_layers first.length T).1]
  refine ⟨rfl, fun a b => ?_⟩
  have := (c95_edges (layerVector first.length T) (labelVector d copying first T) pIn pOut d.edge).1 a b
  rw [labelVector_length] at this
  exact this

/-! ### Witnesses -/

/-- All random numbers are 0. -/
def zeroDraws : Draws := ⟨fun _ _ => 0, fun _ _ => 0, fun _ _ => 0⟩

theorem zeroDraws_random (hK : 0 < K) : RandomDraws zeroDraws K :=
  ⟨fun _ _ => ⟨le_refl _, one_pos⟩, fun _ _ => hK, fun _ _ => ⟨le_refl _, one_pos⟩⟩

example : layerMembership 2 3 = [0, 0, 1, 1, 2, 2] ∧ layerVector 2 3 = [0, 0, 1, 1, 2, 2] := by decide

theorem zero_labels : labelVector zeroDraws 0 [0, 1] 2 = [0, 1, 0, 0] := by
  simp [labelVector, copiedLabels, zeroDraws, List.range_succ]

/-- With copying probability above 0 every layer is a copy. -/
example : labelVector zeroDraws (1 / 2) [0, 1] 2 = [0, 1, 0, 1] := by
  simp [labelVector, copiedLabels, zeroDraws, List.range_succ]

theorem zero_edges : benchmarkEdges 2 2 2 0 1 zeroDraws = [(1, 0), (3, 2)] := by
  have hb : balancedLabels 2 2 = [0, 1] := by decide
  have hl : layerVector 2 2 = [0, 0, 1, 1] := by decide
  unfold benchmarkEdges
  rw [hb, zero_labels, hl]
  norm_num [blockEdges, zeroDraws, List.range_succ, List.range'_succ]

/-- An accepted attempt: two layers of one edge, the ground truth `0 1 0 0` has estimates, and these are the wanted ones. -/
example : ∃ r, syntheticNetwork (syntheticAttempt (fun _ => false) (fun _ x => x) 2 2 2 0 1 (logMean (2 / 3) 2) 0)
    (fun _ => zeroDraws) 0 1 = some (.ok r) := by
  have hb : balancedLabels 2 2 = [0, 1] := by decide
  have hl : layerVector 2 2 = [0, 0, 1, 1] := by decide
  have hlast : ∃ e ∈ benchmarkEdges 2 2 2 0 1 zeroDraws, e.1 = 2 * 2 - 1 := by
    rw [zero_edges]; exact ⟨(3, 2), by simp, rfl⟩
  have hlayer : ∀ t < 2, ∃ e ∈ benchmarkEdges 2 2 2 0 1 zeroDraws, (layerVector 2 2)[e.1]? = some t := by
    rw [zero_edges, hl]; decide
  have hd := zeroDraws_random (K := 2) (by norm_num)
  have hlab : (labelVector zeroDraws 0 (balancedLabels 2 2) 2).length = 2 * 2 := by rw [hb, zero_labels]; rfl
  have hG : TemporalNetwork (graphOfEdges (benchmarkEdges 2 2 2 0 1 zeroDraws)) (couplingGraph 2 2) (layerVector 2 2) 2 2 :=
    c95_temporal hlab (by norm_num) (le_refl _) hlast hlayer
  have hacc := (c95_accepts (test := fun _ => false) (fsolve := fun _ x => x) (γ₀ := logMean (2 / 3) 2) (ω₀ := 0) (n := 2) (T := 2)
    (K := 2) (by norm_num) (by norm_num) (by norm_num) (le_refl _) zero_le_one hd (fun h => by cases h) hlast hlayer _).mpr
    ⟨rfl, logMean (2 / 3) 2, 0, ?_, by norm_num, by norm_num⟩
  · exact ⟨_, by rw [syntheticNetwork, hacc]⟩
  · rw [c69_has_estimates hG (fun h => by cases h) (by rw [hlab, ← hG.layers]; rfl), zero_edges, hb, zero_labels, hl]
    have hA : withinAdj (graphOfEdges [(1, 0), (3, 2)]) [0, 1, 0, 0] = 2 := by
      simp [withinAdj, graphOfEdges, adj, Finset.sum_range_succ]; norm_num
    have hX : withinAdj (couplingGraph 2 2) [0, 1, 0, 0] = 1 := by
      simp [withinAdj, couplingGraph, couplingEdges, graphOfEdges, adj, Finset.sum_range_succ, List.range_succ]
    have hP : withinNullLayered (graphOfEdges [(1, 0), (3, 2)]) [0, 0, 1, 1] [0, 1, 0, 0] = 3 := by
      simp [withinNullLayered, graphOfEdges, adj, rowSum, colSum, layerTotal, Finset.sum_range_succ]; norm_num
    have hec : 2 * ((graphOfEdges [(1, 0), (3, 2)]).ecount : ℝ) = 4 := by norm_num [graphOfEdges, Graph.ecount]
    have hdd : ([0, 1, 0, 0] : List Nat).dedup.length = 2 := by decide
    rw [hA, hX, hP, hec, hdd]
    refine ⟨by norm_num, by norm_num, by norm_num, by norm_num, by norm_num, ?_⟩
    unfold temporalCoupling copying
    norm_num

/-- A script with `epsilon = 0` and no edge at all: the generator stops with an exception. -/
example : ∃ e, syntheticNetwork (syntheticAttempt (fun _ => false) (fun _ x => x) 150 15 2 (7 / 10) 0 (94 / 100) (98 / 100))
    (fun _ => zeroDraws) 0 1 = some (.error e) :=
  c95_zero_epsilon (by norm_num) (by norm_num) (by norm_num) (by norm_num) (zeroDraws_random (by norm_num))
    (fun h => by cases h)

/-- The default benchmark with copying probability 1 is never accepted. -/
example (r : Graph ℝ × Graph ℝ × List Nat × List Nat) (fuel : Nat) :
    syntheticNetwork (syntheticAttempt (fun _ => false) (fun _ x => x) 150 15 2 1 (4 / 10) (94 / 100) (98 / 100))
      (fun _ => zeroDraws) 0 fuel ≠ some (.ok r) :=
  c95_full_copying_rejected (by norm_num) (by norm_num) (by norm_num) (by norm_num) (by norm_num) (le_refl _)
    (by rw [abs_of_nonneg (by norm_num)]; norm_num) (fun _ _ => rfl) (fun _ => zeroDraws_random (by norm_num)) 0 fuel r

/-- All draws of edges are 0.9: no edge at all. -/
noncomputable def sparseDraws : Draws := ⟨fun _ _ => 0, fun _ _ => 0, fun _ _ => 9 / 10⟩

example : syntheticNetwork (syntheticAttempt (fun _ => false) (fun _ x => x) 150 15 2 (7 / 10) (4 / 10) (94 / 100) (98 / 100))
    (fun _ => sparseDraws) 0 1 = some (.error (.valueError "Membership vector has incorrect size.")) := by
  refine c95_aborts (by norm_num) (by norm_num) (by norm_num) (by norm_num) (by norm_num)
    ⟨fun _ _ => ⟨le_refl _, one_pos⟩, fun _ _ => by show 0 < 2; norm_num, fun _ _ => by
      show (0 : ℝ) ≤ 9 / 10 ∧ (9 / 10 : ℝ) < 1
      norm_num⟩ ?_
  rintro ⟨a, b⟩ he
  have := ((c95_edges _ _ _ _ _).1 a b).mp he
  rcases this.2.2.2 with ⟨-, h⟩ | ⟨-, h⟩ <;> · unfold sparseDraws at h; norm_num at h

/-- A layer without edges: two layers of two vertices, only the second has its edge. -/
example : ∃ draw : Nat → Nat → ℝ, (∃ e ∈ blockEdges (layerVector 2 2) [0, 0, 0, 0] (1 / 2) 0 draw, e.1 = 2 * 2 - 1) ∧
    ∀ e ∈ blockEdges (layerVector 2 2) [0, 0, 0, 0] (1 / 2) 0 draw, (layerVector 2 2)[e.1]? ≠ some 0 := by
  have hl : layerVector 2 2 = [0, 0, 1, 1] := by decide
  refine ⟨fun v _ => if v = 2 then 0 else 1, ?_, ?_⟩
  · exact ⟨(3, 2), ((c95_edges _ _ _ _ _).1 3 2).mpr ⟨by norm_num, by norm_num, by rw [hl]; rfl, Or.inl ⟨rfl, by norm_num⟩⟩, rfl⟩
  · rintro ⟨a, b⟩ he
    have h := ((c95_edges _ _ _ _ _).1 a b).mp he
    have hb : b = 2 := by
      by_contra hb
      rcases h.2.2.2 with ⟨-, h'⟩ | ⟨-, h'⟩ <;> · rw [if_neg hb] at h'; norm_num at h'
    have : a = 3 := by have := h.1; have := h.2.1; simp at this; omega
    subst this
    rw [hl]; simp

/-- Splitting the triangle `0 1 2` with two layers of two vertices. -/
example : ∃ Gi Gx, splitByLayer (⟨4, false, [(0, 1), (1, 2), (0, 2)], none⟩ : Graph ℝ) 2 2 = .ok (Gi, Gx, [0, 0, 1, 1]) ∧
    Gi.edges = [(0, 1)] ∧ Gx.edges = [(1, 2), (0, 2)] := ⟨_, _, rfl, rfl, rfl⟩

example : randomPartition 2 (fun k => if k = 3 then [0, 1, 0] else [0, 0, 0]) 0 4 = some [0, 1, 0] := by decide

end Verif.Props
