import Verif.Spec.Warnings
import Verif.Props.Prune3D

/-!
# Properties C63, C68: warnings of the pruning pipelines
-/

namespace Verif.Props
open Verif Verif.Spec

theorem isConnected_iff {F : Type} {G : Graph F} (hv : 0 < G.vcount) :
    G.IsConnected ↔ ¬ Splits G.vcount G.directed G.edges := by
  constructor
  · rintro ⟨-, h⟩ ⟨S, ⟨u, hu, huS⟩, ⟨v, hv, hvS⟩, hS⟩
    refine hvS ?_
    have hr := h u hu v hv
    clear hv hvS
    induction hr with
    | refl => exact huS
    | tail _ hstep ih =>
      rcases hstep with hstep | ⟨hd, hstep⟩
      · exact (hS _ hstep).1 ih
      · exact (hS _ hstep).2 hd ih
  · intro hns
    refine ⟨hv, fun u hu v hv => ?_⟩
    by_contra hno
    refine hns ⟨{w | Relation.ReflTransGen G.Step u w}, ⟨u, hu, .refl⟩, ⟨v, hv, hno⟩, fun e he => ⟨fun h => ?_, fun hd h => ?_⟩⟩
    · exact .tail h (Or.inl he)
    · exact .tail h (Or.inr ⟨hd, he⟩)

theorem hasOtherWeights_iff (G : Graph ℝ) : hasOtherWeights G = true ↔ HasUnusualWeight G := by
  unfold hasOtherWeights HasUnusualWeight
  cases hw : G.weight with
  | none => simp
  | some ws => simp

theorem foldl_max_le (edges : List (Nat × Nat)) (n m : Nat) :
    edges.foldl (fun n e => max n (max (e.1 + 1) (e.2 + 1))) n ≤ m ↔ n ≤ m ∧ ∀ e ∈ edges, e.1 < m ∧ e.2 < m := by
  induction edges generalizing n with
  | nil => simp
  | cons e es ih =>
    rw [List.foldl_cons, ih]
    simp only [List.mem_cons, forall_eq_or_imp, max_le_iff]
    constructor
    · rintro ⟨⟨h1, h2, h3⟩, h⟩; exact ⟨h1, ⟨by omega, by omega⟩, h⟩
    · rintro ⟨h1, ⟨h2, h3⟩, h⟩; exact ⟨⟨h1, by omega, by omega⟩, h⟩

theorem graphOfEdges_vcount_le (edges : List (Nat × Nat)) (m : Nat) :
    (graphOfEdges edges).vcount ≤ m ↔ ∀ e ∈ edges, e.1 < m ∧ e.2 < m := by
  unfold graphOfEdges
  rw [foldl_max_le]
  simp

theorem combined_iff {edges : List (Nat × Nat)} {n : Nat} (hn : 2 ≤ n) (hE : ∀ e ∈ edges, e.1 < n ∧ e.2 < n) :
    (¬ (graphOfEdges edges).IsConnected ∨ (graphOfEdges edges).vcount ≠ n) ↔ Splits n false edges := by
  have hle : (graphOfEdges edges).vcount ≤ n := (graphOfEdges_vcount_le _ _).mpr hE
  have hself := (graphOfEdges_vcount_le edges (graphOfEdges edges).vcount).mp (le_refl _)
  by_cases hvc : (graphOfEdges edges).vcount = n
  · have := isConnected_iff (G := graphOfEdges edges) (by omega)
    rw [this, not_not, hvc]
    constructor
    · rintro (h | h)
      · exact h
      · exact absurd rfl h
    · intro h; exact Or.inl h
  · refine ⟨fun _ => ?_, fun _ => Or.inr hvc⟩
    refine ⟨{w | w = n - 1}, ⟨n - 1, by omega, rfl⟩, ⟨0, by omega, ?_⟩, fun e he => ?_⟩
    · simp only [Set.mem_ofPred_eq]; omega
    · obtain ⟨h1, h2⟩ := hself e he
      refine ⟨fun h => ?_, fun _ h => ?_⟩ <;> (simp only [Set.mem_ofPred_eq] at h; omega)

theorem mem_warnIf (P : Prop) [Decidable P] (w w' : Warning) : w ∈ (if P then [w'] else []) ↔ P ∧ w = w' := by
  by_cases h : P <;> simp [h]

variable {α : Type} [LinearOrder α] {env : PruneEnv} {G Gi Gx : Graph ℝ} {layer : List Nat} {model : String}
  {parts : PartsArg α} {γ₀ γf ω₀ ωf : ℝ} {restrict : Option Nat} {st : Bool}

/-- **C63 (single layer).** The connectivity warning is emitted iff there is no vertex or the vertices fall into two non-empty sets with no edge
from the first to the second (for directed graphs: no edge in that direction); the weight warning iff some weight differs
from 1. -/
theorem c63_single_layer :
    (.disconnected ∈ (pruneWarned env G parts γ₀ γf restrict st).1 ↔ G.vcount = 0 ∨ Splits G.vcount G.directed G.edges) ∧
    (.weighted ∈ (pruneWarned env G parts γ₀ γf restrict st).1 ↔ HasUnusualWeight G) := by
  unfold pruneWarned
  simp only [List.mem_append, mem_warnIf]
  rw [← hasOtherWeights_iff]
  refine ⟨?_, by simp⟩
  rcases Nat.eq_zero_or_pos G.vcount with h0 | hv
  · have : ¬ G.IsConnected := fun h => absurd h.1 (by omega)
    simp [this, h0]
  · rw [isConnected_iff hv, not_not]
    simp [hv.ne']

/-- **C63 (multilayer).** With at least two vertices, the connectivity warning is emitted iff the vertices fall into two
non-empty sets such that no edge of either graph runs between them (whatever the direction of the edges); the weight warning
iff some weight of either graph differs from 1. -/
theorem c63_multilayer (hi : Gi.WF) (hx : Gx.WF) (hv : Gi.vcount = Gx.vcount) (hn : 2 ≤ Gx.vcount) :
    (.disconnected ∈ (pruneMultilayerWarned env Gi Gx layer model parts γ₀ γf ω₀ ωf restrict false).1 ↔
      Splits Gx.vcount false (Gi.edges ++ Gx.edges)) ∧
    (.weighted ∈ (pruneMultilayerWarned env Gi Gx layer model parts γ₀ γf ω₀ ωf restrict false).1 ↔
      HasUnusualWeight Gi ∨ HasUnusualWeight Gx) := by
  have hE : ∀ e ∈ Gi.edges ++ Gx.edges, e.1 < Gx.vcount ∧ e.2 < Gx.vcount := by
    intro e he
    rcases List.mem_append.mp he with he | he
    · rw [← hv]; exact hi.1 e he
    · exact hx.1 e he
  have htr : ∀ w ∈ truncationWarning ωf (domainEstimates env Gi Gx layer model parts γ₀ γf ω₀ ωf restrict),
      w = Warning.truncating := by
    intro w hw
    unfold truncationWarning at hw
    split at hw
    · split at hw
      · simpa using hw
      · cases hw
    · cases hw
  have hd : Warning.disconnected ∉ truncationWarning ωf (domainEstimates env Gi Gx layer model parts γ₀ γf ω₀ ωf restrict) :=
    fun h => by cases htr _ h
  have hw : Warning.weighted ∉ truncationWarning ωf (domainEstimates env Gi Gx layer model parts γ₀ γf ω₀ ωf restrict) :=
    fun h => by cases htr _ h
  unfold pruneMultilayerWarned
  simp only [Bool.false_eq_true, if_false, List.mem_append, mem_warnIf]
  rw [← hasOtherWeights_iff, ← hasOtherWeights_iff, combined_iff hn hE]
  simp [hd, hw]

/-- **C63 (multilayer, boundary).** A single vertex without edges is reported as disconnected although it is not; with a
loop it is not reported. -/
theorem c63_single_vertex (hi : Gi.WF) (hx : Gx.WF) (hv : Gi.vcount = 1) (hv' : Gx.vcount = 1) :
    .disconnected ∈ (pruneMultilayerWarned env Gi Gx layer model parts γ₀ γf ω₀ ωf restrict false).1 ↔
      Gi.edges = [] ∧ Gx.edges = [] := by
  have hE : ∀ e ∈ Gi.edges ++ Gx.edges, e.1 < 1 ∧ e.2 < 1 := by
    intro e he
    rcases List.mem_append.mp he with he | he
    · rw [← hv]; exact hi.1 e he
    · rw [← hv']; exact hx.1 e he
  have hd : Warning.disconnected ∉ truncationWarning ωf (domainEstimates env Gi Gx layer model parts γ₀ γf ω₀ ωf restrict) := by
    unfold truncationWarning
    split
    · split <;> simp
    · simp
  unfold pruneMultilayerWarned
  simp only [Bool.false_eq_true, if_false, List.mem_append, mem_warnIf]
  have hle := (graphOfEdges_vcount_le _ _).mpr hE
  have hself := (graphOfEdges_vcount_le (Gi.edges ++ Gx.edges) (graphOfEdges (Gi.edges ++ Gx.edges)).vcount).mp (le_refl _)
  have key : (¬ (graphOfEdges (Gi.edges ++ Gx.edges)).IsConnected ∨ (graphOfEdges (Gi.edges ++ Gx.edges)).vcount ≠ Gx.vcount) ↔
      Gi.edges = [] ∧ Gx.edges = [] := by
    rw [hv']
    constructor
    · intro h
      rw [← List.append_eq_nil_iff]
      by_contra hne
      obtain ⟨e, he⟩ := List.exists_mem_of_ne_nil _ hne
      have h1 : (graphOfEdges (Gi.edges ++ Gx.edges)).vcount = 1 := by have := (hself e he).1; omega
      refine h.elim (fun h => h ⟨by omega, fun u hu v hv => ?_⟩) (fun h => h h1)
      have : u = v := by omega
      subst this
      exact .refl
    · rintro ⟨h1, h2⟩
      right
      rw [h1, h2]
      decide
  rw [key]
  simp [hd]

/-- **C63.** With `single_threaded=True` the multilayer pipeline raises before any warning. -/
theorem c63_single_threaded :
    pruneMultilayerWarned env Gi Gx layer model parts γ₀ γf ω₀ ωf restrict true = ([], some (.error .notImplementedError)) := by
  unfold pruneMultilayerWarned
  rw [if_pos rfl]
  rfl

/-- The two layers of `gIntraR` are only connected through the coupling. -/
example : Splits 6 false gIntraR.edges ∧ ¬ Splits 6 false (gIntraR.edges ++ gInterR.edges) := by
  constructor
  · refine ⟨{v | v < 3}, ⟨0, by omega, by simp⟩, ⟨3, by omega, by simp⟩, ?_⟩
    intro e he
    simp only [gIntraR, List.mem_cons, List.not_mem_nil, or_false] at he
    rcases he with rfl | rfl | rfl | rfl <;> simp [StaysIn]
  · rintro ⟨S, ⟨u, hu, huS⟩, ⟨v, hv, hvS⟩, hS⟩
    simp only [gIntraR, gInterR, List.cons_append, List.nil_append, List.forall_mem_cons, StaysIn, true_imp_iff] at hS
    obtain ⟨⟨a1, a2⟩, ⟨b1, b2⟩, ⟨c1, c2⟩, ⟨d1, d2⟩, ⟨e1, e2⟩, -⟩ := hS
    have all : ∀ w < 6, w ∈ S ↔ 0 ∈ S := by
      intro w hw
      have h1 : 1 ∈ S ↔ 0 ∈ S := ⟨a2, a1⟩
      have h2 : 2 ∈ S ↔ 0 ∈ S := Iff.trans ⟨b2, b1⟩ h1
      have h3 : 3 ∈ S ↔ 0 ∈ S := ⟨e2, e1⟩
      have h4 : 4 ∈ S ↔ 0 ∈ S := Iff.trans ⟨c2, c1⟩ h3
      have h5 : 5 ∈ S ↔ 0 ∈ S := Iff.trans ⟨d2, d1⟩ h4
      interval_cases w
      exacts [Iff.rfl, h1, h2, h3, h4, h5]
    exact hvS ((all v hv).mpr ((all u hu).mp huS))

end Verif.Props
