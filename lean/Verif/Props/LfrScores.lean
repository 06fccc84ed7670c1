import Verif.Props.Lfr
import Verif.Props.LfrRuns

/-!
# C90: the stored scores of the LFR benchmark
-/

namespace Verif.Props
open Verif Spec

/-- Every score `run_method` returns is a number between 0 and 1, whatever it is called with. -/
theorem runMethod_unit {env : LeidenEnv} {penv : PruneEnv} {G : Graph ℝ} {truth : List Nat} {runs : Nat} {method : String}
    {lo hi : ℝ} {w : World} {scores : List (Fl ℝ)}
    (h : runMethod env penv G truth runs method lo hi w = (some (.ok scores) : Option _)) :
    ∀ s ∈ scores, ∃ r : ℝ, s = .fin r ∧ 0 ≤ r ∧ r ≤ 1 := by
  have key : ∀ ps : List (List Nat), (ps.mapM fun p => nmi truth p) = .ok scores → ∀ s ∈ scores, ∃ r : ℝ, s = .fin r ∧ 0 ≤ r ∧ r ≤ 1 := by
    intro ps hps s hs
    obtain ⟨h1, h2⟩ := mapM_eq_ok_iff.mp hps
    obtain ⟨i, hi⟩ := List.getElem?_of_mem hs
    have hip : i < ps.length := by rw [← h1]; exact (List.getElem?_eq_some_iff.mp hi).1
    have he := h2 i _ s (List.getElem?_eq_getElem hip) hi
    have hlen : truth.length = ps[i].length := by
      by_contra hne
      obtain ⟨msg, hm⟩ := (c75_value truth ps[i]).1 hne
      rw [hm] at he
      cases he
    obtain ⟨r, hr, h0, h1⟩ := c75_range hlen
    rw [hr] at he
    exact ⟨r, (Except.ok.inj he).symm, h0, h1⟩
  unfold runMethod at h
  obtain ⟨⟨e, G'⟩, -, h⟩ := Run.bind_ok.mp h
  dsimp only at h
  cases e with
  | none => cases h
  | some g =>
    obtain ⟨gammas, -, h⟩ := Run.bind_ok.mp h
    obtain ⟨⟨S, H⟩, -, h⟩ := Run.bind_ok.mp h
    dsimp only at h
    split at h
    · obtain ⟨_, -, h⟩ := Run.bind_ok.mp h
      obtain ⟨_, -, h⟩ := Run.bind_ok.mp h
      obtain ⟨_, -, h⟩ := Run.bind_ok.mp h
      rw [Run.ofPy_ok] at h
      exact key _ h
    · split at h
      · obtain ⟨_, -, h⟩ := Run.bind_ok.mp h
        obtain ⟨_, -, h⟩ := Run.bind_ok.mp h
        obtain ⟨_, -, h⟩ := Run.bind_ok.mp h
        obtain ⟨_, -, h⟩ := Run.bind_ok.mp h
        rw [Run.ofPy_ok] at h
        exact key _ h
      · rw [Run.ofPy_ok] at h
        exact key _ h

/-- A possible result of `run_method` on a graph with ground truth communities. -/
def PossibleScores (runs : Nat) (method : String) (G : Graph ℝ × List Nat) (scores : List (Fl ℝ)) : Prop :=
  ∃ env penv lo hi w, runMethod env penv G.1 G.2 runs method lo hi w = (some (.ok scores) : Option _)

/-- There are such results. -/
example (w : World) : ∃ scores, PossibleScores 2 "modularity pruning" (gPaw, [0, 0, 1, 2]) scores ∧ .fin 1 ∈ scores := by
  obtain ⟨scores, h, h1⟩ := lfr_witness w
  exact ⟨scores, ⟨_, _, _, _, _, h⟩, h1⟩

/-- **C90.** With `run_method` as the task: whatever the interruptions, every number in complete results is between 0 and 1,
and each of the four dictionaries has one list per graph. -/
theorem c90_stored_scores {fmt : ℝ → String} {Generated : ℝ → Graph ℝ × List Nat → Prop}
    {d : Disk (Graph ℝ × List Nat) (List (Fl ℝ))} (h : History fmt Generated PossibleScores emptyDisk d)
    {P : Plots (List (Fl ℝ))} (hP : d.partialResults = .full P ∨ d.results = .full P) :
    ∀ dict ∈ [P.plot1, P.plot2, P.plot3, P.plot4], ∀ row ∈ dict,
      (∃ num gs, d.graphs (num, fmt row.1) = .full gs ∧ gs.length = num ∧ row.2.length = num) ∧
      ∀ scores ∈ row.2, ∀ s ∈ scores, ∃ r : ℝ, s = .fin r ∧ 0 ≤ r ∧ r ≤ 1 := by
  have hf : FinishedRows fmt PossibleScores d P := by
    obtain ⟨-, h1, h2⟩ := c90_files_sound h
    exact hP.elim (h1 P) (h2 P)
  obtain ⟨rows, rfl, -, hrows⟩ := hf
  have hlist : ∀ {runs method gs} {data : List (List (Fl ℝ))}, List.Forall₂ (PossibleScores runs method) gs data →
      ∀ scores ∈ data, ∀ s ∈ scores, ∃ r : ℝ, s = .fin r ∧ 0 ≤ r ∧ r ≤ 1 := by
    intro runs method gs data hd scores hs
    obtain ⟨i, hi⟩ := List.getElem?_of_mem hs
    obtain ⟨hil, rfl⟩ := List.getElem?_eq_some_iff.mp hi
    rw [List.forall₂_iff_get] at hd
    obtain ⟨env, penv, lo, hi, w, hrun⟩ := hd.2 i (by rw [hd.1]; exact hil) hil
    exact runMethod_unit hrun
  intro dict hdict row hrow
  simp only [plotsOf, List.mem_cons, List.not_mem_nil, or_false] at hdict
  rcases hdict with rfl | rfl | rfl | rfl <;>
  · obtain ⟨r, hr, rfl⟩ := List.mem_map.mp hrow
    obtain ⟨num, runs, gs, hg, hl, h1, h2, h3, h4⟩ := hrows r hr
    refine ⟨⟨num, gs, hg, hl, ?_⟩, ?_⟩
    · first
        | exact h1.length_eq ▸ hl
        | exact h2.length_eq ▸ hl
        | exact h3.length_eq ▸ hl
        | exact h4.length_eq ▸ hl
    · first
        | exact hlist h1
        | exact hlist h2
        | exact hlist h3
        | exact hlist h4

end Verif.Props
