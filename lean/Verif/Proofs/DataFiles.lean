import Mathlib.Data.Nat.Digits.Lemmas
import Verif.Model.DataFiles
import Verif.Spec.DataFiles
import Verif.Proofs.Partition
import Verif.Proofs.Champ2DRun

namespace Verif
open Spec

/-! ## Characters -/

theorem digit_cases {c : Char} (h : c ∈ ['0', '1', '2', '3', '4', '5', '6', '7', '8', '9']) :
    c.isDigit = true ∧ isSpaceChar c = false ∧ c ≠ '-' ∧ c ≠ '+' ∧ c ≠ ',' ∧ c ≠ '#' ∧ c ≠ '\n' ∧ c ≠ '\r' ∧ c ≠ 'n' := by
  fin_cases h <;> decide

theorem blank_cases {c : Char} (h : c = ' ' ∨ c = '\t') :
    isSpaceChar c = true ∧ c ≠ '#' ∧ c ≠ '\n' ∧ c ≠ '\r' ∧ c ≠ ',' := by
  rcases h with rfl | rfl <;> decide

/-! ## Lines -/

theorem readlines_line {l : List Char} (h : '\n' ∉ l) (text : List Char) :
    readlines (l ++ '\n' :: text) = (l ++ ['\n']) :: readlines text := by
  induction l with
  | nil => simp [readlines]
  | cons c l ih =>
    simp only [List.mem_cons, not_or] at h
    have := ih h.2
    simp only [List.cons_append, readlines, this]
    rw [if_neg (fun hc => h.1 hc.symm)]

theorem readlines_last {l : List Char} (h : '\n' ∉ l) (hne : l ≠ []) : readlines l = [l] := by
  induction l with
  | nil => exact absurd rfl hne
  | cons c l ih =>
    simp only [List.mem_cons, not_or] at h
    rw [readlines, if_neg (fun hc => h.1 hc.symm)]
    rcases l with _ | ⟨d, l⟩
    · rfl
    · rw [ih h.2 (by simp)]

/-! ## Words -/

theorem wordsAux_word {a : List Char} (h : ∀ c ∈ a, isSpaceChar c = false) (s : List Char) :
    wordsAux (a ++ s) = (a ++ (wordsAux s).1, (wordsAux s).2) := by
  induction a with
  | nil => simp
  | cons c a ih =>
    simp only [List.mem_cons, forall_eq_or_imp] at h
    simp [wordsAux, ih h.2, h.1]

theorem wordsAux_gap {g : List Char} (h : ∀ c ∈ g, isSpaceChar c = true) (hne : g ≠ []) (s : List Char) :
    wordsAux (g ++ s) = ([], pySplit s) := by
  induction g with
  | nil => exact absurd rfl hne
  | cons c g ih =>
    simp only [List.mem_cons, forall_eq_or_imp] at h
    rcases g with _ | ⟨d, g⟩
    · simp only [List.cons_append, List.nil_append, wordsAux, h.1, if_true]
      rfl
    · have := ih h.2 (by simp)
      rw [List.cons_append, wordsAux]
      simp only [this, h.1, if_true]

theorem pySplit_front {g : List Char} (h : ∀ c ∈ g, isSpaceChar c = true) (s : List Char) : pySplit (g ++ s) = pySplit s := by
  rcases g with _ | ⟨d, g⟩
  · rfl
  · rw [pySplit, wordsAux_gap h (by simp)]
    simp

theorem pySplit_word {a g : List Char} (ha : ∀ c ∈ a, isSpaceChar c = false) (hane : a ≠ []) (hg : ∀ c ∈ g, isSpaceChar c = true)
    (hgne : g ≠ []) (s : List Char) : pySplit (a ++ g ++ s) = a :: pySplit s := by
  rw [pySplit, List.append_assoc, wordsAux_word ha, wordsAux_gap hg hgne]
  simp [hane]

theorem pySplit_end {a : List Char} (ha : ∀ c ∈ a, isSpaceChar c = false) (hane : a ≠ []) : pySplit a = [a] := by
  have := wordsAux_word ha []
  rw [List.append_nil] at this
  rw [pySplit, this]
  simp [wordsAux, hane]

theorem pySplit_blank {g : List Char} (h : ∀ c ∈ g, isSpaceChar c = true) : pySplit g = [] := by
  have := pySplit_front h []
  rw [List.append_nil] at this
  rw [this]; rfl

theorem splitComma_word {a : List Char} (ha : ',' ∉ a) : splitComma a = [a] := by
  induction a with
  | nil => rfl
  | cons c a ih =>
    simp only [List.mem_cons, not_or] at ha
    rw [splitComma, if_neg (fun hc => ha.1 hc.symm), ih ha.2]

theorem splitComma_comma {a : List Char} (ha : ',' ∉ a) (s : List Char) : splitComma (a ++ ',' :: s) = a :: splitComma s := by
  induction a with
  | nil => simp [splitComma]
  | cons c a ih =>
    simp only [List.mem_cons, not_or] at ha
    rw [List.cons_append, splitComma, if_neg (fun hc => ha.1 hc.symm), ih ha.2]

/-! ## Numbers -/

theorem foldl_digits (s : List Char) (n : Nat) :
    s.foldl (fun n c => 10 * n + (c.toNat - 48)) n =
      n * 10 ^ s.length + Nat.ofDigits 10 (s.reverse.map fun c => c.toNat - '0'.toNat) := by
  induction s generalizing n with
  | nil => simp
  | cons c s ih =>
    simp only [List.foldl_cons, ih, List.reverse_cons, List.map_append, Nat.ofDigits_append, List.length_cons, List.map_cons,
      List.map_nil, Nat.ofDigits_singleton, List.length_map, List.length_reverse]
    have : '0'.toNat = 48 := rfl
    rw [this]
    ring

theorem digitsValue_decimal {n : Nat} {s : List Char} (h : Decimal n s) : digitsValue s = some n := by
  obtain ⟨hne, hd, hn⟩ := h
  rw [digitsValue, if_pos ⟨hne, List.all_eq_true.2 fun c hc => (digit_cases (hd c hc)).1⟩, foldl_digits, hn]
  simp

theorem strip_decimal {n : Nat} {s t : List Char} (h : Decimal n s) (ht : ∀ c ∈ t, isSpaceChar c = true) :
    ((s ++ t).dropWhile isSpaceChar).rdropWhile isSpaceChar = s := by
  obtain ⟨hne, hd, -⟩ := h
  have hs : ∀ c ∈ s, isSpaceChar c = false := fun c hc => (digit_cases (hd c hc)).2.1
  have h1 : (s ++ t).dropWhile isSpaceChar = s ++ t := by
    rcases s with _ | ⟨c, s⟩
    · exact absurd rfl hne
    · simp [List.dropWhile_cons, hs c (by simp)]
  rw [h1, List.rdropWhile, List.reverse_append, List.dropWhile_append_of_pos (fun c hc => ht c (List.mem_reverse.1 hc))]
  have h2 : s.reverse.dropWhile isSpaceChar = s.reverse := by
    rcases hr : s.reverse with _ | ⟨c, r⟩
    · rfl
    · rw [List.dropWhile_cons, if_neg]
      have : c ∈ s := List.mem_reverse.1 (hr ▸ by simp)
      simp [hs c this]
  rw [h2, List.reverse_reverse]

theorem pyInt_decimal {n : Nat} {s t : List Char} (h : Decimal n s) (ht : ∀ c ∈ t, isSpaceChar c = true) :
    pyInt (s ++ t) = .ok (n : Int) := by
  have h1 := strip_decimal h ht
  have h2 := digitsValue_decimal h
  obtain ⟨hne, hd, -⟩ := h
  rcases s with _ | ⟨c, s⟩
  · exact absurd rfl hne
  · have hc := digit_cases (hd c (by simp))
    simp only [pyInt, h1]
    rw [if_neg hc.2.2.1, if_neg hc.2.2.2.1, h2]
    rfl

theorem pyInt_decimal' {n : Nat} {s : List Char} (h : Decimal n s) : pyInt s = .ok (n : Int) := by
  have := pyInt_decimal (t := []) h (by simp)
  rwa [List.append_nil] at this

theorem pyInt_blank {s : List Char} (hs : ∀ c ∈ s, isSpaceChar c = true) :
    pyInt s = .error (.valueError "invalid literal for int() with base 10") := by
  have : s.dropWhile isSpaceChar = [] := List.dropWhile_eq_nil_iff.2 hs
  simp [pyInt, this, List.rdropWhile]

/-! ## Files -/

/-- A link as a tuple of Python integers. -/
def tupleOf (e : Nat × Nat) : List Int := [(e.1 : Int), (e.2 : Int)]

theorem edges_of_tuples (links : List (Nat × Nat)) : (links.map tupleOf).mapM edgeOfTuple = .ok links := by
  induction links with
  | nil => rfl
  | cons e l ih =>
    rw [List.map_cons, List.mapM_cons, ih]
    have : edgeOfTuple (tupleOf e) = .ok e := by simp [edgeOfTuple, tupleOf]
    rw [this]; rfl

theorem Spec.Decimal.noSpace {n : Nat} {s : List Char} (h : Decimal n s) : ∀ c ∈ s, isSpaceChar c = false :=
  fun c hc => (digit_cases (h.2.1 c hc)).2.1

theorem Spec.Blank.space {s : List Char} (h : Blank s) : ∀ c ∈ s, isSpaceChar c = true := fun c hc => (blank_cases (h c hc)).1

theorem Spec.Decimal.noNewline {n : Nat} {s : List Char} (h : Decimal n s) : '\n' ∉ s :=
  fun hc => (digit_cases (h.2.1 _ hc)).2.2.2.2.2.2.1 rfl

theorem Spec.Blank.noNewline {s : List Char} (h : Blank s) : '\n' ∉ s := fun hc => (blank_cases (h _ hc)).2.2.1 rfl

/-- One line with a link. -/
theorem tsv_line {u v : Nat} {front a gap b tail : List Char} (hf : Blank front) (ha : Decimal u a) (hg : Blank gap) (hgne : gap ≠ [])
    (hb : Decimal v b) {end' : List Char} (he : ∀ c ∈ tail ++ end', isSpaceChar c = true) :
    (pySplit (front ++ a ++ gap ++ b ++ tail ++ end')).mapM pyInt = .ok (tupleOf (u, v)) ∧
      (front ++ a ++ gap ++ b ++ tail ++ end').head? ≠ some '#' := by
  constructor
  · have : pySplit (front ++ a ++ gap ++ b ++ tail ++ end') = [a, b] := by
      have h1 : front ++ a ++ gap ++ b ++ tail ++ end' = front ++ (a ++ gap ++ (b ++ (tail ++ end'))) := by simp
      rw [h1, pySplit_front hf.space, pySplit_word ha.noSpace ha.1 hg.space hgne]
      rcases hte : tail ++ end' with _ | ⟨d, t⟩
      · rw [List.append_nil, pySplit_end hb.noSpace hb.1]
      · rw [hte] at he
        have := pySplit_word hb.noSpace hb.1 he (by simp) []
        rw [List.append_nil] at this
        rw [this]; rfl
    rw [this]
    simp only [List.mapM_cons, List.mapM_nil, pyInt_decimal' ha, pyInt_decimal' hb]
    rfl
  · rcases front with _ | ⟨c, front⟩
    · rcases a with _ | ⟨c, a⟩
      · exact absurd rfl ha.1
      · have := (digit_cases (ha.2.1 c (by simp))).2.2.2.2.2.1
        simpa using this
    · have := (blank_cases (hf c (by simp))).2.1
      simpa using this

theorem tsv_tuples {text : List Char} {links : List (Nat × Nat)} (h : TsvFile text links) :
    (((readlines text).filter fun l => decide (l.head? ≠ some '#')).mapM fun l => (pySplit l).mapM pyInt) =
      .ok (links.map tupleOf) := by
  induction h with
  | done => rfl
  | @comment c text links hc _ ih =>
    rw [readlines_line (l := '#' :: c) (by simp [hc]), List.filter_cons_of_neg (by simp)]
    exact ih
  | @link u v front a gap b tail text links hf ha hg hgne hb ht _ ih =>
    have hl := tsv_line hf ha hg hgne hb (tail := tail) (end' := ['\n']) (by
      intro c hc
      rcases List.mem_append.1 hc with hc | hc
      · exact ht.space c hc
      · rw [List.mem_singleton.1 hc]; decide)
    rw [readlines_line (by
      simp only [List.mem_append, not_or]
      exact ⟨⟨⟨⟨hf.noNewline, ha.noNewline⟩, hg.noNewline⟩, hb.noNewline⟩, ht.noNewline⟩),
      List.filter_cons_of_pos (by simpa using hl.2), List.mapM_cons, hl.1, ih]
    rfl
  | @last u v front a gap b tail hf ha hg hgne hb ht =>
    have hl := tsv_line hf ha hg hgne hb (tail := tail) (end' := []) (by
      intro c hc
      rw [List.append_nil] at hc
      exact ht.space c hc)
    rw [List.append_nil] at hl
    rw [readlines_last (by
      simp only [List.mem_append, not_or]
      exact ⟨⟨⟨⟨hf.noNewline, ha.noNewline⟩, hg.noNewline⟩, hb.noNewline⟩, ht.noNewline⟩)
      (by simp [ha.1]),
      List.filter_cons_of_pos (by simpa using hl.2), List.mapM_cons, hl.1]
    rfl

theorem readTsv_ok {text : List Char} {links : List (Nat × Nat)} (h : TsvFile text links) :
    readTsv text = .ok (giant (graphOfEdges links)) := by
  rw [readTsv, tsv_tuples h]
  change (do let edges ← (links.map tupleOf).mapM edgeOfTuple; pure (giant (graphOfEdges edges)) : Py (Graph ℝ)) = _
  rw [edges_of_tuples]; rfl

theorem csv_line {u v : Nat} {a b end' : List Char} (ha : Decimal u a) (hb : Decimal v b) (he : end' = [] ∨ end' = ['\n']) :
    (splitComma (a ++ ',' :: b ++ end')).mapM pyInt = .ok (tupleOf (u, v)) ∧
      ¬ ['n', 'o', 'd', 'e'] <:+: (a ++ ',' :: b ++ end') := by
  have hsp : ∀ c ∈ end', isSpaceChar c = true := by
    rcases he with rfl | rfl
    · simp
    · intro c hc; rw [List.mem_singleton.1 hc]; decide
  constructor
  · have hb' : ',' ∉ b ++ end' := by
      simp only [List.mem_append, not_or]
      refine ⟨fun hc => (digit_cases (hb.2.1 _ hc)).2.2.2.2.1 rfl, ?_⟩
      rcases he with rfl | rfl <;> simp
    have h1 : a ++ ',' :: b ++ end' = a ++ ',' :: (b ++ end') := by simp
    rw [h1, splitComma_comma (fun hc => (digit_cases (ha.2.1 _ hc)).2.2.2.2.1 rfl), splitComma_word hb']
    simp only [List.mapM_cons, List.mapM_nil, pyInt_decimal' ha, pyInt_decimal hb hsp]
    rfl
  · intro h
    have hn : 'n' ∈ a ++ ',' :: b ++ end' := h.subset (by simp)
    simp only [List.mem_append, List.mem_cons] at hn
    rcases hn with (hn | hn | hn) | hn
    · exact (digit_cases (ha.2.1 _ hn)).2.2.2.2.2.2.2.2 rfl
    · exact absurd hn (by decide)
    · exact (digit_cases (hb.2.1 _ hn)).2.2.2.2.2.2.2.2 rfl
    · rcases he with rfl | rfl <;> simp at hn

theorem csv_tuples {text : List Char} {links : List (Nat × Nat)} (h : CsvFile text links) :
    (((readlines text).filter fun l => decide (¬ ['n', 'o', 'd', 'e'] <:+: l)).mapM fun l => (splitComma l).mapM pyInt) =
      .ok (links.map tupleOf) := by
  induction h with
  | done => rfl
  | @header pre post text links hp hq _ ih =>
    rw [readlines_line (l := pre ++ ['n', 'o', 'd', 'e'] ++ post) (by simp [hp, hq]), List.filter_cons_of_neg]
    · exact ih
    · simp only [decide_not, Bool.not_eq_true', decide_eq_false_iff_not, not_not]
      exact ⟨pre, post ++ ['\n'], by simp⟩
  | @link u v a b text links ha hb _ ih =>
    have hl := csv_line ha hb (Or.inr rfl)
    have hnl : '\n' ∉ a ++ ',' :: b := by
      simp only [List.mem_append, List.mem_cons, not_or]
      exact ⟨ha.noNewline, by decide, hb.noNewline⟩
    rw [readlines_line hnl, List.filter_cons_of_pos (by simpa using hl.2), List.mapM_cons, hl.1, ih]
    rfl
  | @last u v a b ha hb =>
    have hl := csv_line ha hb (Or.inl rfl)
    rw [List.append_nil] at hl
    have hnl : '\n' ∉ a ++ ',' :: b := by
      simp only [List.mem_append, List.mem_cons, not_or]
      exact ⟨ha.noNewline, by decide, hb.noNewline⟩
    rw [readlines_last hnl (by simp), List.filter_cons_of_pos (by simpa using hl.2), List.mapM_cons, hl.1]
    rfl

theorem readCsv_ok {text : List Char} {links : List (Nat × Nat)} (h : CsvFile text links) :
    readCsv text = .ok (giant (graphOfEdges links)) := by
  rw [readCsv, csv_tuples h]
  change (do let edges ← (links.map tupleOf).mapM edgeOfTuple; pure (giant (graphOfEdges edges)) : Py (Graph ℝ)) = _
  rw [edges_of_tuples]; rfl

/-! ## The largest component -/

section
variable {F : Type} {G : Graph F}

theorem step_symm (hG : G.directed = false) {u v : Nat} (h : G.Step u v) : G.Step v u := by
  rcases h with h | ⟨-, h⟩
  · exact Or.inr ⟨hG, h⟩
  · exact Or.inl h

theorem reach_symm (hG : G.directed = false) {u v : Nat} (h : G.Reach u v) : G.Reach v u := by
  induction h with
  | refl => exact Relation.ReflTransGen.refl
  | tail _ hs ih => exact Relation.ReflTransGen.head (step_symm hG hs) ih

theorem linked_iff (hG : G.directed = false) {u v : Nat} : Linked G.edges u v ↔ G.Reach u v := by
  have : (fun a b => (a, b) ∈ G.edges ∨ (b, a) ∈ G.edges) = G.Step := by
    funext a b; simp [Graph.Step, hG]
  rw [Linked, this, Graph.Reach]

theorem reach_lt (hwf : ∀ e ∈ G.edges, e.1 < G.vcount ∧ e.2 < G.vcount) {u v : Nat} (hu : u < G.vcount) (h : G.Reach u v) :
    v < G.vcount := by
  induction h with
  | refl => exact hu
  | tail _ hs _ =>
    rcases hs with hs | ⟨-, hs⟩
    · exact (hwf _ hs).2
    · exact (hwf _ hs).1

open Classical in
/-- The component of `v`. -/
noncomputable def compOf (G : Graph F) (v : Nat) : List Nat := (List.range G.vcount).filter fun u => decide (G.Reach v u)

theorem mem_compOf {v u : Nat} : u ∈ compOf G v ↔ u < G.vcount ∧ G.Reach v u := by
  classical
  simp [compOf]

theorem compOf_sorted (v : Nat) : (compOf G v).Pairwise (· < ·) := by
  classical
  exact List.Pairwise.filter _ List.pairwise_lt_range

theorem mem_clusters {vs : List Nat} :
    vs ∈ clusters G ↔ ∃ v < G.vcount, (∀ u < v, ¬ G.Reach u v) ∧ compOf G v = vs := by
  classical
  simp only [clusters, List.mem_map, List.mem_filter, List.mem_range, decide_eq_true_eq]
  constructor
  · rintro ⟨v, ⟨h1, h2⟩, h3⟩; exact ⟨v, h1, h2, h3⟩
  · rintro ⟨v, h1, h2, h3⟩; exact ⟨v, ⟨h1, h2⟩, h3⟩

/-- Everything connected lies in a cluster. -/
theorem clique_in_cluster {w : Nat} (hw : w < G.vcount) :
    ∃ v ≤ w, v < G.vcount ∧ (∀ u < v, ¬ G.Reach u v) ∧ G.Reach v w := by
  classical
  have hex : ∃ v, v ≤ w ∧ G.Reach v w := ⟨w, le_rfl, Relation.ReflTransGen.refl⟩
  refine ⟨Nat.find hex, (Nat.find_spec hex).1, lt_of_le_of_lt (Nat.find_spec hex).1 hw, ?_, (Nat.find_spec hex).2⟩
  intro u hu hr
  exact Nat.find_min hex hu ⟨hu.le.trans (Nat.find_spec hex).1, hr.trans (Nat.find_spec hex).2⟩

open Classical in
/-- The smallest vertices of the components. -/
noncomputable def rootsOf (G : Graph F) : List Nat :=
  (List.range G.vcount).filter fun v => decide (∀ u < v, ¬ G.Reach u v)

theorem clusters_eq : clusters G = (rootsOf G).map (compOf G) := rfl

theorem mem_rootsOf {v : Nat} : v ∈ rootsOf G ↔ v < G.vcount ∧ ∀ u < v, ¬ G.Reach u v := by
  classical
  simp [rootsOf]

theorem rootsOf_sorted : (rootsOf G).Pairwise (· < ·) := by
  classical
  exact List.Pairwise.filter _ List.pairwise_lt_range

theorem head_le_of_mem {l : List Nat} (hs : l.Pairwise (· < ·)) {r : Nat} (hr : r ∈ l) (hne : l ≠ []) : l.head hne ≤ r := by
  rcases l with _ | ⟨x, l⟩
  · exact absurd rfl hne
  · simp only [List.head_cons]
    rcases List.mem_cons.1 hr with h | h
    · exact h.ge
    · exact ((List.pairwise_cons.1 hs).1 r h).le

theorem giant_spec (hG : G.directed = false) (hn : 0 < G.vcount) :
    ∃ vs, giant G = inducedSubgraph G vs ∧ LargestComponent G.vcount G.edges vs := by
  classical
  obtain ⟨r0, -, hr0, hr0', -⟩ := clique_in_cluster (G := G) hn
  have hr0m : r0 ∈ rootsOf G := mem_rootsOf.2 ⟨hr0, hr0'⟩
  have hne : (clusters G).map List.length ≠ [] := by
    rw [clusters_eq]
    simp only [ne_eq, List.map_eq_nil_iff]
    exact List.ne_nil_of_mem hr0m
  obtain ⟨m, hm⟩ : ∃ m, ((clusters G).map List.length).max? = some m := by
    rcases h : ((clusters G).map List.length).max? with _ | m
    · exact absurd (List.max?_eq_none_iff.1 h) hne
    · exact ⟨m, rfl⟩
  obtain ⟨hmem, hmax⟩ := List.max?_eq_some_iff.1 hm
  set sizes := (clusters G).map List.length with hsizes
  set i := sizes.idxOf m with hi
  have hil : i < sizes.length := List.idxOf_lt_length_iff.2 hmem
  have hir : i < (rootsOf G).length := by simpa [hsizes, clusters_eq] using hil
  set r := (rootsOf G)[i] with hr
  have hrm : r ∈ rootsOf G := List.getElem_mem _
  obtain ⟨hrn, hrr⟩ := mem_rootsOf.1 hrm
  have hvs : (clusters G).getD i [] = compOf G r := by
    rw [clusters_eq, List.getD_eq_getElem?_getD, List.getElem?_eq_getElem (by simpa using hir)]
    simp [hr]
  have hlen : (compOf G r).length = m := by
    have : sizes[i] = m := List.getElem_idxOf hil
    rw [← this]
    simp [hsizes, clusters_eq, hr]
  have hmax' : ∀ v ∈ rootsOf G, (compOf G v).length ≤ m := by
    intro v hv
    refine hmax _ ?_
    rw [hsizes, clusters_eq, List.map_map]
    exact List.mem_map.2 ⟨v, hv, rfl⟩
  have hrc : r ∈ compOf G r := mem_compOf.2 ⟨hrn, Relation.ReflTransGen.refl⟩
  have hmpos : 0 < m := hlen ▸ List.length_pos_of_mem hrc
  have hcl : ∀ ws : List Nat, ws.Nodup → (∀ w ∈ ws, w < G.vcount) → (∀ w ∈ ws, ∀ x ∈ ws, Linked G.edges w x) →
      ∀ w ∈ ws, ∃ v ∈ rootsOf G, v ≤ w ∧ ws.length ≤ (compOf G v).length := by
    intro ws hnd hlt hco w hw
    obtain ⟨v, hvw, hvn, hvr, hre⟩ := clique_in_cluster (G := G) (hlt w hw)
    refine ⟨v, mem_rootsOf.2 ⟨hvn, hvr⟩, hvw, ?_⟩
    exact (hnd.subperm fun x hx =>
      mem_compOf.2 ⟨hlt x hx, hre.trans ((linked_iff hG).1 (hco w hw x hx))⟩).length_le
  refine ⟨compOf G r, ?_, ?_⟩
  · simp only [giant]
    rw [← hsizes, hm]
    simp only [← hi, hvs]
  · refine ⟨compOf_sorted r, fun v hv => (mem_compOf.1 hv).1, List.ne_nil_of_mem hrc, ?_, ?_, ?_⟩
    · intro v hv u hu
      have hv' := (mem_compOf.1 hv).2
      rw [linked_iff hG, mem_compOf]
      constructor
      · rintro ⟨-, h⟩; exact (reach_symm hG hv').trans h
      · intro h; exact ⟨hu, hv'.trans h⟩
    · intro ws hnd hlt hco
      rcases ws with _ | ⟨w, ws⟩
      · simp
      · obtain ⟨v, hv, -, hle⟩ := hcl _ hnd hlt hco w (by simp)
        exact hle.trans ((hmax' v hv).trans hlen.ge)
    · intro ws hnd hlt hco hws w hw
      obtain ⟨v, hv, hvw, hle⟩ := hcl _ hnd hlt hco w hw
      have hvm : (compOf G v).length = m := le_antisymm (hmax' v hv) (hlen ▸ hws ▸ hle)
      obtain ⟨j, hj, hjv⟩ := List.getElem_of_mem hv
      have hij : i ≤ j := by
        by_contra hlt'
        push Not at hlt'
        have hjs : j < sizes.length := lt_trans hlt' hil
        have : sizes[j] ≠ m := by
          have := List.not_of_lt_findIdx (p := (· == m)) (xs := sizes) (i := j) (by simpa [hi, List.idxOf] using hlt')
          simpa using this
        refine this ?_
        have : sizes[j] = (compOf G v).length := by simp [hsizes, clusters_eq, hjv]
        rw [this, hvm]
      have hrv : r ≤ v := by
        rcases eq_or_lt_of_le hij with h | h
        · have : r = v := by simp only [hr, ← hjv, h]
          exact this.le
        · have := (List.pairwise_iff_getElem.1 rootsOf_sorted) i j hir hj h
          rw [hjv] at this
          exact this.le
      have hhead := head_le_of_mem (compOf_sorted (G := G) r) hrc (List.ne_nil_of_mem hrc)
      exact hhead.trans (hrv.trans hvw)

theorem component_closed {vs : List Nat} (h : LargestComponent G.vcount G.edges vs)
    (hwf : ∀ e ∈ G.edges, e.1 < G.vcount ∧ e.2 < G.vcount) {e : Nat × Nat} (he : e ∈ G.edges) : e.1 ∈ vs ↔ e.2 ∈ vs := by
  constructor
  · intro h1
    exact (h.component _ h1 _ (hwf e he).2).2 (Relation.ReflTransGen.single (Or.inl he))
  · intro h2
    exact (h.component _ h2 _ (hwf e he).1).2 (Relation.ReflTransGen.single (Or.inr he))

theorem induced_edges {vs : List Nat} (h : LargestComponent G.vcount G.edges vs)
    (hwf : ∀ e ∈ G.edges, e.1 < G.vcount ∧ e.2 < G.vcount) :
    (inducedSubgraph G vs).edges.map (fun e => (vs.getD e.1 0, vs.getD e.2 0)) =
      G.edges.filter fun e => decide (e.1 ∈ vs ∨ e.2 ∈ vs) := by
  have hf : (G.edges.filter fun e => decide (e.1 ∈ vs ∧ e.2 ∈ vs)) = G.edges.filter fun e => decide (e.1 ∈ vs ∨ e.2 ∈ vs) := by
    refine List.filter_congr fun e he => ?_
    have := component_closed h hwf he
    by_cases h1 : e.1 ∈ vs
    · simp [h1, this.1 h1]
    · have h2 : e.2 ∉ vs := fun h2 => h1 (this.2 h2)
      simp [h1, h2]
  simp only [inducedSubgraph, List.map_map]
  rw [← hf]
  conv_rhs => rw [← List.map_id (G.edges.filter fun e => decide (e.1 ∈ vs ∧ e.2 ∈ vs))]
  refine List.map_congr_left fun e he => ?_
  have := (List.mem_filter.1 he).2
  simp only [decide_eq_true_eq] at this
  have hg : ∀ x ∈ vs, vs.getD (vs.idxOf x) 0 = x := by
    intro x hx
    have hl := List.idxOf_lt_length_iff.2 hx
    rw [List.getD_eq_getElem?_getD, List.getElem?_eq_getElem hl]
    simp
  simp only [Function.comp_apply, id_eq]
  rw [hg _ this.1, hg _ this.2]

theorem induced_lt {vs : List Nat} : ∀ e ∈ (inducedSubgraph G vs).edges, e.1 < vs.length ∧ e.2 < vs.length := by
  intro e he
  simp only [inducedSubgraph, List.mem_map, List.mem_filter, decide_eq_true_eq] at he
  obtain ⟨e', ⟨-, h1, h2⟩, rfl⟩ := he
  exact ⟨List.idxOf_lt_length_iff.2 h1, List.idxOf_lt_length_iff.2 h2⟩

theorem induced_connected (hG : G.directed = false) {vs : List Nat} (h : LargestComponent G.vcount G.edges vs)
    (hwf : ∀ e ∈ G.edges, e.1 < G.vcount ∧ e.2 < G.vcount) : (inducedSubgraph G vs).IsConnected := by
  have hnd : vs.Nodup := h.sorted.imp fun h => h.ne
  refine ⟨List.length_pos_of_ne_nil h.nonempty, ?_⟩
  have key : ∀ u v, u ∈ vs → G.Reach u v → v ∈ vs ∧ (inducedSubgraph G vs).Reach (vs.idxOf u) (vs.idxOf v) := by
    intro u v hu hr
    induction hr with
    | refl => exact ⟨hu, Relation.ReflTransGen.refl⟩
    | @tail b c _ hs ih =>
      have hc : c ∈ vs := by
        rcases hs with hs | ⟨-, hs⟩
        · exact (component_closed h hwf hs).1 ih.1
        · exact (component_closed h hwf hs).2 ih.1
      refine ⟨hc, ih.2.tail ?_⟩
      rcases hs with hs | ⟨hd, hs⟩
      · refine Or.inl ?_
        simp only [inducedSubgraph, List.mem_map, List.mem_filter, decide_eq_true_eq]
        exact ⟨(b, c), ⟨hs, ih.1, hc⟩, rfl⟩
      · refine Or.inr ⟨hd, ?_⟩
        simp only [inducedSubgraph, List.mem_map, List.mem_filter, decide_eq_true_eq]
        exact ⟨(c, b), ⟨hs, hc, ih.1⟩, rfl⟩
  intro i hi j hj
  have hi' : i < vs.length := hi
  have hj' : j < vs.length := hj
  have hl : Linked G.edges vs[i] vs[j] :=
    (h.component _ (List.getElem_mem hi') _ (h.inside _ (List.getElem_mem hj'))).1 (List.getElem_mem hj')
  have := (key _ _ (List.getElem_mem hi') ((linked_iff hG).1 hl)).2
  rwa [hnd.idxOf_getElem _ hi', hnd.idxOf_getElem _ hj'] at this

end

theorem graphOfEdges_wf (links : List (Nat × Nat)) :
    ∀ e ∈ (graphOfEdges links).edges, e.1 < (graphOfEdges links).vcount ∧ e.2 < (graphOfEdges links).vcount := by
  have mono : ∀ (l : List (Nat × Nat)) (n : Nat), n ≤ l.foldl (fun n e => max n (max (e.1 + 1) (e.2 + 1))) n := by
    intro l
    induction l with
    | nil => simp
    | cons e l ih => intro n; exact (le_max_left _ _).trans (ih _)
  have : ∀ (l : List (Nat × Nat)) (n : Nat), ∀ e ∈ l, e.1 < l.foldl (fun n e => max n (max (e.1 + 1) (e.2 + 1))) n ∧
      e.2 < l.foldl (fun n e => max n (max (e.1 + 1) (e.2 + 1))) n := by
    intro l
    induction l with
    | nil => simp
    | cons e l ih =>
      intro n x hx
      rcases List.mem_cons.1 hx with rfl | hx
      · have := mono l (max n (max (x.1 + 1) (x.2 + 1)))
        simp only [List.foldl_cons]
        omega
      · exact ih _ x hx
  exact this links 0

/-! ## Sorting and listing -/

/-- Python's sort keeps the order of entries with equal keys. -/
theorem pySortedBy_stable {α κ : Type} [LinearOrder κ] (key : α → κ) (k : κ) (l : List α) :
    (pySortedBy key l).filter (fun x => decide (key x = k)) = l.filter fun x => decide (key x = k) := by
  have ins : ∀ (a : α) (l : List α), (l.orderedInsert (fun a b => key a ≤ key b) a).filter (fun x => decide (key x = k)) =
      (a :: l).filter fun x => decide (key x = k) := by
    intro a l
    induction l with
    | nil => rfl
    | cons b l ih =>
      rw [List.orderedInsert]
      split
      · rfl
      · rename_i hab
        rw [List.filter_cons, ih]
        by_cases ha : key a = k
        · have hb : key b ≠ k := fun hb => hab (by rw [ha, hb])
          simp [List.filter_cons, ha, hb]
        · simp [List.filter_cons, ha]
  rw [pySortedBy]
  induction l with
  | nil => rfl
  | cons a l ih =>
    rw [List.insertionSort_cons, ins, List.filter_cons, ih, List.filter_cons]

theorem mapM_ok_iff_map {α β : Type} {f : α → Py β} {l : List α} {ys : List β} (h : l.mapM f = .ok ys) :
    (∀ x ∈ l, ∃ y ∈ ys, f x = .ok y) ∧ ∀ g : α → β, (∀ x ∈ l, f x = .ok (g x)) → ys = l.map g := by
  induction l generalizing ys with
  | nil =>
    rw [List.mapM_nil] at h
    cases h
    simp
  | cons a l ih =>
    rw [List.mapM_cons] at h
    obtain ⟨y, hy, h⟩ := Py.bind_ok.1 h
    obtain ⟨ys', hys, h⟩ := Py.bind_ok.1 h
    cases h
    obtain ⟨h1, h2⟩ := ih hys
    constructor
    · intro x hx
      rcases List.mem_cons.1 hx with rfl | hx
      · exact ⟨y, by simp, hy⟩
      · obtain ⟨y', hy', hxy⟩ := h1 x hx
        exact ⟨y', by simp [hy'], hxy⟩
    · intro g hg
      have := hg a (by simp)
      rw [hy] at this
      cases this
      rw [List.map_cons, ← h2 g fun x hx => hg x (by simp [hx])]

theorem mapM_of_ok {α β : Type} {f : α → Py β} {l : List α} {g : α → β} (h : ∀ x ∈ l, f x = .ok (g x)) :
    l.mapM f = .ok (l.map g) := by
  induction l with
  | nil => rfl
  | cons a l ih =>
    rw [List.mapM_cons, h a (by simp), ih fun x hx => h x (by simp [hx])]
    rfl

/-- The files that `read_graphs` reads, in its order. -/
def filesRead (dir : List DataFile) : List DataFile :=
  globSuffix ['.', 't', 'x', 't'] dir ++ globSuffix ['.', 'c', 's', 'v'] dir

theorem filesRead_perm {dir dir' : List DataFile} (h : dir.Perm dir') : (filesRead dir).Perm (filesRead dir') :=
  (h.filter _).append (h.filter _)

theorem readGraphsFor_ok {expected : List (List Char)} {dir : List DataFile} {g : DataFile → Graph ℝ}
    (he : ∀ n ∈ expected, n ∈ (filesRead dir).map Prod.fst) (hg : ∀ f ∈ filesRead dir, readDataFile f = .ok (g f)) :
    readGraphsFor expected dir = .ok (pySortedBy Graph.vcount ((filesRead dir).map g)) := by
  have hmiss : (expected.filter fun n => decide (n ∉ (filesRead dir).map Prod.fst)) = [] := by
    rw [List.filter_eq_nil_iff]
    intro n hn
    simp only [decide_not, Bool.not_eq_true', decide_eq_false_iff_not, not_not]
    exact he n hn
  simp only [readGraphsFor]
  rw [← filesRead, hmiss, if_neg (by simp), mapM_of_ok hg]

theorem readGraphsFor_inv {expected : List (List Char)} {dir : List DataFile} {gs : List (Graph ℝ)}
    (h : readGraphsFor expected dir = .ok gs) :
    (∀ n ∈ expected, n ∈ (filesRead dir).map Prod.fst) ∧ ∃ g : DataFile → Graph ℝ,
      (∀ f ∈ filesRead dir, readDataFile f = .ok (g f)) ∧ gs = pySortedBy Graph.vcount ((filesRead dir).map g) := by
  classical
  simp only [readGraphsFor] at h
  rw [← filesRead] at h
  split at h
  · cases h
  · rename_i hm
    simp only [ne_eq, not_not, List.filter_eq_nil_iff, decide_not, Bool.not_eq_true', decide_eq_false_iff_not] at hm
    refine ⟨hm, ?_⟩
    split at h
    · cases h
    · rename_i graphs hgr
      cases h
      obtain ⟨h1, h2⟩ := mapM_ok_iff_map hgr
      have h3 : ∀ f, ∃ y, f ∈ filesRead dir → readDataFile f = .ok y := by
        intro f
        by_cases hf : f ∈ filesRead dir
        · obtain ⟨y, -, hy⟩ := h1 f hf
          exact ⟨y, fun _ => hy⟩
        · exact ⟨⟨0, false, [], none⟩, fun hf' => absurd hf' hf⟩
      choose g hg using h3
      exact ⟨g, hg, by rw [h2 g hg]⟩

/-! ## Matrices -/

theorem pySplit_entries (entries : List (Nat × List Char × List Char))
    (h : ∀ x ∈ entries, Decimal x.1 x.2.1 ∧ Blank x.2.2) (hg : ∀ x ∈ entries.dropLast, x.2.2 ≠ []) :
    pySplit (entries.flatMap fun x => x.2.1 ++ x.2.2) = entries.map fun x => x.2.1 := by
  induction entries with
  | nil => rfl
  | cons x l ih =>
    have hx := h x (by simp)
    rcases l with _ | ⟨y, l⟩
    · simp only [List.flatMap_cons, List.flatMap_nil, List.append_nil, List.map_cons, List.map_nil]
      rcases ht : x.2.2 with _ | ⟨d, t⟩
      · rw [List.append_nil, pySplit_end hx.1.noSpace hx.1.1]
      · have h2 := pySplit_word hx.1.noSpace hx.1.1 hx.2.space (by simp [ht]) []
        rw [List.append_nil, ht] at h2
        rw [h2]; rfl
    · have hne : x.2.2 ≠ [] := hg x (by simp)
      rw [List.flatMap_cons, pySplit_word hx.1.noSpace hx.1.1 hx.2.space hne,
        ih (fun z hz => h z (by simp at hz ⊢; tauto)) (fun z hz => hg z (by
          rw [List.dropLast_cons_of_ne_nil (by simp)]
          exact List.mem_cons_of_mem _ hz))]
      rfl

theorem mapM_entries (entries : List (Nat × List Char × List Char)) (h : ∀ x ∈ entries, Decimal x.1 x.2.1 ∧ Blank x.2.2) :
    (entries.map fun x => x.2.1).mapM pyInt = .ok ((entries.map Prod.fst).map fun (n : Nat) => (n : Int)) := by
  induction entries with
  | nil => rfl
  | cons x l ih =>
    rw [List.map_cons, List.mapM_cons, pyInt_decimal' (h x (by simp)).1, ih fun z hz => h z (by simp [hz])]
    rfl

theorem row_parse {row : List Nat} {line : List Char} (h : RowText row line) :
    (pySplit line).mapM pyInt = .ok (row.map fun (n : Nat) => (n : Int)) ∧ (∀ c ∈ line, c ≠ '\n' ∧ c ≠ '\r') := by
  obtain ⟨front, entries, hf, he, hg, rfl, rfl⟩ := h
  constructor
  · rw [pySplit_front hf.space, pySplit_entries _ he hg, mapM_entries _ he]
  · intro c hc
    rcases List.mem_append.1 hc with hc | hc
    · have := blank_cases (hf c hc); exact ⟨this.2.2.1, this.2.2.2.1⟩
    · obtain ⟨x, hx, hc⟩ := List.mem_flatMap.1 hc
      rcases List.mem_append.1 hc with hc | hc
      · have := digit_cases ((he x hx).1.2.1 c hc); exact ⟨this.2.2.2.2.2.2.1, this.2.2.2.2.2.2.2.1⟩
      · have := blank_cases ((he x hx).2 c hc); exact ⟨this.2.2.1, this.2.2.2.1⟩

theorem strip_line {line : List Char} (h : ∀ c ∈ line, c ≠ '\n' ∧ c ≠ '\r') {end' : List Char} (he : end' = [] ∨ end' = ['\n']) :
    ((line ++ end').dropWhile fun c => c = '\r' || c = '\n').rdropWhile (fun c => c = '\r' || c = '\n') = line := by
  rcases line with _ | ⟨c, l⟩
  · rcases he with rfl | rfl <;> decide
  · have h1 : ((c :: l) ++ end').dropWhile (fun c => decide (c = '\r') || decide (c = '\n')) = (c :: l) ++ end' := by
      rw [List.cons_append, List.dropWhile_cons, if_neg]
      have := h c (by simp)
      simp [this.1, this.2]
    rw [h1]
    have h2 : (c :: l).rdropWhile (fun c => decide (c = '\r') || decide (c = '\n')) = c :: l := by
      rw [List.rdropWhile_eq_self_iff]
      intro hl
      have := h _ (List.getLast_mem hl)
      simp only [Bool.or_eq_true, decide_eq_true_eq, not_or]
      exact ⟨this.2, this.1⟩
    rcases he with rfl | rfl
    · rw [List.append_nil]; exact h2
    · rw [List.rdropWhile_concat_pos _ _ _ (by simp)]; exact h2

theorem matrix_parse {text : List Char} {rows : List (List Nat)} (h : MatrixFile text rows) :
    adjacencyFromDat (readlines text) = .ok (rows.map fun row => row.map fun (n : Nat) => (n : Int)) := by
  induction h with
  | done => rfl
  | @empty text rows _ ih =>
    have : readlines ('\n' :: text) = ['\n'] :: readlines text := by simp [readlines]
    rw [this]
    simp only [adjacencyFromDat, List.map_cons] at ih ⊢
    rw [List.filter_cons_of_neg (by decide)]
    exact ih
  | @row row line text rows hr hne _ ih =>
    obtain ⟨h1, h2⟩ := row_parse hr
    rw [readlines_line fun hc => (h2 _ hc).1 rfl]
    simp only [adjacencyFromDat, List.map_cons, strip_line h2 (Or.inr rfl)] at ih ⊢
    rw [List.filter_cons_of_pos (by simpa using List.length_pos_of_ne_nil hne), List.mapM_cons, h1, ih]
    rfl
  | @last row line hr hne =>
    obtain ⟨h1, h2⟩ := row_parse hr
    rw [readlines_last (fun hc => (h2 _ hc).1 rfl) hne]
    have := strip_line h2 (Or.inl rfl)
    rw [List.append_nil] at this
    simp only [adjacencyFromDat, List.map_cons, this, List.map_nil]
    rw [List.filter_cons_of_pos (by simpa using List.length_pos_of_ne_nil hne), List.mapM_cons, h1]
    rfl

/-! ## Writing -/

/-- A number in decimal notation. -/
def writeNat (n : Nat) : List Char := if n = 0 then ['0'] else (Nat.digits 10 n).reverse.map fun d => Char.ofNat (48 + d)

theorem writeNat_decimal (n : Nat) : Decimal n (writeNat n) := by
  unfold writeNat
  split
  · rename_i h; subst h
    exact ⟨by simp, by simp, rfl⟩
  · rename_i h
    have hd : ∀ d < 10, Char.ofNat (48 + d) ∈ ['0', '1', '2', '3', '4', '5', '6', '7', '8', '9'] ∧
        (Char.ofNat (48 + d)).toNat - '0'.toNat = d := by decide
    refine ⟨by simpa [Nat.digits_eq_nil_iff_eq_zero] using h, ?_, ?_⟩
    · intro c hc
      obtain ⟨d, hdm, rfl⟩ := List.mem_map.1 hc
      exact (hd d (Nat.digits_lt_base (by omega) (List.mem_reverse.1 hdm))).1
    · rw [← List.map_reverse, List.reverse_reverse, List.map_map]
      have : (Nat.digits 10 n).map ((fun c => c.toNat - '0'.toNat) ∘ fun d => Char.ofNat (48 + d)) = Nat.digits 10 n := by
        conv_rhs => rw [← List.map_id (Nat.digits 10 n)]
        exact List.map_congr_left fun d hdm => (hd d (Nat.digits_lt_base (by omega) hdm)).2
      rw [this, Nat.ofDigits_digits]

/-- A file with the given links. -/
def writeTsv : List (Nat × Nat) → List Char
  | [] => []
  | e :: l => [] ++ writeNat e.1 ++ ['\t'] ++ writeNat e.2 ++ [] ++ '\n' :: writeTsv l

theorem writeTsv_ok (links : List (Nat × Nat)) : TsvFile (writeTsv links) links := by
  induction links with
  | nil => exact TsvFile.done
  | cons e l ih =>
    exact TsvFile.link (by simp [Blank]) (writeNat_decimal _) (by simp [Blank]) (by simp) (writeNat_decimal _) (by simp [Blank]) ih

/-- The same, comma separated. -/
def writeCsv : List (Nat × Nat) → List Char
  | [] => []
  | e :: l => writeNat e.1 ++ ',' :: writeNat e.2 ++ '\n' :: writeCsv l

theorem writeCsv_ok (links : List (Nat × Nat)) : CsvFile (writeCsv links) links := by
  induction links with
  | nil => exact CsvFile.done
  | cons e l ih => exact CsvFile.link (writeNat_decimal _) (writeNat_decimal _) ih

end Verif
