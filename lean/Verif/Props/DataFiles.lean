import Verif.Proofs.DataFiles

/-!
# C104: reading the data files
-/

namespace Verif.Props
open Verif Spec

theorem graphOfEdges_vcount (links : List (Nat × Nat)) (hne : links ≠ []) :
    ∃ e ∈ links, (graphOfEdges links).vcount = max e.1 e.2 + 1 := by
  have : ∀ (l : List (Nat × Nat)) (n : Nat), l.foldl (fun n e => max n (max (e.1 + 1) (e.2 + 1))) n = n ∨
      ∃ e ∈ l, l.foldl (fun n e => max n (max (e.1 + 1) (e.2 + 1))) n = max e.1 e.2 + 1 := by
    intro l
    induction l with
    | nil => intro n; exact Or.inl rfl
    | cons e l ih =>
      intro n
      simp only [List.foldl_cons]
      rcases ih (max n (max (e.1 + 1) (e.2 + 1))) with h | ⟨x, hx, h⟩
      · rw [h]
        rcases le_total n (max (e.1 + 1) (e.2 + 1)) with h' | h'
        · refine Or.inr ⟨e, by simp, ?_⟩
          omega
        · exact Or.inl (max_eq_left h')
      · exact Or.inr ⟨x, by simp [hx], h⟩
  rcases this links 0 with h | h
  · obtain ⟨e, he⟩ := List.exists_mem_of_ne_nil links hne
    have h' := (graphOfEdges_wf links e he).1
    have h0 : (graphOfEdges links).vcount = 0 := h
    omega
  · exact h

theorem giantOf_links (links : List (Nat × Nat)) : GiantOf links (giant (graphOfEdges links)) := by
  by_cases hne : links = []
  · subst hne
    have : giant (graphOfEdges []) = graphOfEdges [] := by
      have : clusters (graphOfEdges []) = [] := by
        rw [clusters_eq]
        have : rootsOf (graphOfEdges []) = [] := List.eq_nil_iff_forall_not_mem.2 fun v hv => by
          have := (mem_rootsOf.1 hv).1
          simp [graphOfEdges] at this
        rw [this]; rfl
      simp [giant, this]
    rw [this]
    exact ⟨rfl, rfl, Or.inl ⟨rfl, rfl, rfl⟩⟩
  · obtain ⟨e, he, hv⟩ := graphOfEdges_vcount links hne
    obtain ⟨vs, hg, hl⟩ := giant_spec (G := graphOfEdges links) rfl (by omega)
    rw [hg]
    exact ⟨rfl, rfl, Or.inr ⟨_, vs, ⟨e, he, hv⟩, graphOfEdges_wf links, hl, rfl, induced_lt,
      induced_edges hl (graphOfEdges_wf links)⟩⟩

/-- **C104.** A SNAP edge list (`read_file(name, "tsv")`): the graph is the largest connected component of the links in the file,
each link as often as it is in the file – also if it is there in both directions –, and connected. -/
theorem c104_tsv {text : List Char} {links : List (Nat × Nat)} (h : TsvFile text links) :
    ∃ G, readTsv text = .ok G ∧ GiantOf links G ∧ (links ≠ [] → G.IsConnected) := by
  refine ⟨_, readTsv_ok h, giantOf_links links, fun hne => ?_⟩
  obtain ⟨e, he, hv⟩ := graphOfEdges_vcount links hne
  obtain ⟨vs, hg, hl⟩ := giant_spec (G := graphOfEdges links) rfl (by omega)
  rw [hg]
  exact induced_connected rfl hl (graphOfEdges_wf links)

/-- **C104.** The same for `read_file(name, "csv")`. -/
theorem c104_csv {text : List Char} {links : List (Nat × Nat)} (h : CsvFile text links) :
    ∃ G, readCsv text = .ok G ∧ GiantOf links G ∧ (links ≠ [] → G.IsConnected) := by
  refine ⟨_, readCsv_ok h, giantOf_links links, fun hne => ?_⟩
  obtain ⟨e, he, hv⟩ := graphOfEdges_vcount links hne
  obtain ⟨vs, hg, hl⟩ := giant_spec (G := graphOfEdges links) rfl (by omega)
  rw [hg]
  exact induced_connected rfl hl (graphOfEdges_wf links)

/-- **C104.** The largest component consists of vertices that occur in the file, if a link joins two different vertices (the numbers
that do not occur are isolated vertices of the network; a file with self-links only is answered with vertex 0). -/
theorem c104_vertices {n : Nat} {links : List (Nat × Nat)} {vs : List Nat} (hn : ∀ e ∈ links, e.1 < n ∧ e.2 < n)
    (h : LargestComponent n links vs) {e : Nat × Nat} (he : e ∈ links) (hne : e.1 ≠ e.2) :
    ∀ v ∈ vs, ∃ x ∈ links, x.1 = v ∨ x.2 = v := by
  intro v hv
  have h2 : 2 ≤ vs.length := by
    have hl : Linked links e.1 e.2 := Relation.ReflTransGen.single (Or.inl he)
    have hl' : Linked links e.2 e.1 := Relation.ReflTransGen.single (Or.inr he)
    refine h.largest [e.1, e.2] (by simp [hne]) ?_ ?_
    · intro w hw
      simp only [List.mem_cons, List.not_mem_nil, or_false] at hw
      rcases hw with rfl | rfl
      · exact (hn e he).1
      · exact (hn e he).2
    · intro w hw x hx
      simp only [List.mem_cons, List.not_mem_nil, or_false] at hw hx
      rcases hw with rfl | rfl <;> rcases hx with rfl | rfl
      · exact Relation.ReflTransGen.refl
      · exact hl
      · exact hl'
      · exact Relation.ReflTransGen.refl
  obtain ⟨u, hu, huv⟩ : ∃ u ∈ vs, u ≠ v := by
    by_contra hall
    push Not at hall
    have hnd : vs.Nodup := h.sorted.imp fun h => h.ne
    have := (hnd.subperm (l₂ := [v]) fun x hx => by simp [hall x hx]).length_le
    simp at this
    omega
  have hl : Linked links v u := (h.component v hv u (h.inside u hu)).1 hu
  rcases Relation.ReflTransGen.cases_head hl with h' | ⟨w, hw, -⟩
  · exact absurd h'.symm huv
  · rcases hw with hw | hw
    · exact ⟨_, hw, Or.inl rfl⟩
    · exact ⟨_, hw, Or.inr rfl⟩

theorem readlines_append {t : List Char} (ht : t = [] ∨ t.getLast? = some '\n') (s : List Char) :
    readlines (t ++ s) = readlines t ++ readlines s := by
  induction t with
  | nil => rfl
  | cons c t ih =>
    rcases t with _ | ⟨d, t⟩
    · have : c = '\n' := by simpa using ht
      subst this
      simp [readlines]
    · have ih' := ih (Or.inr (by simpa using ht))
      rw [List.cons_append, readlines, ih', readlines.eq_2 c (d :: t)]
      split
      · rfl
      · rcases hr : readlines (d :: t) with _ | ⟨l, ls⟩
        · exfalso
          rw [readlines] at hr
          split at hr
          · cases hr
          · split at hr <;> cases hr
        · rfl

/-- **C104.** A line without anything but blanks – e.g. an empty line at the end – makes either format fail, whatever else is in the
file. -/
theorem c104_blank_line {before blank : List Char} (hb : before = [] ∨ before.getLast? = some '\n') (h : Blank blank)
    (after : List Char) :
    (∀ G, readTsv (before ++ (blank ++ '\n' :: after)) ≠ .ok G) ∧ ∀ G, readCsv (before ++ (blank ++ '\n' :: after)) ≠ .ok G := by
  have hlines : blank ++ ['\n'] ∈ readlines (before ++ (blank ++ '\n' :: after)) := by
    rw [readlines_append hb, readlines_line h.noNewline]
    simp
  have hsp : ∀ c ∈ blank ++ ['\n'], isSpaceChar c = true := by
    intro c hc
    rcases List.mem_append.1 hc with hc | hc
    · exact h.space c hc
    · rw [List.mem_singleton.1 hc]; decide
  constructor
  · intro G hG
    rw [readTsv] at hG
    obtain ⟨tuples, ht, hG⟩ := Py.bind_ok.1 hG
    obtain ⟨edges, he, -⟩ := Py.bind_ok.1 hG
    have hin : blank ++ ['\n'] ∈ (readlines (before ++ (blank ++ '\n' :: after))).filter fun l => decide (l.head? ≠ some '#') := by
      refine List.mem_filter.2 ⟨hlines, ?_⟩
      rcases blank with _ | ⟨c, blank⟩
      · decide
      · have := (blank_cases (h c (by simp))).2.1
        simpa using this
    obtain ⟨y, hy, hyv⟩ := (mapM_ok_iff_map ht).1 _ hin
    rw [pySplit_blank hsp] at hyv
    cases hyv
    obtain ⟨z, -, hz⟩ := (mapM_ok_iff_map he).1 _ hy
    cases hz
  · intro G hG
    rw [readCsv] at hG
    obtain ⟨tuples, ht, hG⟩ := Py.bind_ok.1 hG
    have hin : blank ++ ['\n'] ∈
        (readlines (before ++ (blank ++ '\n' :: after))).filter fun l => decide (¬ ['n', 'o', 'd', 'e'] <:+: l) := by
      refine List.mem_filter.2 ⟨hlines, ?_⟩
      simp only [decide_not, Bool.not_eq_true', decide_eq_false_iff_not]
      intro hin
      have := hsp 'n' (hin.subset (by simp))
      exact absurd this (by decide)
    have hcomma : ',' ∉ blank ++ ['\n'] := fun hc => by
      have := hsp ',' hc
      exact absurd this (by decide)
    obtain ⟨y, -, hy⟩ := (mapM_ok_iff_map ht).1 _ hin
    rw [splitComma_word hcomma, List.mapM_cons, pyInt_blank hsp] at hy
    cases hy

/-- **C104.** `int` reads a number with or without a minus sign, whatever whitespace follows. -/
theorem c104_int {i : Int} {s t : List Char} (h : SignedDecimal i s) (ht : ∀ c ∈ t, isSpaceChar c = true) :
    pyInt (s ++ t) = .ok i := by
  obtain ⟨n, ⟨rfl, h⟩ | ⟨s, rfl, rfl, h⟩⟩ := h
  · exact pyInt_decimal h ht
  · have h1 := strip_decimal h ht
    have h2 := digitsValue_decimal h
    have h3 : ((('-' :: s) ++ t).dropWhile isSpaceChar).rdropWhile isSpaceChar = '-' :: s := by
      have hm : isSpaceChar '-' = false := by decide
      have e1 : (('-' :: s) ++ t).dropWhile isSpaceChar = '-' :: (s ++ t) := by simp [hm]
      have e2 : (s ++ t).dropWhile isSpaceChar = s ++ t := by
        rcases s with _ | ⟨c, s⟩
        · exact absurd rfl h.1
        · simp [h.noSpace c (by simp)]
      rw [e2] at h1
      rw [e1, List.rdropWhile, List.reverse_cons, List.dropWhile_append]
      rw [List.rdropWhile] at h1
      have h4 : (s ++ t).reverse.dropWhile isSpaceChar = s.reverse := by
        rw [← h1, List.reverse_reverse]
        rw [h1]
      rw [h4]
      have : s.reverse.isEmpty = false := by
        rcases s with _ | ⟨c, s⟩
        · exact absurd rfl h.1
        · simp
      simp [this]
    simp only [pyInt, h3]
    rw [if_pos trivial, h2]
    rfl

theorem _root_.Verif.Spec.SignedDecimal.ne {i : Int} {s : List Char} (h : SignedDecimal i s) : s ≠ [] := by
  obtain ⟨n, ⟨-, h⟩ | ⟨t, rfl, -, -⟩⟩ := h
  · exact h.1
  · simp

theorem _root_.Verif.Spec.SignedDecimal.chars {i : Int} {s : List Char} (h : SignedDecimal i s) :
    ∀ c ∈ s, isSpaceChar c = false ∧ c ≠ '\n' ∧ c ≠ '#' ∧ c ≠ ',' ∧ c ≠ 'n' := by
  obtain ⟨n, ⟨-, h⟩ | ⟨t, rfl, -, h⟩⟩ := h
  all_goals
    intro c hc
    have hd : ∀ c ∈ ['0', '1', '2', '3', '4', '5', '6', '7', '8', '9'],
      isSpaceChar c = false ∧ c ≠ '\n' ∧ c ≠ '#' ∧ c ≠ ',' ∧ c ≠ 'n' := by decide
  · exact hd c (h.2.1 c hc)
  · rcases List.mem_cons.mp hc with rfl | hc
    · decide
    · exact hd c (h.2.1 c hc)

theorem edgeOfTuple_negative {i j : Int} (h : i < 0 ∨ j < 0) (e : Nat × Nat) : edgeOfTuple [i, j] ≠ .ok e := by
  unfold edgeOfTuple
  dsimp only
  rw [if_pos h]
  intro h
  cases h

/-- **C104.** A line with a negative number, at whichever end of the link, makes either format fail, whatever else is in the
file. -/
theorem c104_negative {before a gap b : List Char} (hbefore : before = [] ∨ before.getLast? = some '\n') {i j : Int}
    (ha : SignedDecimal i a) (hb : SignedDecimal j b) (hneg : i < 0 ∨ j < 0) (hg : Blank gap) (hgne : gap ≠ []) (after : List Char) :
    (∀ G, readTsv (before ++ (a ++ gap ++ b ++ '\n' :: after)) ≠ .ok G) ∧
    ∀ G, readCsv (before ++ (a ++ ',' :: b ++ '\n' :: after)) ≠ .ok G := by
  constructor
  · intro G hG
    have hline : '\n' ∉ a ++ gap ++ b := by
      intro hc
      rcases List.mem_append.1 hc with hc | hc
      · rcases List.mem_append.1 hc with hc | hc
        · exact (ha.chars _ hc).2.1 rfl
        · exact hg.noNewline hc
      · exact (hb.chars _ hc).2.1 rfl
    rw [readTsv] at hG
    obtain ⟨tuples, ht, hG⟩ := Py.bind_ok.1 hG
    obtain ⟨edges, he, -⟩ := Py.bind_ok.1 hG
    have hin : a ++ gap ++ b ++ ['\n'] ∈ (readlines (before ++ (a ++ gap ++ b ++ '\n' :: after))).filter
        fun l => decide (l.head? ≠ some '#') := by
      refine List.mem_filter.2 ⟨?_, ?_⟩
      · rw [readlines_append hbefore, readlines_line hline]
        simp
      · rcases a with _ | ⟨c, a⟩
        · exact absurd rfl ha.ne
        · have := (ha.chars c (by simp)).2.2.1
          simpa using this
    obtain ⟨y, hy, hyv⟩ := (mapM_ok_iff_map ht).1 _ hin
    have hs : pySplit (a ++ gap ++ b ++ ['\n']) = [a, b] := by
      rw [List.append_assoc, List.append_assoc, ← List.append_assoc a, pySplit_word (fun c hc => (ha.chars c hc).1) ha.ne hg.space hgne]
      have := pySplit_word (fun c hc => (hb.chars c hc).1) hb.ne (g := ['\n']) (by decide) (by simp) []
      rw [List.append_nil] at this
      rw [this]; rfl
    have ia := c104_int (t := []) ha (by simp)
    have ib := c104_int (t := []) hb (by simp)
    rw [List.append_nil] at ia ib
    rw [hs] at hyv
    simp only [List.mapM_cons, List.mapM_nil, ia, ib] at hyv
    cases hyv
    obtain ⟨z, -, hz⟩ := (mapM_ok_iff_map he).1 _ hy
    exact edgeOfTuple_negative hneg z hz
  · intro G hG
    have hline : '\n' ∉ a ++ ',' :: b := by
      intro hc
      rcases List.mem_append.1 hc with hc | hc
      · exact (ha.chars _ hc).2.1 rfl
      · rcases List.mem_cons.1 hc with hc | hc
        · exact absurd hc (by decide)
        · exact (hb.chars _ hc).2.1 rfl
    rw [readCsv] at hG
    obtain ⟨tuples, ht, hG⟩ := Py.bind_ok.1 hG
    obtain ⟨edges, he, -⟩ := Py.bind_ok.1 hG
    have hin : a ++ ',' :: b ++ ['\n'] ∈ (readlines (before ++ (a ++ ',' :: b ++ '\n' :: after))).filter
        fun l => decide (¬ ['n', 'o', 'd', 'e'] <:+: l) := by
      refine List.mem_filter.2 ⟨?_, ?_⟩
      · rw [readlines_append hbefore, readlines_line hline]
        simp
      · simp only [decide_not, Bool.not_eq_true', decide_eq_false_iff_not]
        intro hin
        have hn : 'n' ∈ a ++ ',' :: b ++ ['\n'] := hin.subset (by simp)
        rcases List.mem_append.1 hn with hn | hn
        · rcases List.mem_append.1 hn with hc | hc
          · exact (ha.chars _ hc).2.2.2.2 rfl
          · rcases List.mem_cons.1 hc with hc | hc
            · exact absurd hc (by decide)
            · exact (hb.chars _ hc).2.2.2.2 rfl
        · exact absurd hn (by decide)
    obtain ⟨y, hy, hyv⟩ := (mapM_ok_iff_map ht).1 _ hin
    have hs : splitComma (a ++ ',' :: b ++ ['\n']) = [a, b ++ ['\n']] := by
      rw [List.append_assoc, List.cons_append, splitComma_comma fun hc => (ha.chars _ hc).2.2.2.1 rfl, splitComma_word]
      intro hc
      rcases List.mem_append.1 hc with hc | hc
      · exact (hb.chars _ hc).2.2.2.1 rfl
      · exact absurd hc (by decide)
    have ia := c104_int (t := []) ha (by simp)
    have ib := c104_int (t := ['\n']) hb (by decide)
    rw [List.append_nil] at ia
    rw [hs] at hyv
    simp only [List.mapM_cons, List.mapM_nil, ia, ib] at hyv
    cases hyv
    obtain ⟨z, -, hz⟩ := (mapM_ok_iff_map he).1 _ hy
    exact edgeOfTuple_negative hneg z hz

/-- The hypotheses of `c104_negative`. -/
example : SignedDecimal 1 ['1'] ∧ SignedDecimal (-2) ['-', '2'] :=
  ⟨⟨1, Or.inl ⟨rfl, by simp, by decide, by decide⟩⟩, ⟨2, Or.inr ⟨['2'], rfl, rfl, by simp, by decide, by decide⟩⟩⟩

/-- What a file of the directory is: the links in it, by the name of the file. -/
def Holds (f : DataFile) (links : List (Nat × Nat)) : Prop :=
  if ".txt".toList <:+: f.1 then TsvFile f.2 links else CsvFile f.2 links

/-- The files that are read: all with the suffix `.txt` or `.csv` that are not hidden. -/
def IsRead (f : DataFile) : Prop := f.1.head? ≠ some '.' ∧ (".txt".toList <:+ f.1 ∨ ".csv".toList <:+ f.1)

instance (f : DataFile) : Decidable (IsRead f) := by unfold IsRead; infer_instance

theorem filesRead_isRead (dir : List DataFile) : (filesRead dir).Perm (dir.filter fun f => decide (IsRead f)) := by
  have ht : ".txt".toList = ['.', 't', 'x', 't'] := rfl
  have hc : ".csv".toList = ['.', 'c', 's', 'v'] := rfl
  have hdis : ∀ n : List Char, ['.', 't', 'x', 't'] <:+ n → ¬ ['.', 'c', 's', 'v'] <:+ n := by
    intro n h1 h2
    have := List.suffix_of_suffix_length_le h1 h2 (by simp)
    have := this.eq_of_length (by simp)
    exact absurd this (by decide)
  induction dir with
  | nil => exact List.Perm.nil
  | cons f dir ih =>
    simp only [filesRead, globSuffix, List.filter_cons] at ih ⊢
    by_cases hd : f.1.head? = some '.'
    · simpa [IsRead, hd] using ih
    · by_cases h1 : ['.', 't', 'x', 't'] <:+ f.1
      · have h2 := hdis _ h1
        simp only [IsRead, hd, h1, h2, ht, hc, ne_eq, not_false_eq_true, and_self, decide_true, if_true, and_false, decide_false,
          true_or, Bool.false_eq_true, if_false, List.cons_append]
        exact List.Perm.cons _ ih
      · by_cases h2 : ['.', 'c', 's', 'v'] <:+ f.1
        · simp only [IsRead, hd, h1, h2, ht, hc, ne_eq, not_false_eq_true, and_self, decide_true, if_true, and_false, decide_false,
            or_true, Bool.false_eq_true, if_false]
          exact List.perm_middle.trans (List.Perm.cons _ ih)
        · simpa [IsRead, hd, h1, h2, ht, hc] using ih

theorem mem_filesRead {dir : List DataFile} {f : DataFile} : f ∈ filesRead dir ↔ f ∈ dir ∧ IsRead f := by
  rw [(filesRead_isRead dir).mem_iff]
  simp

theorem readDataFile_ok {f : DataFile} {links : List (Nat × Nat)} (h : Holds f links) :
    readDataFile f = .ok (giant (graphOfEdges links)) := by
  have ht : ".txt".toList = ['.', 't', 'x', 't'] := rfl
  unfold Holds at h
  rw [ht] at h
  rw [readDataFile]
  split
  · rw [if_pos (by assumption)] at h; exact readTsv_ok h
  · rw [if_neg (by assumption)] at h; exact readCsv_ok h

theorem mem_expectedFiles {n : List Char} : n ∈ expectedFiles ↔ ∃ s ∈ snapFiles, n = s.toList := by
  have h : expectedFiles.Perm (snapFiles.map String.toList) := by decide +kernel
  rw [h.mem_iff, List.mem_map]
  exact ⟨fun ⟨s, hs, e⟩ => ⟨s, hs, e.symm⟩, fun ⟨s, hs, e⟩ => ⟨s, hs, e.symm⟩⟩

theorem missing_expected (dir : List DataFile) :
    readGraphs dir = .error .notFound ↔ ∃ n ∈ expectedFiles, n ∉ dir.map Prod.fst := by
  have hexp : ∀ n ∈ expectedFiles, n.head? ≠ some '.' ∧ (".txt".toList <:+ n ∨ ".csv".toList <:+ n) := by decide +kernel
  have hiff : ∀ n ∈ expectedFiles, (n ∈ (filesRead dir).map Prod.fst ↔ n ∈ dir.map Prod.fst) := by
    intro n hn
    simp only [List.mem_map, mem_filesRead]
    constructor
    · rintro ⟨f, ⟨hf, -⟩, rfl⟩; exact ⟨f, hf, rfl⟩
    · rintro ⟨f, hf, rfl⟩; exact ⟨f, ⟨hf, hexp _ hn⟩, rfl⟩
  simp only [readGraphs, readGraphsFor]
  rw [← filesRead]
  constructor
  · intro h
    split at h
    · rename_i hm
      obtain ⟨n, hn⟩ := List.exists_mem_of_ne_nil _ hm
      obtain ⟨hn1, hn2⟩ := List.mem_filter.1 hn
      exact ⟨n, hn1, fun hc => by simpa using of_decide_eq_true hn2 ((hiff n hn1).2 hc)⟩
    · split at h <;> cases h
  · rintro ⟨n, hn, hnd⟩
    rw [if_pos]
    refine List.ne_nil_of_mem (a := n) (List.mem_filter.2 ⟨hn, ?_⟩)
    exact decide_eq_true fun hc => hnd ((hiff n hn).1 hc)

/-- **C104.** `read_graphs()` raises `FileNotFoundError` exactly if one of the sixteen files of SNAP is missing. -/
theorem c104_missing (dir : List DataFile) :
    readGraphs dir = .error .notFound ↔ ∃ s ∈ snapFiles, s.toList ∉ dir.map Prod.fst := by
  rw [missing_expected]
  constructor
  · rintro ⟨n, hn, h⟩
    obtain ⟨s, hs, rfl⟩ := mem_expectedFiles.mp hn
    exact ⟨s, hs, h⟩
  · rintro ⟨s, hs, h⟩
    exact ⟨_, mem_expectedFiles.mpr ⟨s, hs, rfl⟩, h⟩

/-- **C104.** If all files are there and well-formed, `read_graphs()` returns one graph for every file in the directory that is called
`*.txt` or `*.csv` – also those that are not among the sixteen –, each the largest component of the file, by number of vertices. -/
theorem c104_graphs {dir : List DataFile} (hexp₀ : ∀ s ∈ snapFiles, s.toList ∈ dir.map Prod.fst)
    {links : DataFile → List (Nat × Nat)} (hl : ∀ f ∈ dir, IsRead f → Holds f (links f)) :
    ∃ (gs : List (Graph ℝ)) (graphOf : DataFile → Graph ℝ), readGraphs dir = .ok gs ∧
      gs.Pairwise (fun G H => G.vcount ≤ H.vcount) ∧ gs.Perm ((dir.filter fun f => decide (IsRead f)).map graphOf) ∧
      ∀ f, GiantOf (links f) (graphOf f) := by
  have hexp : ∀ n ∈ expectedFiles, n ∈ dir.map Prod.fst := by
    intro n hn
    obtain ⟨s, hs, rfl⟩ := mem_expectedFiles.mp hn
    exact hexp₀ s hs
  have hexp' : ∀ n ∈ expectedFiles, n.head? ≠ some '.' ∧ (".txt".toList <:+ n ∨ ".csv".toList <:+ n) := by decide +kernel
  have hok := readGraphsFor_ok (expected := expectedFiles) (dir := dir) (g := fun f => giant (graphOfEdges (links f)))
    (by
      intro n hn
      obtain ⟨f, hf, rfl⟩ := List.mem_map.1 (hexp n hn)
      exact List.mem_map.2 ⟨f, mem_filesRead.2 ⟨hf, hexp' _ hn⟩, rfl⟩)
    (fun f hf => readDataFile_ok (hl f (mem_filesRead.1 hf).1 (mem_filesRead.1 hf).2))
  exact ⟨_, _, hok, pySortedBy_pairwise _ _, (pySortedBy_perm _ _).trans ((filesRead_isRead dir).map _),
    fun f => giantOf_links (links f)⟩

/-- **C104.** If the graphs have different numbers of vertices, the list does not depend on the order in which the operating system
lists the directory: graph number `i` – and with it `parts{i}.p` – is the same on every machine. -/
theorem c104_order {dir dir' : List DataFile} (hp : dir.Perm dir') {gs : List (Graph ℝ)} (h : readGraphs dir = .ok gs)
    (hd : (gs.map Graph.vcount).Nodup) : readGraphs dir' = .ok gs := by
  obtain ⟨h1, g, hg, rfl⟩ := readGraphsFor_inv h
  have hperm := filesRead_perm hp
  have h2 := readGraphsFor_ok (expected := expectedFiles) (dir := dir') (g := g)
    (fun n hn => (hperm.map Prod.fst).mem_iff.1 (h1 n hn)) (fun f hf => hg f (hperm.mem_iff.2 hf))
  rw [readGraphs, h2]
  have hpp : (pySortedBy Graph.vcount ((filesRead dir').map g)).Perm (pySortedBy Graph.vcount ((filesRead dir).map g)) :=
    (pySortedBy_perm _ _).trans ((hperm.symm.map g).trans (pySortedBy_perm _ _).symm)
  congr 1
  refine hpp.eq_of_pairwise ?_ (pySortedBy_pairwise _ _) (pySortedBy_pairwise _ _)
  intro a b ha hb hab hba
  have ha' := hpp.mem_iff.1 ha
  exact List.inj_on_of_nodup_map hd ha' hb (le_antisymm hab hba)

/-- **C104.** But if two files of the same kind give different graphs with the same number of vertices, it does: listed in different
orders, the same directory gives different lists, and `parts{i}.p` of one run belongs to another graph in the next. -/
theorem c104_ties {dir : List DataFile} {gs : List (Graph ℝ)} (h : readGraphs dir = .ok gs) {f f' : DataFile} (hf : f ∈ dir)
    (hf' : f' ∈ dir) (hr : IsRead f) (hr' : IsRead f') (hk : ".txt".toList <:+ f.1 ↔ ".txt".toList <:+ f'.1) {G G' : Graph ℝ}
    (hG : readDataFile f = .ok G) (hG' : readDataFile f' = .ok G') (hne : G ≠ G') (hv : G.vcount = G'.vcount) :
    ∃ dir₁ dir₂, dir₁.Perm dir ∧ dir₂.Perm dir ∧ ∃ gs₁ gs₂, readGraphs dir₁ = .ok gs₁ ∧ readGraphs dir₂ = .ok gs₂ ∧ gs₁ ≠ gs₂ := by
  have hff : f ≠ f' := by
    rintro rfl
    rw [hG] at hG'
    cases hG'
    exact hne rfl
  obtain ⟨rest, hrest⟩ : ∃ rest, (f :: f' :: rest).Perm dir := by
    obtain ⟨s, t, rfl⟩ := List.append_of_mem hf
    have hm : f' ∈ s ++ t := by
      rcases List.mem_append.1 hf' with h | h
      · exact List.mem_append_left _ h
      · rcases List.mem_cons.1 h with h | h
        · exact absurd h.symm hff
        · exact List.mem_append_right _ h
    obtain ⟨s', t', hst⟩ := List.append_of_mem hm
    refine ⟨s' ++ t', ?_⟩
    refine (List.Perm.cons f ?_).trans List.perm_middle.symm
    rw [hst]
    exact List.perm_middle.symm
  have hrest' : (f' :: f :: rest).Perm dir := (List.Perm.swap _ _ _).trans hrest
  obtain ⟨h1, g, hg, -⟩ := readGraphsFor_inv h
  have run : ∀ d : List DataFile, d.Perm dir →
      readGraphs d = .ok (pySortedBy Graph.vcount ((filesRead d).map g)) := fun d hd =>
    readGraphsFor_ok (fun n hn => ((filesRead_perm hd).map Prod.fst).mem_iff.2 (h1 n hn))
      (fun x hx => hg x ((filesRead_perm hd).mem_iff.1 hx))
  have hgf : g f = G := by
    have := hg f (mem_filesRead.2 ⟨hf, hr⟩)
    rw [hG] at this
    cases this; rfl
  have hgf' : g f' = G' := by
    have := hg f' (mem_filesRead.2 ⟨hf', hr'⟩)
    rw [hG'] at this
    cases this; rfl
  refine ⟨_, _, hrest, hrest', _, _, run _ hrest, run _ hrest', fun heq => ?_⟩
  have hfil := congrArg (fun l => l.filter fun x : Graph ℝ => decide (x.vcount = G.vcount)) heq
  simp only [pySortedBy_stable] at hfil
  have htx : ".txt".toList = ['.', 't', 'x', 't'] := rfl
  have hcs : ".csv".toList = ['.', 'c', 's', 'v'] := rfl
  have hdis : ∀ n : List Char, ['.', 't', 'x', 't'] <:+ n → ¬ ['.', 'c', 's', 'v'] <:+ n := by
    intro n h1 h2
    have := List.suffix_of_suffix_length_le h1 h2 (by simp)
    have := this.eq_of_length (by simp)
    exact absurd this (by decide)
  unfold IsRead at hr hr'
  rw [htx] at hk
  rw [htx, hcs] at hr hr'
  by_cases ht : ['.', 't', 'x', 't'] <:+ f.1
  · have ht' := hk.1 ht
    have e1 : filesRead (f :: f' :: rest) = f :: f' :: filesRead rest := by
      simp only [filesRead, globSuffix, List.filter_cons, hr.1, hr'.1, ht, ht', hdis _ ht, hdis _ ht', ne_eq, not_false_eq_true,
        and_self, decide_true, if_true, and_false, decide_false, Bool.false_eq_true, if_false, List.cons_append]
    have e2 : filesRead (f' :: f :: rest) = f' :: f :: filesRead rest := by
      simp only [filesRead, globSuffix, List.filter_cons, hr.1, hr'.1, ht, ht', hdis _ ht, hdis _ ht', ne_eq, not_false_eq_true,
        and_self, decide_true, if_true, and_false, decide_false, Bool.false_eq_true, if_false, List.cons_append]
    rw [e1, e2] at hfil
    simp only [List.map_cons, hgf, hgf', List.filter_cons, hv, decide_true, if_true, List.cons.injEq] at hfil
    exact hne hfil.1
  · have ht' : ¬ ['.', 't', 'x', 't'] <:+ f'.1 := fun h => ht (hk.2 h)
    have hc : ['.', 'c', 's', 'v'] <:+ f.1 := hr.2.resolve_left ht
    have hc' : ['.', 'c', 's', 'v'] <:+ f'.1 := hr'.2.resolve_left ht'
    have e1 : filesRead (f :: f' :: rest) =
        globSuffix ['.', 't', 'x', 't'] rest ++ (f :: f' :: globSuffix ['.', 'c', 's', 'v'] rest) := by
      simp only [filesRead, globSuffix, List.filter_cons, hr.1, hr'.1, ht, ht', hc, hc', ne_eq, not_false_eq_true,
        and_self, decide_true, if_true, and_false, decide_false, Bool.false_eq_true, if_false]
    have e2 : filesRead (f' :: f :: rest) =
        globSuffix ['.', 't', 'x', 't'] rest ++ (f' :: f :: globSuffix ['.', 'c', 's', 'v'] rest) := by
      simp only [filesRead, globSuffix, List.filter_cons, hr.1, hr'.1, ht, ht', hc, hc', ne_eq, not_false_eq_true,
        and_self, decide_true, if_true, and_false, decide_false, Bool.false_eq_true, if_false]
    rw [e1, e2] at hfil
    simp only [List.map_append, List.filter_append, List.append_cancel_left_eq, List.map_cons, hgf, hgf', List.filter_cons, hv,
      decide_true, if_true, List.cons.injEq] at hfil
    exact hne hfil.1

theorem pySortedBy_smallest {α κ : Type} [LinearOrder κ] (key : α → κ) (x : α) (A B : List α) (h : ∀ y ∈ A ++ B, key x < key y) :
    pySortedBy key (A ++ x :: B) = x :: pySortedBy key (A ++ B) := by
  simp only [pySortedBy]
  induction A with
  | nil =>
    rw [List.nil_append, List.nil_append, List.insertionSort_cons]
    rcases hs : B.insertionSort fun a b => key a ≤ key b with _ | ⟨y, l⟩
    · rfl
    · have hy' : y ∈ B.insertionSort fun a b => key a ≤ key b := by rw [hs]; simp
      have hy : y ∈ B := (List.perm_insertionSort _ B).mem_iff.1 hy'
      rw [List.orderedInsert, if_pos (h y (by simpa using hy)).le]
  | cons a A ih =>
    rw [List.cons_append, List.insertionSort_cons, ih fun y hy => h y (by simp at hy ⊢; tauto), List.orderedInsert,
      if_neg (not_le.2 (h a (by simp))), List.cons_append, List.insertionSort_cons]

theorem filesRead_cons (f : DataFile) (dir : List DataFile) (hr : IsRead f) :
    ∃ A B, filesRead (f :: dir) = A ++ f :: B ∧ filesRead dir = A ++ B := by
  have htx : ".txt".toList = ['.', 't', 'x', 't'] := rfl
  have hcs : ".csv".toList = ['.', 'c', 's', 'v'] := rfl
  have hdis : ∀ n : List Char, ['.', 't', 'x', 't'] <:+ n → ¬ ['.', 'c', 's', 'v'] <:+ n := by
    intro n h1 h2
    have := List.suffix_of_suffix_length_le h1 h2 (by simp)
    have := this.eq_of_length (by simp)
    exact absurd this (by decide)
  unfold IsRead at hr
  rw [htx, hcs] at hr
  by_cases ht : ['.', 't', 'x', 't'] <:+ f.1
  · refine ⟨[], filesRead dir, ?_, rfl⟩
    simp only [filesRead, globSuffix, List.filter_cons, hr.1, ht, hdis _ ht, ne_eq, not_false_eq_true,
        and_self, decide_true, if_true, and_false, decide_false, Bool.false_eq_true, if_false, List.cons_append, List.nil_append]
  · have hc : ['.', 'c', 's', 'v'] <:+ f.1 := hr.2.resolve_left ht
    refine ⟨globSuffix ['.', 't', 'x', 't'] dir, globSuffix ['.', 'c', 's', 'v'] dir, ?_, rfl⟩
    simp only [filesRead, globSuffix, List.filter_cons, hr.1, ht, hc, ne_eq, not_false_eq_true,
        and_self, decide_true, if_true, and_false, decide_false, Bool.false_eq_true, if_false]

/-- **C104.** One more file in the directory, with a smaller graph than all others, moves every graph by one: `parts{i}.p` of an earlier
run is then used for the wrong graph. -/
theorem c104_unexpected {dir : List DataFile} {gs : List (Graph ℝ)} (h : readGraphs dir = .ok gs) {f : DataFile} (hr : IsRead f)
    {G : Graph ℝ} (hG : readDataFile f = .ok G) (hsmall : ∀ H ∈ gs, G.vcount < H.vcount) :
    readGraphs (f :: dir) = .ok (G :: gs) := by
  obtain ⟨h1, g, hg, rfl⟩ := readGraphsFor_inv h
  classical
  have hperm : (filesRead (f :: dir)).Perm (f :: filesRead dir) := by
    refine (filesRead_isRead _).trans ?_
    rw [List.filter_cons_of_pos (by simpa using hr)]
    exact List.Perm.cons _ (filesRead_isRead dir).symm
  have hgf : f ∈ filesRead dir → g f = G := by
    intro hf
    have := hg f hf
    rw [hG] at this
    cases this; rfl
  let g' : DataFile → Graph ℝ := fun x => if x = f then G else g x
  have hg' : ∀ x ∈ filesRead dir, g' x = g x := by
    intro x hx
    by_cases hxf : x = f
    · subst hxf; simp [g', hgf hx]
    · simp [g', hxf]
  have h2 := readGraphsFor_ok (expected := expectedFiles) (dir := f :: dir) (g := g')
    (fun n hn => (hperm.map Prod.fst).mem_iff.2 (List.mem_cons_of_mem _ (h1 n hn)))
    (by
      intro x hx
      by_cases hxf : x = f
      · subst hxf; simpa [g'] using hG
      · have := (List.mem_cons.1 (hperm.mem_iff.1 hx)).resolve_left hxf
        rw [hg' x this]; exact hg x this)
  rw [readGraphs, h2]
  congr 1
  obtain ⟨A, B, e1, e2⟩ := filesRead_cons f dir hr
  have hmap : (filesRead dir).map g' = (filesRead dir).map g := List.map_congr_left hg'
  rw [e1, List.map_append, List.map_cons, pySortedBy_smallest]
  · rw [← List.map_append, ← e2, hmap]
    simp [g']
  · intro y hy
    rw [← List.map_append, ← e2, hmap] at hy
    have : g' f = G := by simp [g']
    rw [this]
    exact hsmall y (mem_pySortedBy.2 hy)

/-- **C104.** Every list of links can be written to a file of either format. -/
theorem c104_writable (links : List (Nat × Nat)) : (∃ text, TsvFile text links) ∧ ∃ text, CsvFile text links :=
  ⟨⟨_, writeTsv_ok links⟩, ⟨_, writeCsv_ok links⟩⟩

/-- **C104.** The adjacency matrices of the Lazega network are read as they are written. -/
theorem c104_matrix {text : List Char} {rows : List (List Nat)} (h : MatrixFile text rows) :
    adjacencyFromDat (readlines text) = .ok (rows.map fun row => row.map fun (n : Nat) => (n : Int)) := matrix_parse h

/-- **C104.** The Lazega network is built (C85) from the three matrices in the order advice, friendship, work; without any of the
four files – also `ELattr.dat`, which is not read here – there is a `FileNotFoundError`, and it is the only reason for one. -/
theorem c104_lazega (advice friend work attr : Option (List Char)) :
    (lazegaFromFiles advice friend work attr = .error .notFound ↔
      advice = none ∨ friend = none ∨ work = none ∨ attr = none) ∧
    ∀ a f w x, advice = some a → friend = some f → work = some w → attr = some x →
      ∀ A F W, MatrixFile a A → MatrixFile f F → MatrixFile w W → ∀ net,
        (lazegaFromFiles advice friend work attr = .ok net ↔
          lazegaNetwork 71 ([A, F, W].map fun m => m.map fun row => row.map fun (n : Nat) => (n : Int)) = .ok net) := by
  constructor
  · rcases advice with _ | a <;> rcases friend with _ | f <;> rcases work with _ | w <;> rcases attr with _ | x <;>
      simp only [lazegaFromFiles, reduceCtorEq, or_false, or_true, iff_true, iff_false]
    intro h
    split at h <;> cases h
  · rintro a f w x rfl rfl rfl rfl A F W hA hF hW net
    simp only [lazegaFromFiles]
    rw [matrix_parse hA, matrix_parse hF, matrix_parse hW]
    change (match lazegaNetwork 71 _ with | .ok x => _ | .error e => _) = _ ↔ _
    simp only [List.map_cons, List.map_nil]
    split
    · rename_i y hy
      rw [hy]
      constructor <;> intro h <;> cases h <;> rfl
    · rename_i e hy
      rw [hy]
      constructor <;> intro h <;> cases h

/-! ## Cases -/

/-- A chain of `k` links. -/
def chain (k : Nat) : List (Nat × Nat) := (List.range k).map fun (i : Nat) => (i, i + 1)

theorem chain_linked (k : Nat) {m : Nat} (hm : m ≤ k) : Linked (chain k) 0 m := by
  induction m with
  | zero => exact Relation.ReflTransGen.refl
  | succ m ih => exact (ih (by omega)).tail (Or.inl (by simp [chain]; omega))

/-- A network in which everything is linked to vertex 0 is its own largest component. -/
theorem giant_all {links : List (Nat × Nat)} {n : Nat} (hn : ∃ e ∈ links, n = max e.1 e.2 + 1) (hl : ∀ e ∈ links, e.1 < n ∧ e.2 < n)
    (h : ∀ m < n, Linked links 0 m) : (giant (graphOfEdges links)).vcount = n ∧
      (giant (graphOfEdges links)).edges.length = links.length := by
  have sym : ∀ {u v}, Linked links u v → Linked links v u := by
    intro u v h
    induction h with
    | refl => exact Relation.ReflTransGen.refl
    | tail _ hs ih => exact Relation.ReflTransGen.head hs.symm ih
  obtain ⟨-, -, ⟨rfl, -, -⟩ | ⟨n', vs, ⟨e', he', hn'⟩, hl', hvs, hv, -, he⟩⟩ := giantOf_links links
  · obtain ⟨e, he, -⟩ := hn; simp at he
  · obtain ⟨e, hen, hn⟩ := hn
    have hnn : n' = n := by have := hl' e hen; have := hl e' he'; omega
    subst hnn
    have hnd : vs.Nodup := hvs.sorted.imp fun h => h.ne
    have h1 : n' ≤ vs.length := by
      have := hvs.largest (List.range n') List.nodup_range (fun w hw => List.mem_range.1 hw)
        (fun w hw x hx => (sym (h w (List.mem_range.1 hw))).trans (h x (List.mem_range.1 hx)))
      simpa using this
    have h2 : vs.Subperm (List.range n') := hnd.subperm fun v hv => List.mem_range.2 (hvs.inside v hv)
    have h3 : vs.Perm (List.range n') := h2.perm_of_length_le (by simpa using h1)
    refine ⟨?_, ?_⟩
    · rw [hv, h3.length_eq, List.length_range]
    · have := congrArg List.length he
      rw [List.length_map] at this
      rw [this, List.filter_eq_self.2]
      intro x hx
      have := (h3.mem_iff (a := x.1)).2 (List.mem_range.2 (hl x hx).1)
      simp [this]

theorem chain_vcount (k : Nat) (hk : 0 < k) : (giant (graphOfEdges (chain k))).vcount = k + 1 := by
  refine (giant_all ⟨(k - 1, k), by simp [chain]; omega, by simp⟩ ?_ fun m hm => chain_linked k (by omega)).1
  intro e he
  simp only [chain, List.mem_map, List.mem_range] at he
  obtain ⟨i, hi, rfl⟩ := he
  simp; omega

/-- The text of a file of either kind. -/
def exampleText (name : List Char) (links : List (Nat × Nat)) : List Char :=
  if ".txt".toList <:+: name then writeTsv links else writeCsv links

theorem example_holds (name : List Char) (links : List (Nat × Nat)) : Holds (name, exampleText name links) links := by
  by_cases h : ".txt".toList <:+: name
  · simp only [Holds, exampleText, if_pos h]; exact writeTsv_ok links
  · simp only [Holds, exampleText, if_neg h]; exact writeCsv_ok links

/-- The sixteen files, with the given links. -/
def exampleDir (links : List Char → List (Nat × Nat)) : List DataFile := expectedFiles.map fun n => (n, exampleText n (links n))

theorem exampleDir_names (links : List Char → List (Nat × Nat)) : (exampleDir links).map Prod.fst = expectedFiles := by
  simp only [exampleDir, List.map_map]
  conv_rhs => rw [← List.map_id expectedFiles]
  exact List.map_congr_left fun _ _ => rfl

theorem exampleDir_holds (links : List Char → List (Nat × Nat)) : ∀ f ∈ exampleDir links, Holds f (links f.1) := by
  intro f hf
  obtain ⟨n, -, rfl⟩ := List.mem_map.1 hf
  exact example_holds n (links n)

theorem exampleDir_run (links : List Char → List (Nat × Nat)) :
    readGraphs (exampleDir links) =
      .ok (pySortedBy Graph.vcount ((filesRead (exampleDir links)).map fun f => giant (graphOfEdges (links f.1)))) := by
  have hexp' : ∀ n ∈ expectedFiles, n.head? ≠ some '.' ∧ (".txt".toList <:+ n ∨ ".csv".toList <:+ n) := by decide +kernel
  refine readGraphsFor_ok ?_ fun f hf => readDataFile_ok (exampleDir_holds links f (mem_filesRead.1 hf).1)
  intro n hn
  refine List.mem_map.2 ⟨(n, exampleText n (links n)), mem_filesRead.2 ⟨List.mem_map.2 ⟨n, hn, rfl⟩, hexp' n hn⟩, rfl⟩

/-- A file with a comment, a mutual link, a self-link, a gap in the numbers and no newline at its end, as in `c104_tsv`. -/
example : TsvFile "# Nodes\n0\t1\n1  0\n5 5\n7\t6".toList [(0, 1), (1, 0), (5, 5), (7, 6)] := by
  have h0 : Blank [] := by simp [Blank]
  have ht : Blank ['\t'] := by simp [Blank]
  have hb : Blank [' '] := by simp [Blank]
  have hbb : Blank [' ', ' '] := by simp [Blank]
  have h : ∀ n < 10, Decimal n [Char.ofNat (48 + n)] := by
    intro n hn
    interval_cases n <;> exact ⟨by simp, by decide, by decide⟩
  exact TsvFile.comment (c := " Nodes".toList) (by decide)
    (TsvFile.link h0 (h 0 (by omega)) ht (by simp) (h 1 (by omega)) h0
      (TsvFile.link h0 (h 1 (by omega)) hbb (by simp) (h 0 (by omega)) h0
        (TsvFile.link h0 (h 5 (by omega)) hb (by simp) (h 5 (by omega)) h0
          (TsvFile.last h0 (h 7 (by omega)) ht (by simp) (h 6 (by omega)) h0))))

/-- The header of the comma separated files, as in `c104_csv`. -/
example : CsvFile "node_1,node_2\n0,1\n".toList [(0, 1)] := by
  have h : ∀ n < 10, Decimal n [Char.ofNat (48 + n)] := by
    intro n hn
    interval_cases n <;> exact ⟨by simp, by decide, by decide⟩
  exact CsvFile.header (pre := []) (post := "_1,node_2".toList) (by simp) (by decide)
    (CsvFile.link (h 0 (by omega)) (h 1 (by omega)) CsvFile.done)

/-- A matrix, as in `c104_matrix`. -/
example : MatrixFile " 0 1\n\n1 0".toList [[0, 1], [1, 0]] := by
  have h : ∀ n < 10, Decimal n [Char.ofNat (48 + n)] := by
    intro n hn
    interval_cases n <;> exact ⟨by simp, by decide, by decide⟩
  have hb : Blank [' '] := by simp [Blank]
  have h0 : Blank [] := by simp [Blank]
  refine MatrixFile.row (line := " 0 1".toList) ⟨[' '], [(0, ['0'], [' ']), (1, ['1'], [])], hb, ?_, by simp, rfl, rfl⟩ (by decide)
    (MatrixFile.empty (MatrixFile.last (line := "1 0".toList)
      ⟨[], [(1, ['1'], [' ']), (0, ['0'], [])], h0, ?_, by simp, rfl, rfl⟩ (by decide)))
  · intro x hx
    simp only [List.mem_cons, List.not_mem_nil, or_false] at hx
    rcases hx with rfl | rfl
    · exact ⟨h 0 (by omega), hb⟩
    · exact ⟨h 1 (by omega), h0⟩
  · intro x hx
    simp only [List.mem_cons, List.not_mem_nil, or_false] at hx
    rcases hx with rfl | rfl
    · exact ⟨h 1 (by omega), hb⟩
    · exact ⟨h 0 (by omega), h0⟩

/-- The hypotheses of `c104_blank_line`. -/
example : ∀ G, readTsv ("0\t1\n".toList ++ ([] ++ '\n' :: [])) ≠ .ok G := (c104_blank_line (Or.inr (by decide)) (by simp [Blank]) []).1

/-- The hypotheses of `c104_vertices`. -/
example : LargestComponent 2 [(0, 1)] [0, 1] := by
  have hl : ∀ w ∈ [0, 1], ∀ x ∈ [0, 1], Linked [(0, 1)] w x := by
    intro w hw x hx
    simp only [List.mem_cons, List.not_mem_nil, or_false] at hw hx
    rcases hw with rfl | rfl <;> rcases hx with rfl | rfl
    · exact Relation.ReflTransGen.refl
    · exact Relation.ReflTransGen.single (Or.inl (by simp))
    · exact Relation.ReflTransGen.single (Or.inr (by simp))
    · exact Relation.ReflTransGen.refl
  refine ⟨by simp, by simp, by simp, ?_, ?_, by simp⟩
  · intro v hv u hu
    have hu' : u ∈ [0, 1] := by interval_cases u <;> simp
    exact ⟨fun _ => hl v hv u hu', fun _ => hu'⟩
  · intro ws hnd hlt _
    have := (hnd.subperm (l₂ := [0, 1]) fun w hw => by have := hlt w hw; interval_cases w <;> simp).length_le
    simpa using this

/-- The hypotheses of `c104_graphs` and `c104_order`: sixteen chains of different lengths. -/
example : ∃ links : List Char → List (Nat × Nat), (∀ n ∈ expectedFiles, n ∈ (exampleDir links).map Prod.fst) ∧
    (∀ f ∈ exampleDir links, IsRead f → Holds f (links f.1)) ∧
    ∃ gs, readGraphs (exampleDir links) = .ok gs ∧ (gs.map Graph.vcount).Nodup := by
  refine ⟨fun n => chain (expectedFiles.idxOf n + 1), fun n hn => by rw [exampleDir_names]; exact hn,
    fun f hf _ => exampleDir_holds _ f hf, _, exampleDir_run _, ?_⟩
  set links := fun n => chain (expectedFiles.idxOf n + 1) with hlinks
  refine (((pySortedBy_perm Graph.vcount _).trans ((filesRead_isRead _).map _)).map Graph.vcount).nodup_iff.2 ?_
  have hnd : expectedFiles.Nodup := by decide +kernel
  refine (List.Nodup.map_on ?_ ?_)
  · intro x hx y hy hxy
    obtain ⟨f, hf, rfl⟩ := List.mem_map.1 hx
    obtain ⟨f', hf', rfl⟩ := List.mem_map.1 hy
    obtain ⟨n, hn, rfl⟩ := List.mem_map.1 (List.mem_filter.1 hf).1
    obtain ⟨n', hn', rfl⟩ := List.mem_map.1 (List.mem_filter.1 hf').1
    simp only [hlinks, chain_vcount _ (Nat.succ_pos _)] at hxy ⊢
    rw [Nat.succ.inj hxy]
  · refine (List.Nodup.map_on ?_ (List.Nodup.filter _ ?_))
    · intro x hx y hy hxy
      obtain ⟨n, hn, rfl⟩ := List.mem_map.1 (List.mem_filter.1 hx).1
      obtain ⟨n', hn', rfl⟩ := List.mem_map.1 (List.mem_filter.1 hy).1
      have := congrArg Graph.vcount hxy
      simp only [hlinks, chain_vcount _ (Nat.succ_pos _)] at this
      have := (List.idxOf_inj hn).1 (by omega : expectedFiles.idxOf n = expectedFiles.idxOf n')
      rw [this]
    · exact List.Nodup.map_on (fun x _ y _ h => congrArg Prod.fst h) hnd

/-- The hypotheses of `c104_ties`: two comma separated files, one with the same link twice. -/
example : ∃ (dir : List DataFile) (gs : List (Graph ℝ)) (f f' : DataFile) (G G' : Graph ℝ), readGraphs dir = .ok gs ∧ f ∈ dir ∧ f' ∈ dir ∧
    IsRead f ∧ IsRead f' ∧ (".txt".toList <:+ f.1 ↔ ".txt".toList <:+ f'.1) ∧ readDataFile f = .ok G ∧ readDataFile f' = .ok G' ∧
    G ≠ G' ∧ G.vcount = G'.vcount := by
  let links : List Char → List (Nat × Nat) := fun n => if n = "HU_edges.csv".toList then [(0, 1), (0, 1)] else [(0, 1)]
  have h1 := giant_all (links := [(0, 1), (0, 1)]) (n := 2) ⟨(0, 1), by simp, rfl⟩ (by simp)
    (fun m hm => by
      interval_cases m
      · exact Relation.ReflTransGen.refl
      · exact Relation.ReflTransGen.single (Or.inl (by simp)))
  have h2 := giant_all (links := [(0, 1)]) (n := 2) ⟨(0, 1), by simp, rfl⟩ (by simp)
    (fun m hm => by
      interval_cases m
      · exact Relation.ReflTransGen.refl
      · exact Relation.ReflTransGen.single (Or.inl (by simp)))
  have e1 : links "HU_edges.csv".toList = [(0, 1), (0, 1)] := if_pos rfl
  have e2 : links "HR_edges.csv".toList = [(0, 1)] := if_neg (by decide +kernel)
  have m1 : ("HU_edges.csv".toList, exampleText "HU_edges.csv".toList (links "HU_edges.csv".toList)) ∈ exampleDir links :=
    List.mem_map.2 ⟨_, by decide +kernel, rfl⟩
  have m2 : ("HR_edges.csv".toList, exampleText "HR_edges.csv".toList (links "HR_edges.csv".toList)) ∈ exampleDir links :=
    List.mem_map.2 ⟨_, by decide +kernel, rfl⟩
  refine ⟨exampleDir links, _, _, _, _, _, exampleDir_run links, m1, m2, ⟨by decide, Or.inr (by decide)⟩,
    ⟨by decide, Or.inr (by decide)⟩, by decide, readDataFile_ok (exampleDir_holds links _ m1),
    readDataFile_ok (exampleDir_holds links _ m2), ?_, ?_⟩
  · intro heq
    have := congrArg (fun G => G.edges.length) heq
    simp only [e1, e2, h1.2, h2.2] at this
    simp at this
  · simp only [e1, e2, h1.1, h2.1]

/-- The hypotheses of `c104_unexpected`: a file with one link beside sixteen files with chains of two links. -/
example : ∃ (dir : List DataFile) (gs : List (Graph ℝ)) (f : DataFile) (G : Graph ℝ), readGraphs dir = .ok gs ∧ IsRead f ∧
    f.1 ∉ expectedFiles ∧ readDataFile f = .ok G ∧ gs ≠ [] ∧ ∀ H ∈ gs, G.vcount < H.vcount := by
  refine ⟨exampleDir fun _ => chain 2, _, ("new.csv".toList, exampleText "new.csv".toList (chain 1)), _, exampleDir_run _,
    ⟨by decide, Or.inr (by decide)⟩, by decide +kernel, readDataFile_ok (example_holds _ _), ?_, ?_⟩
  · intro h
    have h' := (pySortedBy_perm Graph.vcount
      ((filesRead (exampleDir fun _ => chain 2)).map fun _ => giant (graphOfEdges (chain 2)))).length_eq
    rw [h, List.length_nil, List.length_map, (filesRead_isRead _).length_eq] at h'
    have hm : ("HU_edges.csv".toList, exampleText "HU_edges.csv".toList (chain 2)) ∈
        (exampleDir fun _ => chain 2).filter fun f => decide (IsRead f) :=
      List.mem_filter.2 ⟨List.mem_map.2 ⟨_, by decide +kernel, rfl⟩, decide_eq_true ⟨by decide, Or.inr (by decide)⟩⟩
    have := List.length_pos_of_mem hm
    omega
  · intro H hH
    obtain ⟨f, -, rfl⟩ := List.mem_map.1 (mem_pySortedBy.1 hH)
    rw [chain_vcount 1 (by omega), chain_vcount 2 (by omega)]
    omega

end Verif.Props
