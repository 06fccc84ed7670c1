import Verif.Model.Metadata
import Verif.Spec.Metadata
import Verif.Props.Scores
import Verif.Props.Studies
import Verif.Proofs.DataFiles

/-!
# C106: the comparison of the Lazega partitions with the lawyers' attributes
-/

namespace Verif.Props
open Verif Spec

theorem nmi_isNMI {α β : Type} [DecidableEq α] [DecidableEq β] {p : List α} {q : List β} (h : p.length = q.length) :
    ∃ r, nmi p q = .ok (.fin r) ∧ IsNMI p q r := by
  obtain ⟨-, h1, h2⟩ := c75_value p q
  by_cases ho : OneLabel p ∧ OneLabel q
  · exact ⟨1, h1 h ho.1 ho.2, h, Or.inl ⟨ho.1, ho.2, rfl⟩⟩
  · exact ⟨_, (h2 h ho).2, h, Or.inr ⟨ho, rfl⟩⟩

theorem thrice_eq {α : Type} (N : Nat) (f : Nat → α) : thrice ((List.range N).map f) = attributeOfNodes N f := by
  have h3 : 3 * N = N + (N + N) := by ring
  rw [attributeOfNodes, thrice, h3, List.range_add, List.range_add, List.map_append, List.map_map, List.map_append, List.map_map,
    List.append_assoc]
  have e1 : (List.range N).map f = (List.range N).map fun v => f (v % N) :=
    List.map_congr_left fun v hv => by rw [Nat.mod_eq_of_lt (List.mem_range.1 hv)]
  congr 1
  congr 1
  · refine List.map_congr_left fun v hv => ?_
    simp [Nat.mod_eq_of_lt (List.mem_range.1 hv)]
  · refine List.map_congr_left fun v hv => ?_
    simp [Nat.mod_eq_of_lt (List.mem_range.1 hv)]

theorem strip_split_row {row : List Nat} {line : List Char} (h : RowText row line) {end' : List Char} (he : end' = [] ∨ end' = ['\n']) :
    (pySplit (((line ++ end').dropWhile isSpaceChar).rdropWhile isSpaceChar)).mapM pyInt =
      .ok (row.map fun (n : Nat) => (n : Int)) := by
  have hdrop : ∀ s : List Char, pySplit (s.dropWhile isSpaceChar) = pySplit s := by
    intro s
    conv_rhs => rw [← List.takeWhile_append_dropWhile (p := isSpaceChar) (l := s)]
    exact (pySplit_front (fun c hc => List.mem_takeWhile_imp hc) _).symm
  have happ : ∀ (g : List Char), (∀ c ∈ g, isSpaceChar c = true) → ∀ s, wordsAux (s ++ g) = wordsAux s := by
    intro g hg s
    induction s with
    | nil =>
      rcases g with _ | ⟨c, g⟩
      · rfl
      · have := wordsAux_gap hg (by simp) []
        rw [List.append_nil] at this
        rw [List.nil_append, this]; rfl
    | cons c s ih => simp only [List.cons_append, wordsAux, ih]
  have hrdrop : ∀ s : List Char, pySplit (s.rdropWhile isSpaceChar) = pySplit s := by
    intro s
    conv_rhs => rw [← List.rdropWhile_append_rtakeWhile (p := isSpaceChar) (l := s)]
    simp only [pySplit]
    rw [happ _ fun c hc => List.mem_rtakeWhile_imp hc]
  have hend : pySplit (line ++ end') = pySplit line := by
    have hs : ∀ c ∈ end', isSpaceChar c = true := by
      rcases he with rfl | rfl
      · simp
      · intro c hc; rw [List.mem_singleton.1 hc]; decide
    simp only [pySplit]
    rw [happ _ hs]
  rw [hrdrop, hdrop, hend]
  exact (row_parse h).1

/-- What is kept of a row of `ELattr.dat`: entries 1 to 3, 6 and 7 as they are, years with the firm and age in five-year bins. -/
def attributesOfRow (row : List Nat) : Attributes :=
  ⟨row.getD 1 0, row.getD 2 0, row.getD 3 0, (row.getD 4 0 / 5 : ℕ), (row.getD 5 0 / 5 : ℕ), row.getD 6 0, row.getD 7 0⟩

theorem attributes_ok {row : List Nat} {line : List Char} (h : RowText row line) (h8 : 8 ≤ row.length) {end' : List Char}
    (he : end' = [] ∨ end' = ['\n']) : attributesOfLine (line ++ end') = .ok (attributesOfRow row) := by
  have hget : ∀ i < 8, pyGet (row.map fun (n : Nat) => (n : Int)) i = .ok ((row.getD i 0 : Nat) : Int) := by
    intro i hi
    have hil : i < row.length := by omega
    simp [pyGet, List.getElem?_eq_getElem hil, List.getD_eq_getElem?_getD]
  have hdiv : ∀ n : Nat, Int.fdiv (n : Int) 5 = ((n / 5 : ℕ) : Int) := by
    intro n
    rw [Int.fdiv_eq_ediv_of_nonneg _ (by omega)]
    norm_cast
  rw [attributesOfLine, strip_split_row h he, Py.ok_bind, hget 1 (by omega), Py.ok_bind, hget 2 (by omega), Py.ok_bind,
    hget 3 (by omega), Py.ok_bind, hget 4 (by omega), Py.ok_bind, hget 5 (by omega), Py.ok_bind, hget 6 (by omega), Py.ok_bind,
    hget 7 (by omega), Py.ok_bind, hdiv, hdiv]
  rfl

/-- A file without empty lines. -/
inductive TableFile : List Char → List (List Nat) → Prop
  | done : TableFile [] []
  | row {row line text rows} : RowText row line → TableFile text rows → TableFile (line ++ '\n' :: text) (row :: rows)
  | last {row line} : RowText row line → line ≠ [] → TableFile line [row]

theorem table_parse {text : List Char} {rows : List (List Nat)} (h : TableFile text rows) (h8 : ∀ row ∈ rows, 8 ≤ row.length) :
    (readlines text).mapM attributesOfLine = .ok (rows.map attributesOfRow) := by
  induction h with
  | done => rfl
  | @row row line text rows hr _ ih =>
    obtain ⟨-, h2⟩ := row_parse hr
    rw [readlines_line fun hc => (h2 _ hc).1 rfl, List.mapM_cons, attributes_ok hr (h8 row (by simp)) (Or.inr rfl),
      ih fun x hx => h8 x (by simp [hx])]
    rfl
  | @last row line hr hne =>
    obtain ⟨-, h2⟩ := row_parse hr
    have := attributes_ok hr (h8 row (by simp)) (Or.inl rfl)
    rw [List.append_nil] at this
    rw [readlines_last (fun hc => (h2 _ hc).1 rfl) hne, List.mapM_cons, this]
    rfl

theorem score_ok {rows : List (List Nat)} {p : List Nat} (hp : p.length = 3 * rows.length) (f : List Nat → Nat)
    (g : Attributes → Int) (hg : ∀ row, g (attributesOfRow row) = ((f row : Nat) : Int)) :
    ∃ r, nmi p (thrice ((rows.map attributesOfRow).map g)) = .ok (.fin r) ∧
      IsNMI p (attributeOfNodes rows.length fun a => f (rows.getD a [])) r := by
  have hrows : rows.map f = (List.range rows.length).map fun a => f (rows.getD a []) := by
    refine List.ext_getElem (by simp) fun i h1 h2 => ?_
    have hi : i < rows.length := by simpa using h1
    simp [List.getElem?_eq_getElem hi]
  have hth : thrice ((rows.map attributesOfRow).map g) =
      (attributeOfNodes rows.length fun a => f (rows.getD a [])).map fun (n : Nat) => (n : Int) := by
    rw [← thrice_eq, ← hrows]
    simp only [thrice, List.map_append, List.map_map]
    have : (rows.map (g ∘ attributesOfRow)) = rows.map ((fun (n : Nat) => (n : Int)) ∘ f) :=
      List.map_congr_left fun row _ => hg row
    rw [this]
  have hsame : SamePartition ((attributeOfNodes rows.length fun a => f (rows.getD a [])).map fun (n : Nat) => (n : Int))
      (attributeOfNodes rows.length fun a => f (rows.getD a [])) := by
    refine ⟨by simp, fun i j _ _ => ?_⟩
    rw [List.getElem?_map, List.getElem?_map]
    exact (Option.map_injective Nat.cast_injective).eq_iff
  rw [hth, c75_symmetric, c75_labels hsame, c75_symmetric]
  exact nmi_isNMI (by simpa [attributeOfNodes] using hp)

theorem scores_ok {rows : List (List Nat)} {p : List Nat} (hp : p.length = 3 * rows.length) {K : Nat} (hne : p ≠ [])
    (hK : Contiguous p K) : ∃ office practice age years status gender school,
      metadataScores (rows.map attributesOfRow) p =
        .ok (K, [.fin office, .fin practice, .fin age, .fin years, .fin status, .fin gender, .fin school]) ∧
      IsNMI p (attributeOfNodes rows.length fun a => (rows.getD a []).getD 3 0) office ∧
      IsNMI p (attributeOfNodes rows.length fun a => (rows.getD a []).getD 6 0) practice ∧
      IsNMI p (attributeOfNodes rows.length fun a => (rows.getD a []).getD 5 0 / 5) age ∧
      IsNMI p (attributeOfNodes rows.length fun a => (rows.getD a []).getD 4 0 / 5) years ∧
      IsNMI p (attributeOfNodes rows.length fun a => (rows.getD a []).getD 1 0) status ∧
      IsNMI p (attributeOfNodes rows.length fun a => (rows.getD a []).getD 2 0) gender ∧
      IsNMI p (attributeOfNodes rows.length fun a => (rows.getD a []).getD 7 0) school := by
  obtain ⟨s1, e1, h1⟩ := score_ok hp (fun row => row.getD 3 0) Attributes.office fun _ => rfl
  obtain ⟨s2, e2, h2⟩ := score_ok hp (fun row => row.getD 6 0) Attributes.practice fun _ => rfl
  obtain ⟨s3, e3, h3⟩ := score_ok hp (fun row => row.getD 5 0 / 5) Attributes.age fun _ => rfl
  obtain ⟨s4, e4, h4⟩ := score_ok hp (fun row => row.getD 4 0 / 5) Attributes.seniority fun _ => rfl
  obtain ⟨s5, e5, h5⟩ := score_ok hp (fun row => row.getD 1 0) Attributes.status fun _ => rfl
  obtain ⟨s6, e6, h6⟩ := score_ok hp (fun row => row.getD 2 0) Attributes.gender fun _ => rfl
  obtain ⟨s7, e7, h7⟩ := score_ok hp (fun row => row.getD 7 0) Attributes.lawSchool fun _ => rfl
  refine ⟨s1, s2, s3, s4, s5, s6, s7, ?_, h1, h2, h3, h4, h5, h6, h7⟩
  rw [metadataScores, numCommunities_nat.2 ⟨hne, hK⟩, Py.ok_bind, e1, Py.ok_bind, e2, Py.ok_bind, e3, Py.ok_bind, e4, Py.ok_bind, e5,
    Py.ok_bind, e6, Py.ok_bind, e7, Py.ok_bind]
  rfl

/-- **C106.** For `N` persons and a partition of the `3 N` nodes with communities numbered from 0, the table shows the number of
communities and the normalised mutual information with office, practice, age (five-year bins), years with the firm (five-year bins),
status, gender and law school, where node `v` has the attributes of person `v mod N`. -/
theorem c106_table {text : List Char} {rows : List (List Nat)} (h : TableFile text rows) (h8 : ∀ row ∈ rows, 8 ≤ row.length)
    {parts : List (List Nat)} (hp : ∀ p ∈ parts, p.length = 3 * rows.length ∧ p ≠ [] ∧ ∃ K, Contiguous p K) :
    ∃ table : List (Nat × List (Fl ℝ)), metadataTable text parts = .ok table ∧ table.length = parts.length ∧
      ∀ (i : Nat) (p : List Nat) (line : Nat × List (Fl ℝ)), parts[i]? = some p → table[i]? = some line → Contiguous p line.1 ∧
        ∃ office practice age years status gender school,
          line.2 = [.fin office, .fin practice, .fin age, .fin years, .fin status, .fin gender, .fin school] ∧
          IsNMI p (attributeOfNodes rows.length fun a => (rows.getD a []).getD 3 0) office ∧
          IsNMI p (attributeOfNodes rows.length fun a => (rows.getD a []).getD 6 0) practice ∧
          IsNMI p (attributeOfNodes rows.length fun a => (rows.getD a []).getD 5 0 / 5) age ∧
          IsNMI p (attributeOfNodes rows.length fun a => (rows.getD a []).getD 4 0 / 5) years ∧
          IsNMI p (attributeOfNodes rows.length fun a => (rows.getD a []).getD 1 0) status ∧
          IsNMI p (attributeOfNodes rows.length fun a => (rows.getD a []).getD 2 0) gender ∧
          IsNMI p (attributeOfNodes rows.length fun a => (rows.getD a []).getD 7 0) school := by
  have hK : ∀ p, ∃ K, p ∈ parts → Contiguous p K := by
    intro p
    by_cases hpp : p ∈ parts
    · obtain ⟨K, hK⟩ := (hp p hpp).2.2
      exact ⟨K, fun _ => hK⟩
    · exact ⟨0, fun h => absurd h hpp⟩
  choose K hK using hK
  have hok : ∀ p, ∃ line, p ∈ parts → metadataScores (rows.map attributesOfRow) p = .ok line := by
    intro p
    by_cases hpp : p ∈ parts
    · obtain ⟨s1, s2, s3, s4, s5, s6, s7, h, -⟩ := scores_ok (hp p hpp).1 (hp p hpp).2.1 (hK p hpp)
      exact ⟨_, fun _ => h⟩
    · exact ⟨(0, []), fun h => absurd h hpp⟩
  choose line hline using hok
  refine ⟨parts.map line, ?_, by simp, ?_⟩
  · rw [metadataTable, table_parse h h8, Py.ok_bind]
    exact mapM_of_ok hline
  · intro i p l hi hl
    have hpp : p ∈ parts := List.mem_of_getElem? hi
    rw [List.getElem?_map, hi] at hl
    simp only [Option.map_some, Option.some.injEq] at hl
    subst hl
    obtain ⟨s1, s2, s3, s4, s5, s6, s7, h', hrest⟩ := scores_ok (hp p hpp).1 (hp p hpp).2.1 (hK p hpp)
    rw [hline p hpp] at h'
    cases h'' : line p with
    | mk K' l' =>
      rw [h''] at h'
      cases h'
      exact ⟨hK p hpp, s1, s2, s3, s4, s5, s6, s7, rfl, hrest⟩

/-- **C106.** A partition of another number of nodes – e.g. of the 71 lawyers instead of the 213 nodes – is rejected with
`ValueError`. -/
theorem c106_wrong_length {text : List Char} {rows : List (List Nat)} (h : TableFile text rows) (h8 : ∀ row ∈ rows, 8 ≤ row.length)
    {p : List Nat} (hp : p.length ≠ 3 * rows.length) (hne : p ≠ []) {K : Nat} (hK : Contiguous p K) (more : List (List Nat)) :
    ∃ msg, metadataTable text (p :: more) = .error (.valueError msg) := by
  have hl : p.length ≠ (thrice ((rows.map attributesOfRow).map Attributes.office)).length := by
    simp [thrice]; omega
  obtain ⟨msg, hm⟩ := (c75_value p (thrice ((rows.map attributesOfRow).map Attributes.office))).1 hl
  refine ⟨msg, ?_⟩
  rw [metadataTable, table_parse h h8, Py.ok_bind, List.mapM_cons, metadataScores, numCommunities_nat.2 ⟨hne, hK⟩, Py.ok_bind, hm]
  rfl

/-- **C106.** A line of blanks in `ELattr.dat`, e.g. at its end, is an `IndexError` – whatever the partitions are. -/
theorem c106_blank_line {text : List Char} {rows : List (List Nat)} (h : TableFile text rows) (h8 : ∀ row ∈ rows, 8 ≤ row.length)
    (hnl : text = [] ∨ text.getLast? = some '\n') {blank : List Char} (hb : Blank blank) (after : List Char)
    (parts : List (List Nat)) : metadataTable (text ++ (blank ++ '\n' :: after)) parts = .error .indexError := by
  have happ : ∀ {t : List Char}, (t = [] ∨ t.getLast? = some '\n') → ∀ s, readlines (t ++ s) = readlines t ++ readlines s := by
    intro t ht s
    induction t with
    | nil => rfl
    | cons c t ih =>
      rcases t with _ | ⟨d, t⟩
      · have : c = '\n' := by simpa using ht
        subst this
        simp [readlines]
      · have ih' := ih (Or.inr (by simpa using ht))
        rw [List.cons_append, readlines, ih', readlines.eq_2 c (d :: t)]
        split
        · rfl
        · rcases hr : readlines (d :: t) with _ | ⟨l, ls⟩
          · exfalso
            rw [readlines] at hr
            split at hr
            · cases hr
            · split at hr <;> cases hr
          · rfl
  have hline : attributesOfLine (blank ++ ['\n']) = .error .indexError := by
    have hsp : ∀ c ∈ blank ++ ['\n'], isSpaceChar c = true := by
      intro c hc
      rcases List.mem_append.1 hc with hc | hc
      · exact hb.space c hc
      · rw [List.mem_singleton.1 hc]; decide
    have : (blank ++ ['\n']).dropWhile isSpaceChar = [] := List.dropWhile_eq_nil_iff.2 hsp
    rw [attributesOfLine, this]
    rfl
  have hmap : ∀ (xs : List (List Char)) (ys : List Attributes) (l : List Char) (zs : List (List Char)),
      xs.mapM attributesOfLine = .ok ys → attributesOfLine l = .error .indexError →
      (xs ++ l :: zs).mapM attributesOfLine = .error .indexError := by
    intro xs
    induction xs with
    | nil => intro ys l zs _ hl; rw [List.nil_append, List.mapM_cons, hl]; rfl
    | cons x xs ih =>
      intro ys l zs hx hl
      rw [List.mapM_cons] at hx
      obtain ⟨y, hy, hx⟩ := Py.bind_ok.1 hx
      obtain ⟨ys', hys, -⟩ := Py.bind_ok.1 hx
      rw [List.cons_append, List.mapM_cons, hy, Py.ok_bind, ih ys' l zs hys hl]
      rfl
  rw [metadataTable, happ hnl, readlines_line hb.noNewline, hmap _ _ _ _ (table_parse h h8) hline]
  rfl

/-- One lawyer: the hypotheses of `c106_table`, `c106_wrong_length` and `c106_blank_line`. -/
example : TableFile "1 1 1 1 31 64 1 1\n".toList [[1, 1, 1, 1, 31, 64, 1, 1]] ∧
    Contiguous [0, 0, 1] 2 ∧ [0, 0, 1].length = 3 * [[1, 1, 1, 1, 31, 64, 1, 1]].length := by
  refine ⟨?_, ?_, rfl⟩
  · refine TableFile.row (line := "1 1 1 1 31 64 1 1".toList) ⟨[], [(1, ['1'], [' ']), (1, ['1'], [' ']), (1, ['1'], [' ']),
      (1, ['1'], [' ']), (31, ['3', '1'], [' ']), (64, ['6', '4'], [' ']), (1, ['1'], [' ']), (1, ['1'], [])], by simp [Blank], ?_,
      by simp, rfl, rfl⟩ TableFile.done
    have h1 : Decimal 1 ['1'] := ⟨by simp, by decide, by decide⟩
    have hb : Blank [' '] := by simp [Blank]
    intro x hx
    simp only [List.mem_cons, List.not_mem_nil, or_false] at hx
    rcases hx with rfl | rfl | rfl | rfl | rfl | rfl | rfl | rfl
    · exact ⟨h1, hb⟩
    · exact ⟨h1, hb⟩
    · exact ⟨h1, hb⟩
    · exact ⟨h1, hb⟩
    · exact ⟨⟨by simp, by decide, by decide⟩, hb⟩
    · exact ⟨⟨by simp, by decide, by decide⟩, hb⟩
    · exact ⟨h1, hb⟩
    · exact ⟨h1, by simp [Blank]⟩
  · intro k
    simp
    omega

end Verif.Props
