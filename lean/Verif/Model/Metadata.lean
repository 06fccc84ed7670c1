import Verif.Model.DataFiles
import Verif.Model.Scores

/-!
# The comparison of the Lazega partitions with the lawyers' attributes
(`experiments/lazega_law_firm/lazega_figures.py:298-329`)
-/

namespace Verif

/-- The attributes of a lawyer that are kept. -/
structure Attributes where
  status : Int
  gender : Int
  office : Int
  seniority : Int
  age : Int
  practice : Int
  lawSchool : Int
  deriving DecidableEq

/-- The body of the loop over the lines of `ELattr.dat`
(`/repo/experiments/lazega_law_firm/lazega_figures.py:310-319`); `//` is floor division. -/
def attributesOfLine (line : List Char) : Py Attributes := do
  let x ← (pySplit ((line.dropWhile isSpaceChar).rdropWhile isSpaceChar)).mapM pyInt
  let status ← pyGet x 1
  let gender ← pyGet x 2
  let office ← pyGet x 3
  let seniority ← pyGet x 4
  let age ← pyGet x 5
  let practice ← pyGet x 6
  let lawSchool ← pyGet x 7
  return ⟨status, gender, office, seniority.fdiv 5, age.fdiv 5, practice, lawSchool⟩

/-- `attribute * 3`. -/
def thrice {α : Type} (l : List α) : List α := l ++ l ++ l

/-- The lines printed for one partition: the number of communities and the seven scores, in the order of the table
(`/repo/experiments/lazega_law_firm/lazega_figures.py:321-329`). -/
noncomputable def metadataScores (attrs : List Attributes) (part : List Nat) : Py (Nat × List (Fl ℝ)) := do
  let K ← numCommunities (part.map Int.ofNat)
  let s1 ← nmi part (thrice (attrs.map Attributes.office))
  let s2 ← nmi part (thrice (attrs.map Attributes.practice))
  let s3 ← nmi part (thrice (attrs.map Attributes.age))
  let s4 ← nmi part (thrice (attrs.map Attributes.seniority))
  let s5 ← nmi part (thrice (attrs.map Attributes.status))
  let s6 ← nmi part (thrice (attrs.map Attributes.gender))
  let s7 ← nmi part (thrice (attrs.map Attributes.lawSchool))
  return (K, [s1, s2, s3, s4, s5, s6, s7])

/-- `print_metadata_nmis(memberships)` (`/repo/experiments/lazega_law_firm/lazega_figures.py:298-329`) with the text of `ELattr.dat`;
what is printed before an exception is not modelled. -/
noncomputable def metadataTable (text : List Char) (memberships : List (List Nat)) : Py (List (Nat × List (Fl ℝ))) := do
  let attrs ← (readlines text).mapM attributesOfLine
  memberships.mapM (metadataScores attrs)

end Verif
