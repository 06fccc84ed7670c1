import Verif.Model.Base

/-!
# The progress bar (`utilities/progress.py`)

Times are not modelled; what is printed is the name and the bar.
-/

namespace Verif

/-- `Progress` (`/repo/utilities/progress.py:5-14`): the attributes `total`, `length`, `i`. -/
structure Progress where
  total : Nat
  length : Nat
  i : Nat
  deriving DecidableEq, Repr

/-- `Progress(total, length)` (`/repo/utilities/progress.py:8-14`): `total / length` raises for length 0. -/
def Progress.new (total length : Nat) : Py Progress :=
  if length = 0 then .error .zeroDivisionError else .ok ⟨total, length, 0⟩

/-- The bar printed by `update(i)` (`/repo/utilities/progress.py:17-19`); `rnd a b` is the rounded float division `a / b`
followed by `floor`.  `"." * n` is empty for negative `n`, as is the natural number subtraction. -/
def Progress.bar (rnd : Nat → Nat → Nat) (p : Progress) (i : Nat) : Py (List Char) :=
  if p.total = 0 then .error .zeroDivisionError
  else
    let filled := rnd (p.length * i) p.total
    .ok (List.replicate filled '#' ++ List.replicate (p.length - filled) '.')

/-- `update(i)` (`/repo/utilities/progress.py:16-24`): prints the bar, then stores `i`. -/
def Progress.update (rnd : Nat → Nat → Nat) (p : Progress) (i : Nat) : Py (List Char × Progress) := do
  let b ← p.bar rnd i
  return (b, { p with i := i })

/-- `increment()` (`/repo/utilities/progress.py:26-27`). -/
def Progress.increment (rnd : Nat → Nat → Nat) (p : Progress) : Py (List Char × Progress) := p.update rnd (p.i + 1)

/-- `done()` (`/repo/utilities/progress.py:29-31`). -/
def Progress.done (rnd : Nat → Nat → Nat) (p : Progress) : Py (List Char × Progress) := p.update rnd p.total

end Verif
