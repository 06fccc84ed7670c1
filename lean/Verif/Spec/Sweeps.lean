import Verif.Spec.Iterate

/-!
# Specification vocabulary for repeated estimations (C100)
-/

namespace Verif.Spec
open Verif

/-- The results of `n` consecutive runs of `x` in one process, and the state of the process after them. -/
def runs {α : Type} (x : Prog α) : Nat → World → List (Py α) × World
  | 0, w => ([], w)
  | n + 1, w => ((x w).1 :: (runs x n (x w).2).1, (runs x n (x w).2).2)

/-- For every starting value in turn, the results of `n` consecutive runs of `x` from it. -/
def sweepRuns {P α : Type} (x : P → Prog α) (n : Nat) : List P → World → List (P × List (Py α))
  | [], _ => []
  | g :: gs, w => (g, (runs (x g) n w).1) :: sweepRuns x n gs (runs (x g) n w).2

/-- The values among the results, in order, when `ValueError`s are ignored; the first other exception ends the program. -/
def successes {α : Type} : List (Py α) → Py (List α)
  | [] => .ok []
  | .ok a :: l => (successes l).map (a :: ·)
  | .error (.valueError _) :: l => successes l
  | .error e :: _ => .error e

/-- The values of `successes` for every group. -/
def groupSuccesses {P α : Type} : List (P × List (Py α)) → Py (List (P × List α))
  | [] => .ok []
  | (g, l) :: rest =>
    match successes l with
    | .error e => .error e
    | .ok as => (groupSuccesses rest).map ((g, as) :: ·)

/-- One step of the single-layer estimation from `g`, as the `i`-th optimisation of the process: maximise, then estimate. -/
noncomputable def oneStep (env : LeidenEnv) (method : String) (G : Graph ℝ) (g : ℝ) (i : Nat) : Py (Fl ℝ) := do
  let c ← maximiser env method G i (.fin g)
  reestimate env G (.fin g) c

end Verif.Spec
