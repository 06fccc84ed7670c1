import Verif.Model.Timeout

/-!
# The timeout (specification)
-/

namespace Verif.Spec
open Verif

/-- Straight-line code: no exception handlers and no other timeouts inside.  Either it ends after a number of ticks, or it never
does. -/
inductive Plain {ρ : Type} : Body ρ → Option (Nat × Outcome ρ) → Prop
  | stop (o : Outcome ρ) : Plain (.stop o) (some (0, o))
  | hang : Plain .hang none
  | later (d : Nat) {b : Body ρ} {n : Nat} {o : Outcome ρ} : Plain b (some (n, o)) → Plain (.work d b) (some (d + n, o))
  | never (d : Nat) {b : Body ρ} : Plain b none → Plain (.work d b) none

end Verif.Spec
