import Verif.Spec.LP
import Verif.Spec.Qhull
import Verif.Props.Coefficients

/-!
# What is assumed about the environment of CHAMP
-/

namespace Verif.Spec
open Verif Verif.Props

/-- Exact halfspace intersection and a process pool that finishes its tasks; the LP solver and the sampler are
arbitrary. -/
structure SoundEnv (env : ChampEnv) : Prop where
  qhull : ExactQhull env.qhull
  workers : 1 ≤ env.cpu
  rounding : GoodRounding env.rnd env.cpu
  sched : ∀ i < env.cpu, i ∈ env.sched

/-- Additionally an exact LP solver and sampling without replacement. -/
structure ExactEnv (env : ChampEnv) : Prop extends SoundEnv env where
  linprog : ∀ d, ExactLP (env.linprog d)
  sample : SamplesWithoutReplacement env.sample

end Verif.Spec
