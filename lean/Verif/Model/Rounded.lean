import Verif.Model.Champ

/-! # `CHAMP_2D` on rounded coefficients -/

namespace Verif

/-- The part of `CHAMP_2D` after the coefficients are known (`/repo/utilities/champ_utilities.py:121-150`). -/
noncomputable def champ2DFrom {α : Type} [DecidableEq α] (env : ChampEnv) (parts : List (List α)) (A P : List ℝ)
    (γ₀ γf : ℝ) : Run (List (ℝ × ℝ × List α)) := do
  let hs ← Run.ofPy (champ2DHalfspaces A P γ₀ γf)
  let x ← getInteriorPoint env.sample (env.linprog 2) hs defaultInitial defaultRetryLimit (defaultFuel hs.length)
  let out ← Run.ofPy (requireFinitePoints (env.qhull 2 hs x))
  let ranges ← Run.ofPy ((facetsByHalfspace parts.length out).mapM (rangeOf parts))
  return pySortedBy (fun r => r.1) ranges

/-- `CHAMP_2D` (`/repo/utilities/champ_utilities.py:112-150`) with every coefficient rounded by `fl` when it becomes a floating-point
number.  In the code `A_hats` is an array of integers and the numerators of `P_hats` are integers, so that one rounding each
happens, in `np.vstack` (`/repo/utilities/champ_utilities.py:290`) and in the division
(`/repo/utilities/champ_utilities.py:247,253`).  Simplification: everything after the coefficients is still exact. -/
noncomputable def champ2DRounded {α : Type} [DecidableEq α] (fl : ℝ → ℝ) (env : ChampEnv) (G : Graph ℝ)
    (parts : List (List α)) (γ₀ γf : ℝ) (singleThreaded : Bool) : Run (List (ℝ × ℝ × List α)) := do
  if parts.length = 0 then return []
  let AP ← (ExceptT.mk (partitionCoefficients2D env.rnd env.cpu env.sched G parts singleThreaded) : Run _)
  let P ← Run.ofPy (requireFinite AP.2)
  champ2DFrom env parts (AP.1.map fl) (P.map fl) γ₀ γf

/-- The part of `CHAMP_3D` after the coefficients are known (`/repo/utilities/champ_utilities.py:190-223`). -/
noncomputable def champ3DFrom {α : Type} [DecidableEq α] (env : ChampEnv) (parts : List (List α)) (A P C : List ℝ)
    (γ₀ γf ω₀ ωf : ℝ) : Run (List (List (ℝ × ℝ) × List α)) := do
  let hs ← Run.ofPy (champ3DHalfspaces A P C γ₀ γf ω₀ ωf)
  let x ← getInteriorPoint env.sample (env.linprog 3) hs defaultInitial defaultRetryLimit (defaultFuel hs.length)
  let out ← Run.ofPy (requireFinitePoints (env.qhull 3 hs x))
  Run.ofPy ((facetsByHalfspace parts.length out).mapM fun f => do
    let part ← pyGet parts f.1
    return (sortDomain f.2, part))

/-- `CHAMP_3D` (`/repo/utilities/champ_utilities.py:181-223`) with every coefficient rounded by `fl`.  Simplification: the sum over
communities and layers inside `P_hat` is rounded once, and everything after the coefficients is exact. -/
noncomputable def champ3DRounded {α : Type} [DecidableEq α] (fl : ℝ → ℝ) (env : ChampEnv) (Gi Gx : Graph ℝ)
    (layerVec : List Nat) (parts : List (List α)) (γ₀ γf ω₀ ωf : ℝ) : Run (List (List (ℝ × ℝ) × List α)) := do
  if parts.length = 0 then return []
  let APC ← (ExceptT.mk (partitionCoefficients3D env.rnd env.cpu env.sched Gi Gx layerVec parts) : Run _)
  let P ← Run.ofPy (requireFinite APC.2.1)
  champ3DFrom env parts (APC.1.map fl) (P.map fl) (APC.2.2.map fl) γ₀ γf ω₀ ωf

end Verif
