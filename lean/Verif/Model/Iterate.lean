import Verif.Model.Leiden
import Verif.Model.Consistency

/-!
# The iterative estimation algorithms (`utilities/parameter_estimation.py:9-80,130-232`)

Console output is not modelled, except that formatting `None` raises `TypeError`.  `range(max_iter)` is modelled for
natural `max_iter` (a negative one behaves like 0).
-/

namespace Verif

/-- `abs(x)` on floats. -/
noncomputable def Fl.abs : Fl ℝ → Fl ℝ
  | .fin x => .fin |x|
  | .pinf => .pinf
  | .ninf => .pinf
  | .nan => .nan

/-- IEEE `x < y`. -/
noncomputable def Fl.lt : Fl ℝ → Fl ℝ → Bool
  | .fin x, .fin y => decide (x < y)
  | .nan, _ => false
  | _, .nan => false
  | .ninf, .ninf => false
  | .ninf, _ => true
  | .pinf, _ => false
  | .fin _, .pinf => true
  | .fin _, .ninf => false

/-- `for _ in range(n): body`, where the body says whether it leaves the loop by `break`; the result tells whether it did
(otherwise the `else` clause runs). -/
def forRange {σ : Type} (body : σ → Prog (σ × Bool)) : Nat → σ → Prog (σ × Bool)
  | 0, s => pure (s, false)
  | n + 1, s => do
    let r ← body s
    if r.2 then pure (r.1, true) else forRange body n r.1

/-- The variables `gamma`, `last_gamma`, `part` of the single-layer iteration, and the graph object's content. -/
structure MonoState where
  G : Graph ℝ
  gamma : Fl ℝ
  last : Option (Fl ℝ)
  part : Option (List Nat)

/-- Message of a degenerate partition (`/repo/utilities/parameter_estimation.py:64`). -/
def msgDegenerate (env : LeidenEnv) (gamma : Fl ℝ) : String :=
  "gamma=" ++ env.fmt gamma ++ " resulted in degenerate partition"

/-- `maximize_modularity` (`/repo/utilities/parameter_estimation.py:39-47`). -/
noncomputable def maximizeMono (env : LeidenEnv) (method : String) :
    Py (Graph ℝ → Fl ℝ → Prog (List Nat × Graph ℝ)) :=
  if method = "louvain" ∨ method = "leiden" then .ok fun G γ => singlelayerLeiden env G γ
  else if method = "2-spinglass" then .ok fun G γ => do
    let membership ← Prog.optimise fun i => env.spinglass i G γ
    let part ← Prog.lift (leidenPartWithMembership G membership)
    return (part, G)
  else .error (.valueError ("Community detection method " ++ method ++ " not supported"))

/-- One iteration (`/repo/utilities/parameter_estimation.py:56-71`). -/
noncomputable def monoBody (env : LeidenEnv) (maximize : Graph ℝ → Fl ℝ → Prog (List Nat × Graph ℝ)) (m tol : ℝ)
    (s : MonoState) : Prog (MonoState × Bool) := do
  let r ← maximize s.G s.gamma
  let sbm ← Prog.lift (estimateSinglelayerSBM r.2 r.1 (some m))
  match gammaFromParameters sbm.1 sbm.2 with
  | none => Prog.lift (.error (.valueError (msgDegenerate env s.gamma)))
  | some gamma =>
    pure (⟨r.2, gamma, some s.gamma, some r.1⟩, Fl.lt (Fl.abs (Fl.sub gamma s.gamma)) (.fin tol))

/-- `iterative_monolayer_resolution_parameter_estimation` (`/repo/utilities/parameter_estimation.py:9-80`); also returns
the graph's content afterwards.  `part` is `none` for Python's `None`. -/
noncomputable def iterateMono (env : LeidenEnv) (G : Graph ℝ) (gamma tol : ℝ) (maxIter : Nat) (verbose : Bool)
    (method : String) : Prog (Fl ℝ × Option (List Nat) × Graph ℝ) := do
  let G ← Prog.lift (ensureWeight env.test G.ecount G)
  let ws ← Prog.lift G.esWeight
  let maximize ← Prog.lift (maximizeMono env method)
  let r ← forRange (monoBody env maximize ws.sum tol) maxIter ⟨G, .fin gamma, none, none⟩
  if verbose ∧ r.2 = false ∧ r.1.last = none then Prog.lift (.error .typeError)  -- abs(gamma - last_gamma)
  else if verbose ∧ r.1.part = none then Prog.lift (.error .typeError)  -- len(part)
  else pure (r.1.gamma, r.1.part, r.1.G)

/-- The variables of the multilayer iteration, and the contents of both graph objects. -/
structure MultiState where
  Gi : Graph ℝ
  Gx : Graph ℝ
  gamma : Fl ℝ
  omega : ℝ
  last : Option (Fl ℝ × ℝ)

/-- Messages (`/repo/utilities/parameter_estimation.py:206,212`). -/
def msgImpossibleP (env : LeidenEnv) (gamma : Fl ℝ) (omega p : ℝ) : String :=
  "gamma=" ++ env.fmt gamma ++ ", omega=" ++ env.fmt (.fin omega) ++ " resulted in impossible estimate p=" ++
    env.fmt (.fin p)
/-- See `msgImpossibleP`. -/
def msgDegenerateMulti (env : LeidenEnv) (gamma : Fl ℝ) (omega : ℝ) : String :=
  "gamma=" ++ env.fmt gamma ++ ", omega=" ++ env.fmt (.fin omega) ++ " resulted in degenerate partition"

/-- `estimate_SBM_parameters` (`/repo/utilities/parameter_estimation.py:196-198`), including the weight default of
`estimate_multilayer_SBM_parameters` (`/repo/utilities/parameter_estimation_utilities.py:76-77`). -/
noncomputable def estimateMulti (env : LeidenEnv) (layers : List Nat) (model : String) (T N : Nat) (Nt : List Nat)
    (mt : List ℝ) (Gi Gx : Graph ℝ) (part : List Nat) : Py ((ℝ × ℝ × ℝ × Nat) × Graph ℝ) := do
  let Gi ← ensureWeight env.test Gi.ecount Gi
  let sbm ← estimateMultilayerSBM env.fsolve Gi Gx layers part model (some N) (some T) (some Nt) (some mt)
  return (sbm, Gi)

/-- One iteration (`/repo/utilities/parameter_estimation.py:201-222`). -/
noncomputable def multiBody (env : LeidenEnv) (obj : Nat) (layers : List Nat) (model : String) (T N : Nat)
    (Nt : List Nat) (mt : List ℝ) (updateOmega : ℝ → ℝ → ℝ → Nat → Py ℝ) (gammaTol omegaTol : ℝ) (s : MultiState) :
    Prog (MultiState × Bool) := do
  let r ← multilayerLeiden env obj s.Gi s.Gx layers s.gamma s.omega
  Prog.setParts r.1
  let est ← Prog.lift (estimateMulti env layers model T N Nt mt r.2.1 r.2.2 r.1)
  let (thetaIn, thetaOut, p, K) := est.1
  if ¬ (0 ≤ p ∧ p ≤ 1) then Prog.lift (.error (.valueError (msgImpossibleP env s.gamma s.omega p)))
  else match gammaFromParameters thetaIn thetaOut with
    | none => Prog.lift (.error (.valueError (msgDegenerateMulti env s.gamma s.omega)))
    | some gamma => do
      let omega ← Prog.lift (updateOmega thetaIn thetaOut p K)
      pure (⟨est.2, r.2.2, gamma, omega, some (s.gamma, s.omega)⟩,
        Fl.lt (Fl.abs (Fl.sub gamma s.gamma)) (.fin gammaTol) && decide (|omega - s.omega| < omegaTol))

/-- `iterative_multilayer_resolution_parameter_estimation` (`/repo/utilities/parameter_estimation.py:130-232`); also
returns the contents of both graphs afterwards. -/
noncomputable def iterateMulti (env : LeidenEnv) (obj : Nat) (Gi Gx : Graph ℝ) (layers : List Nat) (gamma omega gammaTol
    omegaTol omegaMax : ℝ) (maxIter : Nat) (model : String) (verbose : Bool) :
    Prog (Fl ℝ × ℝ × List Nat × Graph ℝ × Graph ℝ) := do
  let Gi ← Prog.lift (ensureWeight env.test Gi.ecount Gi)
  let Gx ← Prog.lift (ensureWeight env.test Gx.ecount Gx)
  let (T, mt, N, Nt) ← Prog.lift (prepareMultilayer Gi Gx layers model)
  let updateOmega ← Prog.lift (omegaFunctionFromModel model omegaMax T)
  let r ← forRange (multiBody env obj layers model T N Nt mt updateOmega gammaTol omegaTol) maxIter
    ⟨Gi, Gx, .fin gamma, omega, none⟩
  if verbose ∧ r.2 = false ∧ r.1.last = none then Prog.lift (.error .typeError)
  else do
    let parts ← Prog.getParts
    pure (r.1.gamma, r.1.omega, parts, r.1.Gi, r.1.Gx)

end Verif
