import Verif.Model.Iterate

/-!
# Specification vocabulary for the iterative algorithms

An iteration alternates "maximise modularity at the current parameters" and "estimate new parameters from the partition
found" until the parameters move by less than the tolerance or the iteration limit is reached.
-/

namespace Verif.Spec
open Verif

variable {P C : Type}

/-- `vs` are the parameters and partitions visited so far: the first parameters are `π₀`, the `i`-th partition is what the
`i`-th maximisation found at the `i`-th parameters, and the next parameters are the estimate from that partition, which
was not near enough to stop. -/
structure Visits (maximise : Nat → P → Py C) (update : P → C → Py P) (near : P → P → Prop) (π₀ : P)
    (vs : List (P × C)) : Prop where
  start : ∀ v, vs.head? = some v → v.1 = π₀
  found : ∀ i v, vs[i]? = some v → maximise i v.1 = .ok v.2
  step : ∀ i v v', vs[i]? = some v → vs[i + 1]? = some v' → update v.1 v.2 = .ok v'.1 ∧ ¬ near v'.1 v.1

/-- A complete iteration with limit `n`: the visits, the number of maximisations made and the outcome, which is either the
final parameters with the last partition (`none` if no maximisation was made), or an exception raised by a maximisation
or by an estimation. -/
def Iteration (maximise : Nat → P → Py C) (update : P → C → Py P) (near : P → P → Prop) (n : Nat) (π₀ : P)
    (vs : List (P × C)) (calls : Nat) : Py (P × Option C) → Prop
  | .ok (π, none) => n = 0 ∧ vs = [] ∧ calls = 0 ∧ π = π₀
  | .ok (π, some c) => vs.length ≤ n ∧ calls = vs.length ∧ Visits maximise update near π₀ vs ∧
      ∃ π', vs.getLast? = some (π', c) ∧ update π' c = .ok π ∧ (vs.length = n ∨ near π π')
  | .error e => Visits maximise update near π₀ vs ∧
      ((vs.length ≤ n ∧ calls = vs.length ∧ ∃ v, vs.getLast? = some v ∧ update v.1 v.2 = .error e) ∨
       (vs.length < n ∧ calls = vs.length + 1 ∧ ∃ π, maximise vs.length π = .error e ∧
         ((vs = [] ∧ π = π₀) ∨ ∃ v, vs.getLast? = some v ∧ update v.1 v.2 = .ok π ∧ ¬ near π v.1)))

/-- Two floats are real numbers that differ by less than `tol`. -/
def Within (tol : ℝ) (a b : Fl ℝ) : Prop := ∃ x y : ℝ, a = .fin x ∧ b = .fin y ∧ |x - y| < tol

/-- leidenalg returns one community per vertex. -/
def ProducesPartitions (env : LeidenEnv) : Prop :=
  (∀ i G γ c, env.findPartition i G γ = .ok c → c.length = G.vcount) ∧
  ∀ i parts ws c, env.optimiseMultiplex i parts ws = .ok c →
    ∀ G γ, (VertexPartition.rb G γ ∈ parts ∨ VertexPartition.cpm G γ ∈ parts) → c.length = G.vcount

/-- The `i`-th maximisation of the single-layer iteration: Leiden, or spinglass with two spins (whose result must have one
community per vertex). -/
def maximiser (env : LeidenEnv) (method : String) (G : Graph ℝ) (i : Nat) (γ : Fl ℝ) : Py (List Nat) :=
  if method = "2-spinglass" then
    match env.spinglass i G γ with
    | .ok c => if c.length = G.vcount then .ok c else .error (.valueError "Membership vector has incorrect size.")
    | .error e => .error e
  else env.findPartition i G γ

/-- The new gamma is the result of `gamma_estimate` for the partition found; `None` is reported as degenerate. -/
noncomputable def reestimate (env : LeidenEnv) (G : Graph ℝ) (γ : Fl ℝ) (c : List Nat) : Py (Fl ℝ) :=
  match gammaEstimate env.test G c with
  | .ok (some γ', _) => .ok γ'
  | .ok (none, _) => .error (.valueError (msgDegenerate env γ))
  | .error e => .error e

/-- The new parameters from a partition of a multilayer network: `estimate_multilayer_SBM_parameters`, rejected if `p` is
no probability; the gamma estimate, rejected if it is `None`; the model's omega estimate. -/
noncomputable def reestimateMulti (env : LeidenEnv) (Gi Gx : Graph ℝ) (layers : List Nat) (model : String) (omegaMax : ℝ)
    (T : Nat) (π : Fl ℝ × ℝ) (c : List Nat) : Py (Fl ℝ × ℝ) := do
  let (thetaIn, thetaOut, p, K) ← estimateMultilayerSBM env.fsolve Gi Gx layers c model none none none none
  if ¬ (0 ≤ p ∧ p ≤ 1) then .error (.valueError (msgImpossibleP env π.1 π.2 p))
  else match gammaFromParameters thetaIn thetaOut with
    | none => .error (.valueError (msgDegenerateMulti env π.1 π.2))
    | some gamma => do
      let updateOmega ← omegaFunctionFromModel model omegaMax T
      let omega ← updateOmega thetaIn thetaOut p K
      return (gamma, omega)

/-- The `i`-th maximisation of the multilayer iteration: the multiplex problem made of the layer graphs `Gs` and the
interlayer graph. -/
noncomputable def multiMaximiser (env : LeidenEnv) (Gs : List (Graph ℝ)) (Gx : Graph ℝ) (i : Nat) (π : Fl ℝ × ℝ) :
    Py (List Nat) :=
  env.optimiseMultiplex i (multiplexProblem Gs Gx π.1 π.2).1 (multiplexProblem Gs Gx π.1 π.2).2

/-- Both parameters moved less than their tolerances. -/
def WithinBoth (gammaTol omegaTol : ℝ) (π π' : Fl ℝ × ℝ) : Prop :=
  Within gammaTol π.1 π'.1 ∧ |π.2 - π'.2| < omegaTol

/-- The layer graphs used for the intralayer graph object `obj` with content `G` in a process with the given cache. -/
def LayerGraphs (cache : LRU SplitKey (List (Graph ℝ))) (obj : Nat) (G : Graph ℝ) (layers : List Nat)
    (Gs : List (Graph ℝ)) : Prop := (splitIntralayer cache obj G layers).2 = .ok Gs

/-- The graph with its weights after "use weight 1 on every edge unless igraph says there are weights". -/
def defaulted {F : Type} [One F] (test : Graph F → Bool) (G : Graph F) : Graph F :=
  if test G then G else { G with weight := some (List.replicate G.ecount 1) }

/-- If igraph says the graph has weights, then it does. -/
def SaneTest {F : Type} (test : Graph F → Bool) (G : Graph F) : Prop := test G = true → G.weight ≠ none

/-- The states of a process that has made any sequence of calls of the Leiden-based functions, when the graph objects keep
the content given by `heap` (apart from the weight 1 that the functions themselves add). -/
inductive Reachable (env : LeidenEnv) (heap : Nat → Graph ℝ) : World → Prop
  | fresh : Reachable env heap World.fresh
  /-- functions that only optimise: `singlelayer_leiden`, the single-layer iteration, … -/
  | optimise {w : World} (n : Nat) : Reachable env heap w → Reachable env heap { w with calls := w.calls + n }
  | leiden {w : World} (obj : Nat) (Gi Gx : Graph ℝ) (layers : List Nat) (γ : Fl ℝ) (ω : ℝ) :
      defaulted env.test Gi = defaulted env.test (heap obj) → Reachable env heap w →
      Reachable env heap (multilayerLeiden env obj Gi Gx layers γ ω w).2
  | iterate {w : World} (obj : Nat) (Gi Gx : Graph ℝ) (layers : List Nat) (γ ω γtol ωtol ωmax : ℝ) (n : Nat)
      (model : String) (verbose : Bool) :
      defaulted env.test Gi = defaulted env.test (heap obj) → Reachable env heap w →
      Reachable env heap (iterateMulti env obj Gi Gx layers γ ω γtol ωtol ωmax n model verbose w).2

end Verif.Spec
