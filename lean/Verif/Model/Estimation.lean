import Mathlib.Analysis.SpecialFunctions.Log.Basic
import Mathlib.Algebra.BigOperators.Group.List.Basic
import Verif.Model.Weights
import Verif.Model.Coefficients

/-!
# SBM parameter estimation (`utilities/parameter_estimation_utilities.py:14-366`)

Numbers are exact elements of an ordered field (reals where logarithms are involved).  Community labels are natural
numbers.
-/

namespace Verif

/-- `len(partition)` of a leidenalg/igraph `VertexClustering`: largest label plus one. -/
def partLen (membership : List Nat) : Nat :=
  match membership.max? with
  | none => 0
  | some M => M + 1

section SBM
variable {F : Type _} [Field F] [LinearOrder F]

/-- `sum(e['weight'] * (community[e.source] == community[e.target]) for e in G.es)`
(`/repo/utilities/parameter_estimation_utilities.py:35`). -/
def insideWeight (es : List ((Nat × Nat) × F)) (community : List Nat) : Py F := do
  let ws ← es.mapM fun e => do
    let a ← pyGet community e.1.1
    let b ← pyGet community e.1.2
    return e.2 * (if a = b then 1 else 0)
  return ws.sum

/-- The loop adding both end strengths of every edge (`/repo/utilities/parameter_estimation_utilities.py:36-39`). -/
def kappaList (n : Nat) (es : List ((Nat × Nat) × F)) (community : List Nat) : Py (List F) :=
  es.foldlM (fun acc e => do
    let a ← pyGet community e.1.1
    let acc ← pyAddAt acc a e.2
    let b ← pyGet community e.1.2
    pyAddAt acc b e.2) (List.replicate n 0)

/-- `if x is None: x = ...` (`/repo/utilities/parameter_estimation_utilities.py:29-30,80-94`). -/
def orCompute {α : Type _} (x? : Option α) (compute : Py α) : Py α :=
  match x? with
  | some x => .ok x
  | none => compute

/-- `omega_out` (`/repo/utilities/parameter_estimation_utilities.py:44`). -/
def omegaOutOf (K : Nat) (m mIn sumKappaSqr : F) : Py F :=
  if K > 1 then do
    let d ← pyDiv sumKappaSqr (2 * m)
    pyDiv (2 * m - 2 * mIn) (2 * m - d)
  else .ok 0

/-- `estimate_singlelayer_SBM_parameters` (`/repo/utilities/parameter_estimation_utilities.py:14-47`) for a leidenalg
partition with the given membership. -/
def estimateSinglelayerSBM (G : Graph F) (community : List Nat) (m? : Option F) : Py (F × F) := do
  let m ← orCompute m? (G.esWeight.map List.sum)
  let es ← G.weightedEdges
  let mIn ← insideWeight es community
  let kappa ← kappaList (partLen community) es community
  let sumKappaSqr := (kappa.map fun x => x ^ 2).sum
  let d ← pyDiv sumKappaSqr (2 * m)
  let omegaIn ← pyDiv (2 * mIn) d
  let omegaOut ← omegaOutOf (partLen community) m mIn sumKappaSqr
  return (omegaIn, omegaOut)

/-- `m_t`: total edge weight per layer (`/repo/utilities/parameter_estimation_utilities.py:86-89`,
`/repo/utilities/parameter_estimation.py:178-180`). -/
def layerWeights (T : Nat) (es : List ((Nat × Nat) × F)) (layerVec : List Nat) : Py (List F) :=
  es.foldlM (fun acc e => do
    let l ← pyGet layerVec e.1.1
    pyAddAt acc l e.2) (List.replicate T 0)

/-- `Nt`: vertices per layer (`/repo/utilities/parameter_estimation_utilities.py:91-94`,
`/repo/utilities/parameter_estimation.py:184-186`). -/
def layerSizes (T : Nat) (layerVec : List Nat) : Py (List Nat) :=
  layerVec.foldlM (fun acc l => pyAddAt acc l 1) (List.replicate T 0)

/-- `m_t_in` (`/repo/utilities/parameter_estimation_utilities.py:99-102`). -/
def layerInsideWeights (T : Nat) (es : List ((Nat × Nat) × F)) (layerVec community : List Nat) : Py (List F) :=
  es.foldlM (fun acc e => do
    let a ← pyGet community e.1.1
    let b ← pyGet community e.1.2
    if a = b then do
      let l ← pyGet layerVec e.1.1
      let l' ← pyGet layerVec e.1.2
      if l = l' then pyAddAt acc l e.2 else .ok acc
    else .ok acc) (List.replicate T 0)

/-- `rows[i][j] += x` -/
def pyAddAt2 (rows : List (List F)) (i j : Nat) (x : F) : Py (List (List F)) := do
  let row ← pyGet rows i
  let row ← pyAddAt row j x
  return rows.set i row

/-- `kappa_t_r_list` (`/repo/utilities/parameter_estimation_utilities.py:104-108`): both ends are booked in the layer of
the edge's source. -/
def layerKappa (T K : Nat) (es : List ((Nat × Nat) × F)) (layerVec community : List Nat) : Py (List (List F)) :=
  es.foldlM (fun acc e => do
    let l ← pyGet layerVec e.1.1
    let a ← pyGet community e.1.1
    let acc ← pyAddAt2 acc l a e.2
    let b ← pyGet community e.1.2
    pyAddAt2 acc l b e.2) (List.replicate T (List.replicate K 0))

/-- Number of interlayer edges inside a community (`/repo/utilities/parameter_estimation_utilities.py:244,258`). -/
def insideEdges (Gx : Graph F) (community : List Nat) : Py Nat := internalEdgeCount Gx.edges community

/-- `ordinal_persistence` (`/repo/utilities/parameter_estimation_utilities.py:242-244`). -/
def ordinalPersistence (Gx : Graph F) (community : List Nat) (N T : Nat) : Py F := do
  let s ← insideEdges Gx community
  pyDiv (s : F) ((N : F) * ((T : F) - 1))

/-- `multilevel_persistence` (`/repo/utilities/parameter_estimation_utilities.py:247-253`). -/
def multilevelPersistence (Gx : Graph F) (community layerVec Nt : List Nat) (T : Nat) : Py F := do
  let pers ← Gx.edges.foldlM (fun acc e => do
    let l ← pyGet layerVec e.2
    let a ← pyGet community e.1
    let b ← pyGet community e.2
    pyAddAt acc l (if a = b then (1 : F) else 0)) (List.replicate T (0 : F))
  let perLayer ← (List.range T).mapM fun t => do
    let x ← pyGet pers t
    let n ← pyGet Nt t
    pyDiv x (n : F)
  pyDiv perLayer.sum ((T : F) - 1)

/-- `categorical_persistence` (`/repo/utilities/parameter_estimation_utilities.py:256-258`). -/
def categoricalPersistence (Gx : Graph F) (community : List Nat) (N T : Nat) : Py F := do
  let s ← insideEdges Gx community
  pyDiv (s : F) ((N : F) * (T : F) * ((T : F) - 1))

/-- Message of the unknown-model error (`/repo/utilities/parameter_estimation_utilities.py:283,321`). -/
def msgModel (model : String) : String := "Model " ++ model ++ " is not temporal, multilevel, or multiplex"

/-- `persistence_function_from_model` (`/repo/utilities/parameter_estimation_utilities.py:288-323`); `none` is Python's
`None`. -/
def persistenceFunctionFromModel (model : String) (Gx : Graph F) (layerVec : Option (List Nat)) (N T : Option Nat)
    (Nt : Option (List Nat)) : Py (List Nat → Py F) :=
  if model = "temporal" then
    match N, T with
    | some N, some T => .ok fun community => ordinalPersistence Gx community N T
    | _, _ => .error (.valueError "Parameters N and T cannot be None for temporal persistence calculation")
  else if model = "multilevel" then
    match Nt, T, layerVec with
    | some Nt, some T, some layerVec => .ok fun community => multilevelPersistence Gx community layerVec Nt T
    | _, _, _ =>
      .error (.valueError "Parameters layer_vec, Nt, T cannot be None for multilevel persistence calculation")
  else if model = "multiplex" then
    match N, T with
    | some N, some T => .ok fun community => categoricalPersistence Gx community N T
    | _, _ => .error (.valueError "Parameters N and T cannot be None for multiplex persistence calculation")
  else .error (.valueError (msgModel model))

/-- The polynomial whose root is the multiplex copying probability
(`/repo/utilities/parameter_estimation_utilities.py:125-127`). -/
def multiplexPoly (K T : Nat) (pers x : F) : F :=
  2 * (1 - 1 / (K : F)) / ((T : F) * ((T : F) - 1)) *
    ((List.range' 1 (T - 1)).map fun (n : Nat) => ((T : F) - (n : F)) * x ^ n).sum + 1 / (K : F) - pers

/-- The multiplex copying probability (`/repo/utilities/parameter_estimation_utilities.py:123-133`); `fsolve f x₀` is
scipy's root finder. -/
def multiplexP (fsolve : (F → F) → F → F) (K T : Nat) (pers : F) : F :=
  let p := if pers < 1 ∧ 1 < K then fsolve (multiplexPoly K T pers) (1 / 2) else 1
  if p < 0 then 0 else p

/-- The temporal/multilevel copying probability (`/repo/utilities/parameter_estimation_utilities.py:134-137`). -/
def temporalP (K : Nat) (pers : F) : F :=
  if pers < 1 ∧ 1 < K then max (((K : F) * pers - 1) / ((K : F) - 1)) 0 else 1

/-- `max(layer_vec) + 1` (`/repo/utilities/parameter_estimation_utilities.py:81,354`). -/
def countLayers (layerVec : List Nat) : Py Nat :=
  match layerVec.max? with
  | some M => .ok (M + 1)
  | none => .error (.valueError "max() arg is an empty sequence")

/-- `G_intralayer.vcount() // T` (`/repo/utilities/parameter_estimation_utilities.py:84`). -/
def vcountFloorDiv (n T : Nat) : Py Nat := if T = 0 then .error .zeroDivisionError else .ok (n / T)

/-- `theta_out` with its guard (`/repo/utilities/parameter_estimation_utilities.py:116-119`). -/
def guardedRatio (a b : F) : Py F := if b = 0 then .ok 0 else pyDiv a b

/-- `estimate_multilayer_SBM_parameters` after the weight default
(`/repo/utilities/parameter_estimation_utilities.py:79-139`), for a leidenalg partition with the given membership. -/
def estimateMultilayerSBM (fsolve : (F → F) → F → F) (Gi Gx : Graph F) (layerVec community : List Nat) (model : String)
    (N? T? : Option Nat) (Nt? : Option (List Nat)) (mt? : Option (List F)) : Py (F × F × F × Nat) := do
  let T ← orCompute T? (countLayers layerVec)
  let N ← orCompute N? (vcountFloorDiv Gi.vcount T)
  let es ← Gi.weightedEdges
  let mt ← orCompute mt? (layerWeights T es layerVec)
  let Nt ← orCompute Nt? (layerSizes T layerVec)
  let K := partLen community
  let mtIn ← layerInsideWeights T es layerVec community
  let kappa ← layerKappa T K es layerVec community
  let sq := kappa.map fun row => (row.map fun x => x ^ 2).sum
  let num ← (List.range T).mapM fun t => do
    let x ← pyGet mtIn t
    return 2 * x
  let den ← (List.range T).mapM fun t => do
    let s ← pyGet sq t
    let w ← pyGet mt t
    pyDiv s (2 * w)
  let thetaIn ← pyDiv num.sum den.sum
  let outNum ← (List.range T).mapM fun t => do
    let w ← pyGet mt t
    let x ← pyGet mtIn t
    return 2 * w - 2 * x
  let outDen ← (List.range T).mapM fun t => do
    let w ← pyGet mt t
    let s ← pyGet sq t
    let d ← pyDiv s (2 * w)
    return 2 * w - d
  let thetaOut ← guardedRatio outNum.sum outDen.sum
  let persistenceOf ← persistenceFunctionFromModel model Gx (some layerVec) (some N) (some T) (some Nt)
  let pers ← persistenceOf community
  let p := if model = "multiplex" then multiplexP fsolve K T pers else temporalP K pers
  return (thetaIn, thetaOut, p, K)

end SBM

/-! ## Logarithmic formulas (reals) -/

open Real

/-- `np.log` of a float: no exception, `-inf` at 0, NaN below. -/
noncomputable def npLog (x : ℝ) : Fl ℝ := if 0 < x then .fin (log x) else if x = 0 then .ninf else .nan

/-- IEEE subtraction. -/
def Fl.sub {F : Type _} [Field F] [LinearOrder F] (x y : Fl F) : Fl F :=
  Fl.add x (match y with | .fin y => .fin (-y) | .pinf => .ninf | .ninf => .pinf | .nan => .nan)

/-- IEEE division of numpy scalars. -/
def Fl.div {F : Type _} [Field F] [LinearOrder F] : Fl F → Fl F → Fl F
  | .fin x, .fin y => npDiv x y
  | .fin _, .pinf => .fin 0
  | .fin _, .ninf => .fin 0
  | .pinf, .fin y => if 0 ≤ y then .pinf else .ninf
  | .ninf, .fin y => if 0 ≤ y then .ninf else .pinf
  | _, _ => .nan

/-- `gamma_estimate_from_parameters` (`/repo/utilities/parameter_estimation_utilities.py:166-182`); `none` is `None`.
The logarithms are numpy floats, so the division does not raise. -/
noncomputable def gammaFromParameters (omegaIn omegaOut : ℝ) : Option (Fl ℝ) :=
  if omegaIn = 0 ∨ omegaOut = 0 then none
  else some (Fl.div (.fin (omegaIn - omegaOut)) (Fl.sub (npLog omegaIn) (npLog omegaOut)))

/-- `math.log`: raises `ValueError` for non-positive arguments. -/
noncomputable def pyLog (x : ℝ) : Py ℝ := if 0 < x then .ok (log x) else .error (.valueError "math domain error")

/-- `multiplex_omega_estimate_from_parameters` (`/repo/utilities/parameter_estimation_utilities.py:185-213`). -/
noncomputable def multiplexOmega (thetaIn thetaOut p : ℝ) (K T : Nat) (omegaMax : ℝ) : Py ℝ :=
  if p = 0 then .ok 0
  else if 1 ≤ p ∨ thetaIn = 1 then .ok omegaMax
  else if thetaOut = 0 then do
    let a ← pyLog (1 + p * K / (1 - p))
    let b ← pyLog thetaIn
    pyDiv a (T * b)
  else do
    let a ← pyLog (1 + p * K / (1 - p))
    let b ← pyLog thetaIn
    let c ← pyLog thetaOut
    pyDiv a (T * (b - c))

/-- `temporal_multilevel_omega_estimate_from_parameters`
(`/repo/utilities/parameter_estimation_utilities.py:216-239`). -/
noncomputable def temporalOmega (thetaIn thetaOut p : ℝ) (K : Nat) (omegaMax : ℝ) : Py ℝ :=
  if p = 0 then .ok 0
  else if thetaOut = 0 then
    if p < 1 then do
      let a ← pyLog (1 + p * K / (1 - p))
      let b ← pyLog thetaIn
      pyDiv a (2 * b)
    else .ok omegaMax
  else
    if p < 1 then do
      let a ← pyLog (1 + p * K / (1 - p))
      let b ← pyLog thetaIn
      let c ← pyLog thetaOut
      pyDiv a (2 * (b - c))
    else .ok omegaMax

/-- `omega_function_from_model` (`/repo/utilities/parameter_estimation_utilities.py:261-285`). -/
noncomputable def omegaFunctionFromModel (model : String) (omegaMax : ℝ) (T : Nat) :
    Py (ℝ → ℝ → ℝ → Nat → Py ℝ) :=
  if model = "multiplex" then .ok fun thetaIn thetaOut p K => multiplexOmega thetaIn thetaOut p K T omegaMax
  else if model = "temporal" ∨ model = "multilevel" then
    .ok fun thetaIn thetaOut p K => temporalOmega thetaIn thetaOut p K omegaMax
  else .error (.valueError (msgModel model))

/-- `leiden_part_with_membership(G, membership)` (`/repo/utilities/leiden_utilities.py:60-65`), reduced to the stored
membership.  Simplification: leidenalg's reaction to a membership of the wrong length is an exception. -/
def leidenPartWithMembership {F : Type _} (G : Graph F) (membership : List Nat) : Py (List Nat) :=
  if membership.length = G.vcount then .ok membership
  else .error (.valueError "Membership vector has incorrect size.")

/-- `gamma_estimate` (`/repo/utilities/parameter_estimation_utilities.py:142-163`); also returns the graph, whose weights
may have been set. -/
noncomputable def gammaEstimate (test : Graph ℝ → Bool) (G : Graph ℝ) (membership : List Nat) :
    Py (Option (Fl ℝ) × Graph ℝ) := do
  let G ← ensureWeight test G.vcount G
  let community ← leidenPartWithMembership G membership
  let (omegaIn, omegaOut) ← estimateSinglelayerSBM G community none
  return (gammaFromParameters omegaIn omegaOut, G)

/-- Default of `omega_max` (`/repo/utilities/parameter_estimation_utilities.py:185,216,326`). -/
def defaultOmegaMax : ℝ := 1000

/-- `gamma_omega_estimate` (`/repo/utilities/parameter_estimation_utilities.py:326-366`) with its optional arguments `N`,
`T`, `Nt`, `m_t` (`none` is `None`); also returns the intralayer graph. -/
noncomputable def gammaOmegaEstimateWith (test : Graph ℝ → Bool) (fsolve : (ℝ → ℝ) → ℝ → ℝ) (Gi Gx : Graph ℝ)
    (layerVec membership : List Nat) (omegaMax : ℝ) (model : String) (N? T? : Option Nat) (Nt? : Option (List Nat))
    (mt? : Option (List ℝ)) : Py ((Option (Fl ℝ) × ℝ) × Graph ℝ) := do
  let T ← orCompute T? (countLayers layerVec)
  let community ← leidenPartWithMembership Gi membership
  let Gi ← ensureWeight test Gi.ecount Gi
  let (thetaIn, thetaOut, p, K) ← estimateMultilayerSBM fsolve Gi Gx layerVec community model N? (some T) Nt? mt?
  let updateOmega ← omegaFunctionFromModel model omegaMax T
  let gamma := gammaFromParameters thetaIn thetaOut
  let omega ← updateOmega thetaIn thetaOut p K
  return ((gamma, omega), Gi)

/-- `gamma_omega_estimate` (`/repo/utilities/parameter_estimation_utilities.py:326-366`) with `N`, `T`, `Nt`, `m_t` left
`None` (as the pruning calls it, `:425`). -/
noncomputable def gammaOmegaEstimate (test : Graph ℝ → Bool) (fsolve : (ℝ → ℝ) → ℝ → ℝ) (Gi Gx : Graph ℝ)
    (layerVec membership : List Nat) (omegaMax : ℝ) (model : String) : Py ((Option (Fl ℝ) × ℝ) × Graph ℝ) :=
  gammaOmegaEstimateWith test fsolve Gi Gx layerVec membership omegaMax model none none none none

end Verif
