import Verif.Model.Champ
import Verif.Model.Leiden

/-!
# The package's own correctness checks

leidenalg partition objects (`utilities/leiden_utilities.py:51-65,157-178`) and the assertions that the repository's
randomised tests make with them about CHAMP (`tests/test_champ_coefficients_2D.py`, `tests/test_champ_coefficients_3D.py`,
`tests/test_champ_usage_2D.py`, `tests/test_champ_usage_3D.py`).  The random inputs of the tests are arguments here.
-/

namespace Verif

/-! ## Partition objects -/

section
variable {F R : Type}

/-- The graph (with the weights used) of a leidenalg partition. -/
def VertexPartition.graph : VertexPartition F R → Graph F
  | .rb G _ => G
  | .cpm G _ => G

/-- The same partition at another resolution: leidenalg's `quality(resolution_parameter=r)` overrides the resolution the
partition was built with. -/
def VertexPartition.at : VertexPartition F R → R → VertexPartition F R
  | .rb G _, r => .rb G r
  | .cpm G _, r => .cpm G r

/-- A leidenalg partition object with the membership it currently stores. -/
structure PartObj (F R : Type) where
  base : VertexPartition F R
  membership : List Nat

/-- `part.set_membership(membership)` (`/repo/utilities/leiden_utilities.py:64,175-177`).  Simplification: leidenalg's
reaction to a membership of the wrong length is `ValueError`. -/
def VertexPartition.setMembership (p : VertexPartition F R) (membership : List Nat) : Py (PartObj F R) :=
  if membership.length = p.graph.vcount then .ok ⟨p, membership⟩
  else .error (.valueError "Membership vector has incorrect size.")

/-- `leiden_part(G)`: `RBConfigurationVertexPartition(G)` *without* weights, so every edge weighs 1 whatever its `'weight'`
attribute says; leidenalg's default resolution is 1 (`/repo/utilities/leiden_utilities.py:56-57`). -/
def leidenPart [One F] [One R] (G : Graph F) : VertexPartition F R :=
  .rb { G with weight := some (List.replicate G.ecount 1) } 1

/-- `leiden_part_with_membership(G, membership)`, the object itself (`/repo/utilities/leiden_utilities.py:60-65`;
`leidenPartWithMembership` is the same reduced to the membership). -/
def leidenPartObj [One F] [One R] (G : Graph F) (membership : List Nat) : Py (PartObj F R) :=
  (leidenPart G).setMembership membership

end

/-- `multilayer_leiden_part` (`/repo/utilities/leiden_utilities.py:157-168`): unlike `leiden_part` with the weights of the
graphs; also returns the graphs, whose weights may have been set. -/
noncomputable def multilayerLeidenPart (test : Graph ℝ → Bool) (obj : Nat) (Gi Gx : Graph ℝ) (layers : List Nat) :
    Prog ((List (VertexPartition ℝ ℝ) × VertexPartition ℝ ℝ) × Graph ℝ × Graph ℝ) := do
  let Gi ← Prog.lift (ensureWeight test Gi.ecount Gi)
  let Gx ← Prog.lift (ensureWeight test Gx.ecount Gx)
  let split ← Prog.split obj Gi layers
  return ((split.map fun G => .rb G 1, .cpm Gx 0), Gi, Gx)

/-- `multilayer_leiden_part_with_membership` (`/repo/utilities/leiden_utilities.py:171-178`). -/
noncomputable def multilayerLeidenPartObj (test : Graph ℝ → Bool) (obj : Nat) (Gi Gx : Graph ℝ) (layers membership : List Nat) :
    Prog ((List (PartObj ℝ ℝ) × PartObj ℝ ℝ) × Graph ℝ × Graph ℝ) := do
  let r ← multilayerLeidenPart test obj Gi Gx layers
  let intra ← Prog.lift (r.1.1.mapM fun p => p.setMembership membership)
  let inter ← Prog.lift (r.1.2.setMembership membership)
  return ((intra, inter), r.2)

/-- leidenalg's quality functions: the quality of a partition (graph, weights, null model, resolution) with a membership. -/
abbrev QualityFn := VertexPartition ℝ ℝ → List Nat → ℝ

/-- `part.quality(resolution_parameter=r)`. -/
def PartObj.quality (q : QualityFn) (p : PartObj ℝ ℝ) (r : ℝ) : ℝ := q (p.base.at r) p.membership

/-! ## Assertions -/

/-- `self.assertAlmostEqual(a, b, places=10)`: passes if the arguments are equal or `round(abs(a - b), 10) == 0`, that is
(exactly computed) if they differ by at most `0.5e-10`; NaN and a difference of infinity never round to 0
(CPython `unittest`; e.g. `/repo/tests/test_champ_coefficients_2D.py:27-28`). -/
noncomputable def assertAlmostEqual : Fl ℝ → Fl ℝ → Py Unit
  | .fin x, .fin y => if |x - y| ≤ 5 / 10 ^ 11 then .ok () else .error .assertionError
  | .pinf, .pinf => .ok ()
  | .ninf, .ninf => .ok ()
  | _, _ => .error .assertionError

/-- `for x in l: body(x)`. -/
def pyFor {β : Type} (l : List β) (body : β → Py Unit) : Py Unit :=
  match l with
  | [] => .ok ()
  | x :: xs => do
    body x
    pyFor xs body

/-! ## Coefficients -/

/-- `assert_partition_coefficient_correctness` (`/repo/tests/test_champ_coefficients_2D.py:12-28`). -/
noncomputable def checkCoefficients2D (q : QualityFn) (G : Graph ℝ) (parts : List (List Nat))
    (coefficients : List ℝ × List (Fl ℝ)) : Py Unit :=
  pyFor (parts.zip (coefficients.1.zip coefficients.2)) fun x => do
    let part ← leidenPartObj G x.1
    let leidenA := part.quality q 0
    let leidenP := leidenA - part.quality q 1
    assertAlmostEqual (.fin x.2.1) (.fin leidenA)
    assertAlmostEqual x.2.2 (.fin leidenP)

/-- `G.subgraph(vs)` for an increasing list of vertices: the edges inside, renumbered.  Simplification: attributes are
dropped (the code only passes the result to `leiden_part`, which does not use them)
(`/repo/tests/test_champ_coefficients_3D.py:43`). -/
def inducedSubgraph {F : Type} (G : Graph F) (vs : List Nat) : Graph F :=
  ⟨vs.length, G.directed,
    (G.edges.filter fun e => decide (e.1 ∈ vs ∧ e.2 ∈ vs)).map fun e => (vs.idxOf e.1, vs.idxOf e.2), none⟩

/-- `this_layer_indices` (`/repo/tests/test_champ_coefficients_3D.py:42`). -/
def layerIndices (layers : List Nat) (t : Nat) : List Nat :=
  (layers.zipIdx.filter fun li => decide (t = li.1)).map Prod.snd

/-- `layer_community_membership` (`/repo/tests/test_champ_coefficients_3D.py:44-45`). -/
def layerCommunities (layers membership : List Nat) (t : Nat) : Py (List Nat) := do
  let kept ← membership.zipIdx.mapM fun ci => do
    let l ← pyGet layers ci.2
    return if l = t then some ci.1 else none
  return kept.filterMap id

/-- `alternate_P_hat` (`/repo/tests/test_champ_coefficients_3D.py:39-48`); `order` is the order in which the set of layers is
iterated over. -/
noncomputable def alternatePHat (q : QualityFn) (order : List Nat) (Gi : Graph ℝ) (layers membership : List Nat) : Py ℝ :=
  order.foldlM (fun acc t => do
    let sub := inducedSubgraph Gi (layerIndices layers t)
    let c ← layerCommunities layers membership t
    let part ← leidenPartObj sub c
    return acc + (part.quality q 0 - part.quality q 1)) 0

/-- The body of the loop of `assert_partition_coefficient_correctness`
(`/repo/tests/test_champ_coefficients_3D.py:16-49`), on the graphs as the previous iterations left them. -/
noncomputable def checkCoefficient3D (q : QualityFn) (test : Graph ℝ → Bool) (order : List Nat) (obj : Nat) (layers : List Nat)
    (graphs : Graph ℝ × Graph ℝ) (x : List Nat × ℝ × Fl ℝ × ℝ) : Prog (Graph ℝ × Graph ℝ) := do
  let r ← multilayerLeidenPartObj test obj graphs.1 graphs.2 layers x.1
  let leidenA := (r.1.1.map fun p => p.quality q 0).sum
  let leidenP := leidenA - (r.1.1.map fun p => p.quality q 1).sum
  let leidenC := r.1.2.quality q 0
  Prog.lift (assertAlmostEqual (.fin x.2.1) (.fin leidenA))
  Prog.lift (assertAlmostEqual x.2.2.1 (.fin leidenP))
  Prog.lift (assertAlmostEqual (.fin x.2.2.2) (.fin leidenC))
  let alternate ← Prog.lift (alternatePHat q order r.2.1 layers x.1)
  Prog.lift (assertAlmostEqual (.fin alternate) x.2.2.1)
  return r.2

/-- `for x in l: s = body(s, x)` in a computation that changes the world. -/
def progFold {σ β : Type} (body : σ → β → Prog σ) : List β → σ → Prog σ
  | [], s => pure s
  | x :: xs, s => do
    let s' ← body s x
    progFold body xs s'

/-- `assert_partition_coefficient_correctness` (`/repo/tests/test_champ_coefficients_3D.py:12-49`). -/
noncomputable def checkCoefficients3D (q : QualityFn) (test : Graph ℝ → Bool) (order : List Nat) (obj : Nat) (Gi Gx : Graph ℝ)
    (layers : List Nat) (parts : List (List Nat)) (coefficients : List ℝ × List (Fl ℝ) × List ℝ) :
    Prog (Graph ℝ × Graph ℝ) :=
  progFold (checkCoefficient3D q test order obj layers)
    (parts.zip (coefficients.1.zip (coefficients.2.1.zip coefficients.2.2))) (Gi, Gx)

/-! ## Domains of optimality -/

open Classical in
/-- `assert_best_partitions_match_champ_set` (`/repo/tests/test_champ_usage_2D.py:12-29`).  The dictionary is the list of its
values, looked up by membership. -/
noncomputable def checkRanges2D (q : QualityFn) (G : Graph ℝ) (parts : List (List Nat)) (ranges : List (ℝ × ℝ × List Nat))
    (gammas : List ℝ) : Py Unit := do
  let objs ← parts.mapM fun p => leidenPartObj G p
  pyFor gammas fun γ => do
    let best ← pyMax (objs.map fun p => p.quality q γ)
    match ranges.find? fun r => decide (r.1 ≤ γ ∧ γ ≤ r.2.1) with
    | none => .error .assertionError
    | some r =>
      match objs.find? fun p => decide (p.membership = r.2.2) with
      | none => .error .keyError
      | some p => assertAlmostEqual (.fin best) (.fin (p.quality q γ))

open Classical in
/-- `left_or_right` with its `>= 0` (`/repo/tests/test_champ_usage_3D.py:13-15`; the pruning has `> 0`). -/
noncomputable def leftOrOn (p₁ p₂ p : ℝ × ℝ) : Bool :=
  decide (0 ≤ (p.1 - p₁.1) * (p₂.2 - p₁.2) - (p.2 - p₁.2) * (p₂.1 - p₁.1))

/-- `point_is_inside_champ_domain` (`/repo/tests/test_champ_usage_3D.py:12-29`).  Simplification: the polygon is not empty
(numpy's mean would be NaN, but without edges nothing is compared). -/
noncomputable def insideChampDomain (poly : List (ℝ × ℝ)) (p : ℝ × ℝ) : Bool :=
  let c := centroid poly
  (List.range poly.length).all fun i =>
    match poly[i]?, poly[(i + 1) % poly.length]? with
    | some a, some b => leftOrOn a b c == leftOrOn a b p
    | _, _ => true

/-- The quality of a multilayer partition at `(γ, ω)` (`/repo/tests/test_champ_usage_3D.py:46-49,55-60`). -/
noncomputable def multilayerQuality (q : QualityFn) (γ ω : ℝ) (p : List (PartObj ℝ ℝ) × PartObj ℝ ℝ) : ℝ :=
  (p.1.map fun x => x.quality q γ).sum + ω * p.2.quality q 0

/-- `assert_best_partitions_match_champ_set` (`/repo/tests/test_champ_usage_3D.py:33-71`); `points` is
`zip(gammas, omegas)`.  The two dictionaries are one list with the memberships as keys. -/
noncomputable def checkDomains3D (q : QualityFn) (test : Graph ℝ → Bool) (obj : Nat) (Gi Gx : Graph ℝ) (layers : List Nat)
    (parts : List (List Nat)) (domains : List (List (ℝ × ℝ) × List Nat)) (points : List (ℝ × ℝ)) : Prog Unit := do
  let built ← progFold (fun (s : (Graph ℝ × Graph ℝ) × List (List Nat × List (PartObj ℝ ℝ) × PartObj ℝ ℝ)) p => do
    let r ← multilayerLeidenPartObj test obj s.1.1 s.1.2 layers p
    return (r.2, s.2 ++ [(p, r.1)])) parts ((Gi, Gx), [])
  let objs := built.2
  Prog.lift (pyFor points fun x => do
    let best ← pyMax (objs.map fun p => multilayerQuality q x.1 x.2 p.2)
    match domains.find? fun d => insideChampDomain d.1 x with
    | none => .error .assertionError
    | some d =>
      match objs.lookup d.2 with
      | none => .error .keyError
      | some p => assertAlmostEqual (.fin best) (.fin (multilayerQuality q x.1 x.2 p)))

end Verif
