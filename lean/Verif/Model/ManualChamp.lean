import Verif.Model.Champ

/-!
# The consistency check of CHAMP (`experiments/manual_CHAMP_test/manual_CHAMP.py`)

Plotting, timing and the network file are not modelled.
-/

namespace Verif

/-- The quality functions of the two louvain partition objects, as functions of the membership
(`/repo/experiments/manual_CHAMP_test/manual_CHAMP.py:42-45`). -/
structure LouvainQualities (α : Type) where
  /-- `intralayer_part.quality(resolution_parameter=gamma)` after `set_membership(p)` -/
  intra : List α → ℝ → ℝ
  /-- `interlayer_part.quality()` after `set_membership(p)` -/
  inter : List α → ℝ

/-- A cell of `best_partitions`: `none` for the initial `(-inf, -inf, -inf, -inf)`
(`/repo/experiments/manual_CHAMP_test/manual_CHAMP.py:48`). -/
abbrev GridCell (α : Type) := Option (ℝ × List α × ℝ × ℝ)

/-- `if Q > best_partitions[g_index][o_index][0]: best_partitions[g_index][o_index] = (Q, p, gamma, omega)`
(`/repo/experiments/manual_CHAMP_test/manual_CHAMP.py:58-60`). -/
noncomputable def updateCell {α : Type} (qu : LouvainQualities α) (p : List α) (gamma omega : ℝ) (cell : GridCell α) :
    GridCell α :=
  let Q := qu.intra p gamma + omega * qu.inter p
  match cell with
  | none => some (Q, p, gamma, omega)
  | some best => if best.1 < Q then some (Q, p, gamma, omega) else some best

/-- The nested loops of `plot_manual_CHAMP` (`/repo/experiments/manual_CHAMP_test/manual_CHAMP.py:48-60`): the cells, row by
row. -/
noncomputable def manualGrid {α : Type} (qu : LouvainQualities α) (partitions : List (List α)) (gammas omegas : List ℝ) :
    List (List (GridCell α)) :=
  partitions.foldl (fun grid p =>
    (gammas.zip grid).map fun gr => (omegas.zip gr.2).map fun oc => updateCell qu p gr.1 oc.1 oc.2)
    (gammas.map fun _ => omegas.map fun _ => none)

/-- The null model matrix passed to the `champ` package (`/repo/experiments/manual_CHAMP_test/manual_CHAMP.py:74-78`).
Simplification: the entries of a layer without edges, NaN in the code, are 0. -/
noncomputable def champNullMatrix (G : Graph ℝ) (layerVec : List Nat) (nlayers : Nat) : Nat → Nat → ℝ :=
  (List.range nlayers).foldl (fun P i =>
    let inds := (List.range layerVec.length).filter fun v => layerVec[v]? = some i
    let deg := fun v => ((G.allDegrees[v]?.getD 0 : Nat) : ℝ)
    let total := (inds.map deg).sum
    fun u v => if u ∈ inds ∧ v ∈ inds then deg u * deg v / total else P u v) (fun _ _ => 0)

/-- A row of `create_coefarray_from_partitions(partitions, A, P, C)` for the matrix `M`: the entries between vertices of the
same community (`/repo/experiments/manual_CHAMP_test/manual_CHAMP.py:81`; external package `champ`). -/
noncomputable def champCoefficient {α : Type} [DecidableEq α] (n : Nat) (M : Nat → Nat → ℝ) (c : List α) : ℝ :=
  ((List.range n).map fun i => ((List.range n).map fun j => if c[i]? = c[j]? then M i j else 0).sum).sum

end Verif
