import Mathlib.Data.Real.Basic
import Verif.Spec.Merge

/-! # Resolutions beyond which partitions become trivial -/

namespace Verif.Spec
open Verif

/-- at resolution `Γ`, no two vertices are linked by more edges (in both directions together) than the null model expects -/
def NoPairAbove (G : Graph ℝ) (Γ : ℝ) : Prop :=
  ∀ i j, i < j → j < G.vcount →
    (total G : ℝ) * ((adj G i j : ℝ) + adj G j i) ≤ Γ * ((colSum G i : ℝ) * rowSum G j + (colSum G j : ℝ) * rowSum G i)

/-- the null model expects some edge between any two vertices (in an undirected graph: no vertex has degree 0) -/
def EveryPairExpected (G : Graph ℝ) : Prop :=
  ∀ i j, i < j → j < G.vcount → 0 < colSum G i * rowSum G j + colSum G j * rowSum G i

/-- all edges of a multilayer network, directions ignored -/
def allEdges (Gi Gx : Graph ℝ) : Graph ℝ := ⟨Gi.vcount, false, Gi.edges ++ Gx.edges, none⟩

end Verif.Spec
