import Mathlib.Analysis.Convex.Extreme
import Mathlib.Topology.MetricSpace.Bounded
import Verif.Model.Champ

/-!
# Contract of `scipy.spatial.HalfspaceIntersection` in exact arithmetic

The vertices are the extreme points of the polyhedron, each reported once; the indices reported with a vertex are the
rows of one irredundant subsystem that are tight there (Qhull reports vertices of the dual hull, so redundant rows and
repeated rows never appear).
-/

namespace Verif.Spec
open Verif
variable {d : Nat}

/-- The set of points satisfying all rows. -/
def poly (hs : List (HS d)) : Set (Fin d → ℝ) := {x | ∀ h ∈ hs, h.eval x ≤ 0}

/-- The rows with index in `J` describe the polyhedron and none of them can be dropped. -/
structure Irredundant (hs : List (HS d)) (J : Finset Nat) : Prop where
  inRange : ∀ i ∈ J, i < hs.length
  describes : ∀ x, (∀ i ∈ J, ∀ h, hs[i]? = some h → h.eval x ≤ 0) → x ∈ poly hs
  minimal : ∀ j ∈ J, ∃ x, (∀ i ∈ J, i ≠ j → ∀ h, hs[i]? = some h → h.eval x ≤ 0) ∧ x ∉ poly hs

/-- What an exact halfspace intersection reports: `V` lists every vertex once with its tight irredundant rows. -/
structure Vertices (hs : List (HS d)) (V : List ((Fin d → ℝ) × List Nat)) (J : Finset Nat) : Prop where
  irredundant : Irredundant hs J
  nodup : (V.map Prod.fst).Nodup
  extreme : ∀ v, v ∈ V.map Prod.fst ↔ v ∈ (poly hs).extremePoints ℝ
  idxNodup : ∀ vi ∈ V, vi.2.Nodup
  tight : ∀ vi ∈ V, ∀ i, i ∈ vi.2 ↔ i ∈ J ∧ ∃ h, hs[i]? = some h ∧ h.eval vi.1 = 0

/-- Exact halfspace intersection: the contract above on every bounded polyhedron with a strictly interior point. -/
def ExactQhull (qhull : (d : Nat) → List (HS d) → (Fin d → ℝ) → List (Option (Fin d → ℝ) × List Nat)) : Prop :=
  ∀ d (hs : List (HS d)) (x : Fin d → ℝ), (∀ h ∈ hs, h.eval x < 0) → Bornology.IsBounded (poly hs) →
    ∃ V J, qhull d hs x = V.map (fun vi => (some vi.1, vi.2)) ∧ Vertices hs V J

end Verif.Spec
