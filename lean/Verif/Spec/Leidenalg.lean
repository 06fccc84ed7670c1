import Verif.Model.Leiden
import Verif.Spec.SBM

/-!
# leidenalg's quality functions

As documented by leidenalg (`RBConfigurationVertexPartition`, `CPMVertexPartition`, `optimise_partition_multiplex`), for
arbitrary edge weights.
-/

namespace Verif.Spec
open Verif Finset
variable {F : Type} [Field F]

/-- The weighted edges of a graph. -/
def wEdges (G : Graph F) : List ((Nat × Nat) × F) := G.edges.zip (G.weight.getD [])

/-- Weight of the edges inside community `k`. -/
def commWeight (G : Graph F) (c : List Nat) (k : Nat) : F :=
  ((wEdges G).map fun e => if c[e.1.1]? = some k ∧ c[e.1.2]? = some k then e.2 else 0).sum

/-- Weight from community `k`: outgoing edges; in undirected graphs every end counts. -/
def fromComm (G : Graph F) (c : List Nat) (k : Nat) : F :=
  ((wEdges G).map fun e => (if c[e.1.1]? = some k then e.2 else 0) +
    (if G.directed = false ∧ c[e.1.2]? = some k then e.2 else 0)).sum

/-- Weight to community `k`: incoming edges; in undirected graphs every end counts. -/
def toComm (G : Graph F) (c : List Nat) (k : Nat) : F :=
  ((wEdges G).map fun e => (if c[e.1.2]? = some k then e.2 else 0) +
    (if G.directed = false ∧ c[e.1.1]? = some k then e.2 else 0)).sum

/-- Quality of a partition for `RBConfigurationVertexPartition` (sum over the communities). -/
def rbQuality [DecidableEq F] (G : Graph F) (γ : F) (c : List Nat) : F :=
  if wTotal (wEdges G) = 0 then 0
  else (if G.directed then 1 else 2) * ∑ k ∈ c.toFinset,
    (commWeight G c k - γ * fromComm G c k * toComm G c k / ((if G.directed then 1 else 4) * wTotal (wEdges G)))

/-- Quality for `CPMVertexPartition`; `possible directed n` is the number of possible edges in a community of size `n`. -/
def cpmQuality (possible : Bool → Nat → F) (G : Graph F) (ρ : F) (c : List Nat) : F :=
  (if G.directed then 1 else 2) * ∑ k ∈ c.toFinset, (commWeight G c k - ρ * possible G.directed (c.count k))

/-- Quality of a leidenalg partition object with membership `c`. -/
def quality [DecidableEq F] (possible : Bool → Nat → F) (c : List Nat) : VertexPartition F F → F
  | .rb G γ => rbQuality G γ c
  | .cpm G ρ => cpmQuality possible G ρ c

/-- What `optimise_partition_multiplex` maximises over all memberships: the weighted sum of the qualities. -/
def multiplexObjective [DecidableEq F] (possible : Bool → Nat → F) (problem : List (VertexPartition F F) × List F)
    (c : List Nat) : F :=
  ((problem.1.zip problem.2).map fun pw => pw.2 * quality possible c pw.1).sum

end Verif.Spec
