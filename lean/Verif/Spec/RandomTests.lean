import Verif.Model.RandomTests

/-!
# What the random generators of the tests promise
-/

namespace Verif.Spec
open Verif

/-- `ig.Graph.Erdos_Renyi(n=n, m=m, directed=directed)`: `n` vertices, `m` edges, no weights. -/
structure ErdosRenyi (n m : Nat) (directed : Bool) (G : Graph ℝ) : Prop where
  wf : G.WF
  vertices : G.vcount = n
  edges : G.ecount = m
  direction : G.directed = directed
  unweighted : G.weight = none

/-- What `randint`, `random` and `Erdos_Renyi` promise about the random choices of a test on graphs with `n` vertices and `m` edges
and partitions into at most `Kmax` communities. -/
structure ValidDraws (d : TestDraws) (n m Kmax : Nat) (directed : Bool) : Prop where
  graphs : ∀ k, ErdosRenyi n m directed (d.graphs k)
  Ks : ∀ i, 1 ≤ d.Ks i ∧ d.Ks i ≤ Kmax
  labels : ∀ i k, (d.labels i k).length = n ∧ ∀ x ∈ d.labels i k, x < d.Ks i
  gammas : ∀ i, 0 ≤ d.gammas i ∧ d.gammas i ≤ 1
  omegas : ∀ i, 0 ≤ d.omegas i ∧ d.omegas i ≤ 1

end Verif.Spec
