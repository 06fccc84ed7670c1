import Verif.Model.DocExample
import Verif.Model.DomainFigures

/-!
# The documented plots of two-dimensional domains

`docs/source/plotting_examples.rst` and `tests/test_documentation_examples.py:166-235`.  Titles, labels, fonts and the layout are not
modelled.
-/

namespace Verif

/-- The domains with estimates of the example (`/repo/tests/test_documentation_examples.py:179-196`): a sweep over the grid, `CHAMP_3D`
over the window, the estimates of the temporal model.  `xs` are the domains `plot_2d_domains` gets, `ds` those with estimates. -/
noncomputable def docDomains (x : Execution) (Gi Gx : Graph ℝ) (layers : List Nat) (gammas : List (Fl ℝ)) (omegas : List ℝ)
    (γ₀ γf ω₀ ωf : ℝ) : Run (List (List (ℝ × ℝ) × List Nat) × List (List (ℝ × ℝ) × List Nat × Option (Fl ℝ) × ℝ)) := do
  let S ← Run.ofPy (repeatedParallelMultilayerLeiden x.leiden x.cpu x.workers x.objs x.order Gi Gx layers gammas omegas)
  let domains ← champ3D x.prune.toChampEnv Gi Gx layers (x.iterate S) γ₀ γf ω₀ ωf
  let ests ← Run.ofPy (domainsToEstimates x.prune.test x.prune.fsolve Gx layers "temporal" Gi domains)
  return (domains, ests.1)

/-- The four plots: with estimates, of the domains alone, coloured by the score against the ground truth, coloured by the number of
communities. -/
structure DocPlots (C : Type) where
  estimates : EstimatePlot C
  domains : DomainPlot ℝ C
  scores : List (List (ℝ × ℝ)) × List ℝ
  communities : List (List (ℝ × ℝ)) × List Nat × Nat

/-- The four calls (`/repo/tests/test_documentation_examples.py:199-234`): `xlim=omega_range`, `ylim=gamma_range`, axes swapped and
estimate points drawn by default, no `K_max`.  `pick₁`, `pick₂` are the random numbers of the first and second plot, `shuffle₁`,
`shuffle₂` its shuffles. -/
noncomputable def docPlots {C : Type} [LinearOrder C] (palette : Nat → Nat → C) (shuffle₁ shuffle₂ : List C → List C)
    (pick₁ pick₂ : Nat → Nat) (ami : List Int → List Int → Py ℝ) (truth : List Nat) (γ₀ γf ω₀ ωf : ℝ)
    (domains : List (List (ℝ × ℝ) × List Nat)) (ds : List (List (ℝ × ℝ) × List Nat × Option (Fl ℝ) × ℝ)) : Py (DocPlots C) := do
  let p1 ← plotDomainsWithEstimates palette shuffle₁ pick₁ (ω₀, ωf) (γ₀, γf) true true (plotted (estimated ds))
  let p2 ← plotDomains palette shuffle₂ pick₂ true domains
  let p3 ← plotAmi ami (truth.map Int.ofNat) (ω₀, ωf) (γ₀, γf) true (plotted (estimated ds))
  let p4 ← plotNumCommunities (ω₀, ωf) (γ₀, γf) true none (plotted (estimated ds))
  return ⟨p1, p2, p3, p4⟩

/-- `ground_truth_partition = ([0] * 10 + [1] * 10 + [2] * 10) * 2 + [0] * 30` with blocks of `b` vertices
(`/repo/tests/test_documentation_examples.py:219`). -/
def docTruth (b : Nat) : List Nat :=
  let first := List.replicate b 0 ++ List.replicate b 1 ++ List.replicate b 2
  first ++ first ++ List.replicate (3 * b) 0

end Verif
