import Verif.Model.Lazega
import Verif.Model.Plotting
import Verif.Model.Sweeps

/-!
# The figures of domains with estimates

`experiments/pamfil_synthetic_networks/easy_regime_generation.py:134-247` (figures 5.3 to 5.6) and
`experiments/lazega_law_firm/lazega_figures.py:80-242` (figures 5.7 to 5.9).  Titles, labels, colours of markers and the files are not
modelled; pickled data come back unchanged.
-/

namespace Verif

/-- The partitions handed to `CHAMP_3D`: `if restrict_communities:` – neither `None` nor 0 restricts
(`/repo/experiments/pamfil_synthetic_networks/easy_regime_generation.py:211-216`). -/
def easyParts (setOrder : List (List Nat) → List (List Nat)) (restrict : Option Nat) (parts : List (List Nat)) : Py (List (List Nat)) :=
  match restrict with
  | none => .ok (setOrder (setOrder parts))
  | some 0 => .ok (setOrder (setOrder parts))
  | some (K + 1) => restrictParts setOrder (some (K + 1)) (setOrder parts)

/-- `generate_domains_with_estimates` (`/repo/experiments/pamfil_synthetic_networks/easy_regime_generation.py:208-231`, window `:24-27`). -/
noncomputable def easyDomains (env : PruneEnv) (Gi Gx : Graph ℝ) (layers : List Nat) (restrict : Option Nat) (parts : List (List Nat)) :
    Run (List (List (ℝ × ℝ) × List Nat × Option (Fl ℝ) × ℝ)) := do
  let kept ← Run.ofPy (easyParts env.setOrder restrict parts)
  let domains ← champ3D env.toChampEnv Gi Gx layers kept 0 2 0 2
  let ests ← Run.ofPy (domainsToEstimates env.test env.fsolve Gx layers "temporal" Gi domains)
  return ests.1

/-- `run_champ_on_lazega_partitions` and the estimates (`/repo/experiments/lazega_law_firm/lazega_figures.py:80-87,103-106,211-214`). -/
noncomputable def lazegaDomains (env : PruneEnv) (Gi Gx : Graph ℝ) (layers : List Nat) (parts : List (List Nat)) :
    Run (List (List (ℝ × ℝ) × List Nat × Option (Fl ℝ) × ℝ)) := do
  let domains ← champ3D env.toChampEnv Gi Gx layers (env.setOrder parts) 0 2 0 3
  let ests ← Run.ofPy (domainsToEstimates env.test env.fsolve Gx layers "multiplex" Gi domains)
  return ests.1

/-- The tuples as the plotting functions take them (labels as integers). -/
def plotted (ds : List (DomainEstimate Nat)) : List EstimatedDomain := ds.map fun d => (d.1, d.2.1.map Int.ofNat, d.2.2)

/-- The result of the estimation with the (always present) omega estimate as an optional float. -/
def estimated (ds : List (List (ℝ × ℝ) × List Nat × Option (Fl ℝ) × ℝ)) : List (DomainEstimate Nat) :=
  ds.map fun d => (d.1, d.2.1, d.2.2.1, some (.fin d.2.2.2))

section
variable {C : Type} [LinearOrder C] (palette : Nat → Nat → C) (shuffle : List C → List C) (pick : Nat → Nat)

/-- `plot_domains`, `plot_domains_restricted_communities`: figures 5.4 and 5.6
(`/repo/experiments/pamfil_synthetic_networks/easy_regime_generation.py:164-176,234-247`). -/
noncomputable def easyFigure (ds : List (List (ℝ × ℝ) × List Nat × Option (Fl ℝ) × ℝ)) : Py (EstimatePlot C) :=
  plotDomainsWithEstimates palette shuffle pick (4 / 10, 16 / 10) (6 / 10, 145 / 100) true true (plotted (estimated ds))

/-- `plot_domains_with_amis` (`/repo/experiments/pamfil_synthetic_networks/easy_regime_generation.py:179-191`). -/
noncomputable def easyAmi (ami : List Int → List Int → Py ℝ) (truth : List Nat)
    (ds : List (List (ℝ × ℝ) × List Nat × Option (Fl ℝ) × ℝ)) : Py (List (List (ℝ × ℝ)) × List ℝ) :=
  plotAmi ami (truth.map Int.ofNat) (4 / 10, 16 / 10) (6 / 10, 145 / 100) true (plotted (estimated ds))

/-- `plot_domains_with_Ks` (`/repo/experiments/pamfil_synthetic_networks/easy_regime_generation.py:194-205`). -/
noncomputable def easyKs (ds : List (List (ℝ × ℝ) × List Nat × Option (Fl ℝ) × ℝ)) : Py (List (List (ℝ × ℝ)) × List Nat × Nat) :=
  plotNumCommunities (4 / 10, 16 / 10) (6 / 10, 145 / 100) true none (plotted (estimated ds))

/-- The first plot of `plot_figure1`: figure 5.8, left (`/repo/experiments/lazega_law_firm/lazega_figures.py:108-138`). -/
noncomputable def lazegaFigure (ds : List (List (ℝ × ℝ) × List Nat × Option (Fl ℝ) × ℝ)) : Py (EstimatePlot C) :=
  plotDomainsWithEstimates palette shuffle pick (4 / 10, 3) (8 / 10, 1275 / 1000) true true (plotted (lazegaTruncate (1 / 1000) ds))

/-- The second plot of `plot_figure1` without its markers: figure 5.8, right (`/repo/experiments/lazega_law_firm/lazega_figures.py:113,148`). -/
noncomputable def lazegaStableFigure (ds : List (List (ℝ × ℝ) × List Nat × Option (Fl ℝ) × ℝ)) : Py (EstimatePlot C) :=
  plotDomainsWithEstimates palette shuffle pick (4 / 10, 3) (8 / 10, 1275 / 1000) false true
    (plotted (stableDomains (lazegaTruncate (1 / 1000) ds)))

/-- One plot of `plot_figure1_restricted_K`: figure 5.9; `ds` are the domains of the partitions with `K` communities
(`/repo/experiments/lazega_law_firm/lazega_figures.py:176-206`). -/
noncomputable def lazegaRestrictedFigure (ds : List (List (ℝ × ℝ) × List Nat × Option (Fl ℝ) × ℝ)) : Py (EstimatePlot C) :=
  plotDomainsWithEstimates palette shuffle pick (4 / 10, 3) (4 / 10, 14 / 10) true true
    (plotted (stableDomains (lazegaTruncate (1 / 1000) ds)))

/-- The markers for one `K` in figure 5.8, right: points `(omega, gamma)` of the stable partitions
(`/repo/experiments/lazega_law_firm/lazega_figures.py:154-167`); `ds` are the domains of the partitions with `K` communities. -/
noncomputable def lazegaMarkers (ds : List (List (ℝ × ℝ) × List Nat × Option (Fl ℝ) × ℝ)) : List (Option (Fl ℝ) × Option (Fl ℝ)) :=
  (stableDomains (lazegaTruncate (1 / 100) ds)).map fun d => (d.2.2.2, d.2.2.1)

/-- `plot_figure2`: figure 5.7 (`/repo/experiments/lazega_law_firm/lazega_figures.py:209-232`). -/
noncomputable def lazegaKs (ds : List (List (ℝ × ℝ) × List Nat × Option (Fl ℝ) × ℝ)) : Py (List (List (ℝ × ℝ)) × List Nat × Nat) :=
  plotNumCommunities (4 / 10, 3) (8 / 10, 1275 / 1000) true (some 5) (plotted (lazegaTruncate (1 / 1000) ds))

end

/-- The data of figure 5.3: an arrow for every grid point, and the estimate of the planted partition as a point `(omega, gamma)`
(`/repo/experiments/pamfil_synthetic_networks/easy_regime_generation.py:134-155`). -/
noncomputable def easyIterationFigure (test : Graph ℝ → Bool) (fsolve : (ℝ → ℝ) → ℝ → ℝ) (Gi Gx : Graph ℝ) (layers truth : List Nat)
    (values : List GridValue) : Py (List (ℝ × ℝ × Fl ℝ × Fl ℝ) × ℝ × Option (Fl ℝ)) := do
  let est ← gammaOmegaEstimate test fsolve Gi Gx layers truth defaultOmegaMax "temporal"
  return (values.map gridArrow, est.1.2, est.1.1)

end Verif
