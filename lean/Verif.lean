import Verif.Props.Partitions
import Verif.Props.Coefficients
import Verif.Props.Interior
import Verif.Props.Champ2D
import Verif.Props.Champ3D
import Verif.Props.Estimation
import Verif.Props.Consistency
import Verif.Props.Stability
import Verif.Props.Prune
import Verif.Props.Prune3D
import Verif.Props.IterateMono
import Verif.Props.IterateMulti
import Verif.Props.History
import Verif.Props.Objective
import Verif.Props.Drivers
import Verif.Props.Louvain
import Verif.Props.Weights
import Verif.Props.Plotting
import Verif.Props.Warnings
import Verif.Props.Returns3D
import Verif.Props.Explicit3D
import Verif.Props.Truncation
import Verif.Props.Duality
import Verif.Props.MaxGamma
import Verif.Props.Invariance
import Verif.Props.Window
import Verif.Props.Scores
import Verif.Props.Precomputed
import Verif.Props.FixedPoint
import Verif.Props.Renumber
import Verif.Props.LoopTest
import Verif.Props.OneLayer
import Verif.Props.ManualChamp
import Verif.Spec.Likelihood
import Verif.Proofs.Likelihood
import Verif.Proofs.Posterior
import Verif.Props.Likelihood
import Verif.Props.Posterior
import Verif.Model.Bistable
import Verif.Spec.Bistable
import Verif.Proofs.Bistable
import Verif.Props.Bistable
import Verif.Model.NonMonotone
import Verif.Spec.Nested
import Verif.Proofs.NonMonotone
import Verif.Props.NonMonotone
import Verif.Model.Snap
import Verif.Spec.Snap
import Verif.Proofs.Snap
import Verif.Props.Snap
import Verif.Model.BlockModels
import Verif.Proofs.BlockModels
import Verif.Props.BlockModels
import Verif.Model.Lfr
import Verif.Spec.Lfr
import Verif.Props.Lfr
import Verif.Model.LfrRuns
import Verif.Spec.LfrRuns
import Verif.Proofs.LfrRuns
import Verif.Proofs.LfrRunsInv
import Verif.Proofs.LfrRunsResume
import Verif.Props.LfrRuns
import Verif.Props.LfrScores
import Verif.Model.LfrPlots
import Verif.Spec.LfrPlots
import Verif.Props.LfrPlots
import Verif.Spec.BothWays
import Verif.Props.BothWays
import Verif.Spec.Repeated
import Verif.Props.Repeated
import Verif.Model.Workflow
import Verif.Spec.Workflow
import Verif.Props.Workflow
import Verif.Model.Synthetic
import Verif.Spec.Synthetic
import Verif.Props.Synthetic
import Verif.Model.Lazega
import Verif.Spec.Lazega
import Verif.Props.Lazega
import Verif.Model.Stages
import Verif.Spec.Stages
import Verif.Proofs.Stages
import Verif.Props.Stages
import Verif.Model.GammaMax
import Verif.Spec.GammaMax
import Verif.Proofs.GammaMax
import Verif.Props.GammaMax
import Verif.Model.Studies
import Verif.Spec.Studies
import Verif.Props.Studies
import Verif.Model.Sweeps
import Verif.Spec.Sweeps
import Verif.Props.Sweeps
import Verif.Model.Checks
import Verif.Spec.Checks
import Verif.Proofs.Checks
import Verif.Proofs.CoefficientLabels
import Verif.Props.Checks
import Verif.Model.DirectedChecks
import Verif.Props.DirectedChecks
import Verif.Model.Timeout
import Verif.Spec.Timeout
import Verif.Props.Timeout
import Verif.Model.DataFiles
import Verif.Spec.DataFiles
import Verif.Proofs.DataFiles
import Verif.Props.DataFiles
import Verif.Model.SnapLouvain
import Verif.Props.SnapLouvain
import Verif.Model.Metadata
import Verif.Spec.Metadata
import Verif.Props.Metadata
import Verif.Model.ChampExample
import Verif.Spec.ChampExample
import Verif.Props.ChampExample
import Verif.Props.ReturnsIff
import Verif.Model.RandomTests
import Verif.Spec.RandomTests
import Verif.Props.RandomTests
import Verif.Model.DocExample
import Verif.Spec.DocExample
import Verif.Props.DocExample
import Verif.Model.Convergence
import Verif.Spec.Convergence
import Verif.Props.Convergence
import Verif.Model.Performance
import Verif.Spec.Performance
import Verif.Props.Performance
import Verif.Model.LouvainPart
import Verif.Props.LouvainPart
import Verif.Model.DomainFigures
import Verif.Props.DomainFigures
import Verif.Model.DocPlots
import Verif.Props.DocPlots
import Verif.Model.GammaScan
import Verif.Props.GammaScan
import Verif.Model.DualityFigures
import Verif.Props.DualityFigures
import Verif.Spec.Calls
import Verif.Model.Calls
import Verif.Props.Calls
import Verif.Spec.Tradeoff
import Verif.Props.Tradeoff
import Verif.Spec.Merge
import Verif.Props.Merge
import Verif.Spec.Batches
import Verif.Props.Batches
import Verif.Spec.Isolated
import Verif.Props.Isolated
import Verif.Spec.Representation
import Verif.Props.Representation
import Verif.Model.Rounded
import Verif.Spec.Rounding
import Verif.Proofs.Champ2DFrom
import Verif.Props.Rounding
import Verif.Proofs.Champ3DFrom
import Verif.Props.Rounding3D
import Verif.Props.Coupling
import Verif.Model.RoundedPrune
import Verif.Props.RoundedPrune
import Verif.Model.RoundedPrune3D
import Verif.Props.RoundedPrune3D
import Verif.Spec.Extremes
import Verif.Props.Extremes
