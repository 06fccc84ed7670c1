# Formal model of ragibson/ModularityPruning in Lean 4 — design

## Layout

* `lean/Verif/Model/*.lean` – the executable/shallow model, one definition per Python function, each with a
  `/repo` citation.
* `lean/Verif/Spec/*.lean` – small specifications, written without reference to the model's helpers.
* `lean/Verif/Proofs/*.lean` – helper lemmas.
* `lean/Verif/Props/*.lean` – the property theorems (named after `properties.jsonl`), with non-vacuity examples.

## Modelling conventions

* Python exceptions are values: `Py α = Except PyErr α`.
* Floats are modelled as exact reals, plus explicit `NaN`/`±inf` values (`Fl`) where the code's control flow depends on
  them. Rounding is not modelled, except that chunk boundaries (C11) are proved for an arbitrary monotone rounding.
* Loops become folds/structural recursion; unbounded `while True` takes fuel and the fuel is proved sufficient.
* External libraries are *parameters* (igraph, leidenalg, scipy linprog, Qhull, fsolve, multiprocessing, set iteration
  order, randomness). Where a property needs them to behave, the needed contract is a named hypothesis.
  Contracts are shown satisfiable.

## Plan per property

| id | modelled | proof |
|----|----------|-------|
| C01,C02 | `np.unique`, sort by first index, relabel | induction over lists / order of first occurrences |
| C03 | `lru_cache` as a bounded recency list, any history | invariant over call sequences |
| C04,C05 | dict of lists as insertion-ordered association list | induction (snoc) |
| C06–C10 | coefficient functions over multigraphs | double counting sums, Cauchy–Schwarz |
| C11 | chunk slicing with rounding function, starmap with completion order | telescoping slices |
| C12 | NaN/inf/IndexError branches | case analysis |
| C13–C15 | loop with fuel, LP and sampler as oracles | loop invariant, measure |
| C16–C20 | CHAMP_2D with Qhull oracle + contract | envelope/convexity argument |
| C21–C23 | CHAMP_3D, arctan2 sort | convex geometry in the plane |
| C24–C34 | estimators over reals, exceptions as values | algebra, Cauchy–Schwarz, log inequalities |
| C35–C37 | stability filters with NaN/None | case analysis, point in polygon |
| C38–C45 | pipelines composed of the above | composition |
| C46–C48 | iteration loops over an arbitrary maximiser stream | induction on iterations |
| C49,C50 | consistency check | case analysis, counting |
| C51–C55 | drivers, splitting, cache | list/finset reasoning; cache state machine |
| C56,C57 | weight attribute handling, both possible answers of `'weight' in G.es` | case analysis |
| C58–C63 | shim, plotting colouring, multiplex plot matrix, arrows, progress, warnings | case analysis/induction |
| C64 | both pipelines' estimate vs. the trivial partitions | inequality between logarithmic mean and bounds |
| C65 | the isinstance branch of both pipelines | case analysis |
| C66,C67 | arrows and coloured domains of the plotting functions | case analysis, list induction |
| C68 | truncation warning, tied to the estimates of the dominant partitions | composition with C21/C22 |
| C69 | `gamma_omega_estimate` on unweighted temporal networks in closed form; when multilayer pruning returns | double counting, case analysis |
| C70 | `parametric_omega` of the duality experiments inverts `gamma_estimate_from_parameters` | strict monotonicity of the logarithmic mean; branches of `w e^w` |
| C71 | possible SBM parameters and the maximum gamma estimate for K communities | Cauchy–Schwarz, monotonicity of the logarithmic mean along the line |
| C72 | estimates are invariant under relabelling the communities | bijection of labels in the sums, exact outcome lemmas of C25/C28 |
| C73 | estimates are invariant under rescaling the weights | homogeneity of the sums |
| C74 | nested parameter windows: ranges and domains are clipped, pruning is monotone | characterisations C17/C21/C39/C44; two affine functions touching at an interior point agree |
| C75 | `nmi`: scikit-learn's formulas transcribed; range [0,1], symmetry, label-independence, 1 iff same partition, 0 iff independent | entropy of labellings of `Fin n`; Gibbs' inequality with equality case |
| C76 | `ami`: adjusted score a parameter with contract `SoundAdjusted`; ≤ 1, 1 iff same partition, symmetric, label-independent, mean 0 under permutation | expected mutual information as an average over `Equiv.Perm`, equality case of E ≤ mean entropy |
| C77 | optional precomputed arguments of the estimators (`estimateSinglelayerSBM`, `estimateMultilayerSBM`, `gammaOmegaEstimateWith`) | each `orCompute` replaced by the value it would compute; wrong `T` shown to raise by length mismatch of the per-layer lists |
| C78 | iteration vs. pruning under an ideal optimiser (`BestAmong`, `ExactLeiden`, `ExactMultiplex`) | last evaluation point of the iteration is within tol of the returned value; modularity is affine with slope between 0 and the total |
| C79 | vertex renumbering and edge reordering (`Spec/Renumber.lean`) across modularity, the estimators, CHAMP and pruning | sums over edges and vertices re-indexed; CHAMP via the "strictly best" characterisations C17–C22; pruning via C39/C44 and C72 |
| C80 | the two scripts of `experiments/estimation_loop_test` (`Model/LoopTest.lean`); leidenalg's `quality` a parameter with contract `LeidenQuality` | walks on the list of ranges, pigeonhole for fewer than 1000 ranges, explicit chain of 1001; two partitions: C17, C38, C46 and the explicit estimates of a triangle with a tail |
| C81 | CHAMP_2D and CHAMP_3D on one layer without coupling; gamma_omega_estimate and multilayer pruning on one layer | multilayer modularity = modularity; C17/C20 against C21–C23, extreme points of a rectangle; every persistence divides by T − 1 = 0 |
| C82 | `experiments/manual_CHAMP_test` (`Model/ManualChamp.lean`): the grid search, the null-model matrix; louvain's quality functions a parameter with contract `MultilayerQualities` | fold invariant (first maximum); C21 and the interior of domains; degree sums |
| C83 | the single-layer estimates and pruning against the log-likelihood of the degree-corrected planted-partition model (`Spec/Likelihood.lean`, sums over all pairs of vertices) | double sums to edge sums; log x ≤ x − 1 with equality case; affine relation to modularity; C38, C64 |
| C84 | the temporal estimates against the posterior of the temporal model (layers with shared parameters, labels copied along coupling edges) | as C83 per layer; Bernoulli likelihood on [1/K, 1); affine relation to multilayer modularity at 4ω; concrete network where ω itself reverses the order |
| C85 | `experiments/bistable_SBM/plot_bistable_SBM_analytic.py` against `gamma_estimate` and modularity of the expected network (complete weighted graph, `Spec/Bistable.lean`) | sums over pairs to block sums; closed forms; monotone curves and rational powers of e for the intervals; limit by continuity |
| C86 | `experiments/modularity_nonmonotonic_K` after the optimiser (`Model/NonMonotone.lean`) on `CHAMP_2D`'s ranges | exhaustive search over all labellings in order of first appearance, evaluated by the kernel, with a proof that it is complete; C17–C19; slopes for nested candidates |
| C87 | `experiments/social_networks` figure (`Model/Snap.lean`): `linspace` (exact), the grid statistics, the results per graph, the assertions | size of a cut against the strengths (θ_out ≤ 2), log mean below arithmetic mean; invariants of the grid loop with its early break; induction over graphs and partitions |
| C88 | parameters and ground truths of `experiments/hierarchical_SBM_test` and `experiments/miscellaneous_tests/gamma_estimation_test` (`Model/BlockModels.lean`); the random graph replaced by its expected network (complete weighted graph, `Spec/Bistable.lean`) | regular expected degrees; modularity pair by pair; block sums for the estimates; rational bounds on logarithmic means |
| C89 | `LFR_benchmark_igraph` from the generated networkx graph on and `run_method` of `experiments/lfr_benchmark_test` (`Model/Lfr.lean`); networkx's generator and the timeout are not modelled | invariant of the two loops over the communities; composition of C51 (the runs), C38/C39/C42 (pruning) and C75 (scores) |
| C90 | `generate_LFR_graphs`, `run_experiment` and the script of `experiments/lfr_benchmark_test` on a directory of files (`Model/LfrRuns.lean`): writing a file makes it incomplete, then complete, and a script may stop after any change; the workers are arbitrary | an invariant of the files kept by every step of every command (induction over the mixing parameters and over the history of commands); for resuming, induction over the mixing parameters with the resumed run skipping what is stored |
| C91 | the numbers the LFR script hands to matplotlib (`Model/LfrPlots.lean`): `np.median` and `np.percentile` (linear interpolation of the sorted data) in exact arithmetic | closed form of the loop; linear interpolation of a monotone sequence is monotone; counting in the sorted list; composition with C90 |
| C92 | igraph's `to_directed` (`Spec/BothWays.lean`) applied to the inputs of the existing model | every sum over the edge list splits into two equal halves; the directed conventions divide by `m` where the undirected ones use `2m`; composition through CHAMP, the estimates, pruning and the warnings |
| C93 | weighted modularity by its matrix definition and the graph with repeated edges (`Spec/Repeated.lean`); no new code | counting repeated edges = adding weights; sums linear in the weight; composition with C38, C39, C43, C73 |
| C94 | the two documented call sequences (`Model/Workflow.lean`), every execution parameter explicit; ideal optimiser, covering grids (`Spec/Workflow.lean`) | composition of C51 with C38–C40, C43; chord bound for lines (bilinear for the plane) for the gap; exact leidenalg is ideal by C78 |
| C95 | the random network generators (`Model/Synthetic.lean`) for arbitrary results of the random numbers; sizes symbolic | entries of concatenations of equal lists; membership characterisations of the edge lists; estimates by C69; acceptance loop by induction on its rounds |
| C96 | the Lazega network, its stable partitions and the data of figure 5.10 (`Model/Lazega.lean`); `N` and the matrices symbolic | membership and counting of the edge lists; persistence by counting agreements between layers; the pipeline unfolds to the library's pruning |
| C97 | the checks, reads and writes of the cache files of seven scripts (`Model/Stages.lean`), results arbitrary, kill at any change | invariants over the trace of file states, then over `ReflTransGen` of runs; the scripts' plans checked to be proper and compatible |
| C98 | the curve, its finite differences and tangents (`Model/GammaMax.lean`); `minimize_scalar` is a parameter with the contract `ExactMinimizer` | calculus on the expected estimate (supremum attained on a compact interval for K ≥ 3), then C71 for the bound on all graphs |
| C99 | the trial, counting and search loops of the bistable and hierarchical studies and the karate club pictures (`Model/Studies.lean`); random graphs and Louvain results arbitrary | induction over the loops with fuel; the pipelines shown equal to `prune_to_stable_partitions`; counting identities |
| C100 | the sweeps over starting values (`Model/Sweeps.lean`) on top of the model of the iterative algorithms | a generic lemma turns the loops into the list of results of consecutive calls (`Spec/Sweeps.lean`); C46, C47, C54 describe each call; counting in bins |
| C101 | the leidenalg partition objects and the assertions of the CHAMP tests (`Model/Checks.lean`) | the qualities of the partition objects are the modularity sums of the specification (C55); the checks are folds whose outcome is characterised for arbitrary candidate results; acceptance then follows from C08, C11, C17, C18, C21–C23; the point test from the geometry of strictly convex polygons |
| C102 | the directed-consistency tests (`Model/DirectedChecks.lean`) with the estimator as an argument | acceptance from C92; the limits by showing that a comparison on a directed graph is reflexive for every settled estimator, and induction over the partitions |
| C103 | the `timeout` decorator and the rounds of generation (`Model/Timeout.lean`): programs that compute, hang, catch and call decorated functions, executed with the process's one alarm clock | induction over straight-line code, then over the tasks of a worker and the rounds; the limits by explicit programs for all parameters |
| C104 | `read_file`, `read_graphs`, `adjacency_from_dat` and the files of `generate_lazega_igraph` (`Model/DataFiles.lean`): texts are lists of characters, a directory is a list of files in the order of its listing | grammars of the files in `Spec/DataFiles.lean`, induction over them; components by reachability; stability of the sort |
| C105 | `run_louvain`, `run_louvain_if_necessary` (`Model/SnapLouvain.lean`) with arbitrary results of the optimiser | induction over the sweep |
| C106 | `print_metadata_nmis` (`Model/Metadata.lean`) on the text of `ELattr.dat` | parsing as in C104, scores by C75 |
| C107 | `plot_champ_example.py` (`Model/ChampExample.lean`): the sampled partitions and the data of the three panels | C17–C20: in increasing resolutions the strictly best partitions own the ranges; affine segments |
| C108 | the randomised CHAMP tests as programs (`Model/RandomTests.lean`), random numbers as arguments | generators by induction on the attempts; C17/C21 `_returns_iff`, C12, C101; a connected graph has n − 1 edges |
| C109 | the documented multilayer example, its test and the plotting example as programs (`Model/DocExample.lean`) | counting lemmas for the verdict; C95 for the network; C51, C94, C69 for the run; C17, C18, C61 for the plot |
| C110 | the convergence tests as programs in a process (`Model/Convergence.lean`), small specification of the planted values | C95 for the networks, C49 for acceptance, C47 and C48 for the runs, algebra of logarithms for the true values |
| C111 | the performance tests with arbitrary clock readings and the state of the test module (`Model/Performance.lean`), speed-up per run as specification | induction over the sequence of tests, C51 for the sweeps, algebra |
| C112 | the functions with the caller's graphs as state (`Model/LouvainPart.lean`) | case analysis over the installation, weights as in C52; the names by evaluation of the replacement on the five names, for every module table |
| C113 | the data drawn, from the partitions on (`Model/DomainFigures.lean`) | composition of C21-C23, C36, C59, C66, C67; coordinate swap as a linear map of convex hulls; strict optimality transfers to subsets of competitors |
| C114 | the sequence of calls and the data drawn (`Model/DocPlots.lean`) | composition of C21-C23, C51, C59, C66, C67, C69; all corners lie in CHAMP's window, hence means and clamps are trivial |
| C115 | the sampling loop and the data drawn (`Model/GammaScan.lean`) | location of the maximiser (19/17 <= y <= 2K^2), ratio bound for the sample just below it, induction on the rounds; monotonicity of c log y - 3(y-1)/(y+2) by its derivative for the constant |
| C116 | the data drawn (`Model/DualityFigures.lean`) | from C70: contours are strictly ordered and separate smaller from larger estimates |
| C117 | Python's binding of arguments, the signatures of both modules, the call sites, the loops around them (`Model/Calls.lean`) | characterisation of the binding by induction on the keywords; then the two stale call sites are `TypeError` |
| C118 | the models of C17, C21, C38 and C39 | from the correctness of the ranges and domains: two optimality inequalities at an inner point of each; then counting in `range (m+1)` |
| C119 | the models of C17, C21, C38 and C43 | the change of both sums under a merge by splitting the sums over pairs (counting edges by induction), then the optimality of ranges and domains |
| C120 | the models of C17, C21, C38 and C43 | the two sets of partitions have the same upper envelope over the window; affine functions touching on an interval (neighbourhood) coincide; a five-vertex counterexample for batched pruning |
| C121 | the models of C06, C17, C25 and C38 | adjacency, degrees and null model of isolated vertices are 0; at resolution 0 the returned partition has no edge between communities, hence all edges in one of several communities, where the estimation divides by zero (C25) |
| C122 | the models of C06, C17, C21, C25 and C38 | adjacency, degrees and totals scale by k, so A, P scale by k; the characterisations of the returned ranges, domains and stable partitions (C17, C21, C39) are invariant under scaling |
| C123 | `champ2DFrom`, the part of `CHAMP_2D` after the coefficients, for any coefficients; `champ2DRounded` rounds every coefficient once; `c123_exact` shows that it is `CHAMP_2D` without rounding; likewise `champ3DFrom`, `champ3DRounded`, `c123_exact_3D` | the polygon of the rounded lines is computed exactly (C16, C17), each line is within half the slack of the true one; the geometry itself (normalisation, LP, Qhull) is not rounded |
| C124 | `champ3D`, `pruneToMultilayerStable`; the specification counts edges within communities (`edgesWithin`) and uses the multilayer modularity | optimality of the domains (C21) at two points, added up; the gap of one edge against the bounds of the other sums for saturation |
| C125 | `pruneToStableRounded` (`Model/RoundedPrune.lean`) on top of `champ2DRounded`; `c125_exact` shows that it is `pruneToStable` without rounding | C123 at the rounded estimate, and the modularity changes by at most the total times the change of the resolution; the steps inside an estimate are rounded together |
| C126 | `pruneToMultilayerRounded` (`Model/RoundedPrune3D.lean`) on top of `champ3DRounded`; `c126_exact` shows that it is `pruneToMultilayerStable` without rounding | C123 at the rounded estimates and the change of the modularity between exact and rounded ones; a clear optimum is in the interior of its domain by continuity; the point-in-polygon test is exact (C36) |
| C127 | `champ2D`, `champ3D` and both pruning functions; `NoPairAbove`, `EveryPairExpected` (`Spec/Extremes.lean`) | the difference to the partition into single vertices is a sum over pairs; joining two linked communities at a time, with C119, gives the cut edges, and the lower bound of the null model sum (C10) the resolution |

C33, C37, C54, C57, C58, C60, C67 are false of the code for some inputs; for those the negation is proved with a concrete
witness and the true part is kept as a `_partial` theorem or as unsuffixed theorems about the true clauses (see the notes in
`MANIFEST.json`).

No property of the list was dropped as inexpressible.  What could not be expressed at all, and is therefore not in the list:
wall-clock time and memory, what matplotlib draws from the data it is given, the quality of the partitions Leiden finds, and
the floating-point error of numpy/scipy (except for the coefficients of `CHAMP_2D` and `CHAMP_3D`: C123).

## Trusted base

1. **Lean 4.33.0's kernel**, and Mathlib's definitions of `Real`, `log`, `convexHull`, `interior`, `Finset.sum`, … as used in
   the statements.
2. **Axioms**: every theorem depends on a subset of `propext`, `Classical.choice`, `Quot.sound`; `AXIOMS.txt` lists them per
   theorem (regenerate with `tools/axioms.sh`).  No axiom is declared, no `native_decide`, no `bv_decide`.
3. **The transcription** of `/repo/utilities/*.py` into `lean/Verif/Model/*.lean`.  Each definition cites its lines.
4. **The specifications** in `lean/Verif/Spec/*.lean` and the few definitions marked "(specification)" in `Props`.
5. **The contracts of external code**, which appear as hypotheses, never as axioms:

| contract | about | used in | shown satisfiable by |
|---|---|---|---|
| `ExactQhull` (in `SoundEnv`) | `scipy.spatial.HalfspaceIntersection` reports the vertices of a bounded polyhedron with interior, and at each the tight rows of one irredundant subsystem | C17–C23, C38–C44, C64, C68, C69 | `exactEnv_exact` (Props/Champ2D), via Fourier–Motzkin and existence of irredundant subsystems |
| `ExactLP` (in `ExactEnv`) | `scipy.optimize.linprog` is exact; only for the theorems saying that something *returns* | C13–C15, C17/C21 `_returns`, C39/C43 `_returns`, C69 | `exactEnv_exact` |
| `SamplesWithoutReplacement` | `random.sample` | the same | `exactEnv_exact` |
| `GoodRounding` | the rounding of `i * n / cpu` is monotone and exact at the ends | C11, C16–C23, C62 | floor division, in Props/Coefficients |
| `sched` contains all chunks | the process pool finishes its tasks, in any order | the same | `exactEnv` |
| `SoundLambertW` | `scipy.special.lambertw` on `[-1/e, 0)`: branches 0 and −1 solve `w e^w = z`, above resp. below −1 | C70 | `exists_lambertW` (Props/Duality) |
| `SoundAdjusted` | scikit-learn's `adjusted_mutual_info_score` returns `(MI − E)/(mean H − E)` (1 for two trivial labellings) with `E` the permutation expectation | C76 | `exists_soundAdjusted` (Props/Scores) |
| `LeidenQuality` | leidenalg's `quality` of a partition object built without weights is the RB quality with unit weights | C80 | `LeidenQuality` is a definition of one function; satisfied by that function |
| `MultilayerQualities` | the two louvain partition objects compute the intralayer and interlayer parts of multilayer modularity | C82 | `quR_ok` (Props/ManualChamp) |
| `SoundPruneEnv.setNodup/setMem` | a Python set iterates over its elements once, in any order | C38–C44, C65, C68, C69 | `pruneEnv_sound` |
| `ProducesPartitions` | leidenalg returns one community per vertex | C46–C48, C51, C52, C56 | environments in the Props files |
| leidenalg's documented quality functions (Spec/Leidenalg) | only as the right-hand side of C55 | C55 | definitions, no hypothesis |
| hypotheses on `fsolve` | C30 only: *if* it returns a root | C30 | example beside the theorem |

   Theorems stated for `SoundPruneEnv`/`SoundEnv` alone hold for **every** LP solver, sampler, scheduler, root finder and set
   order.

## What is modelled

Every function of `utilities/`:

* `partition_utilities.py` – all functions (`Model/Partition.lean`; `ami`, `nmi` in `Model/Scores.lean`), including `lru_cache` of `sorted_tuple` (C03).
* `champ_utilities.py` – `get_interior_point`, `CHAMP_2D`, `CHAMP_3D`, all coefficient functions with their chunking and
  process pools (`Model/Champ.lean`, `Model/Coefficients.lean`).
* `leiden_utilities.py` – all functions; the `lru_cache(maxsize=1)` of the layer splitter is keyed on edge objects (graph
  object identity and edge index), the drivers are modelled with arbitrary worker processes, batch sizes as in
  `multiprocessing` and arbitrary arrival order (`Model/Leiden.lean`, `Model/Drivers.lean`).
* `louvain_utilities.py` – `__getattr__` forwarding, capability check, the deprecated drivers with progress bar and memory
  limit (`Model/Louvain.lean`).
* `progress.py` (`Model/Progress.lean`), `parameter_estimation.py` (`Model/Consistency.lean`, `Model/Iterate.lean`),
  `parameter_estimation_utilities.py` (`Model/Estimation.lean`, `Model/Stability.lean`, `Model/Weights.lean`,
  `Model/Prune.lean`, `Model/Warnings.lean`), `plotting.py` (`Model/Plotting.lean`).

## What is simplified or not modelled

* **Floating point.** Numbers are exact reals; NaN, infinities, numpy's and Python's different behaviour on division by zero
  and `math.log`'s domain error are modelled where they matter.  `decimal`/overflow/underflow and rounding are not.
* **igraph/leidenalg objects** are values: vertex count, direction, edge list, optional weight list.  Identity is modelled
  only where the code depends on it (the edge-object cache).  `'weight' in G.es` is a parameter, because igraph's answer
  (attribute name or edge?) decides the behaviour and could not be tested here; results hold for every answer.
* **Attributes**: `G.es['weight'] = [1.0] * n` recycles the list cyclically as igraph does.
* **Processes**: a worker is a function of an arbitrary `World` (its own caches and counters); killing a worker or running out
  of memory is not modelled.
* **Warnings and printing** are modelled as the list of warnings emitted and the strings shown by the progress bar; filters that
  turn warnings into exceptions are not.  Verbose output is modelled only as far as it can raise.
* **Plotting**: the data passed to matplotlib (polygons, colours, arrows, matrices), not the drawing; numpy's array semantics
  for the two sequence kinds the functions accept.
* Negative Python indices are modelled where labels can be negative (`num_communities`); membership vectors fed to the
  estimators are natural numbers, as leidenalg and igraph produce them.
* `experiments/`: only the analytic curves of `experiments/plot_duality_details` (`Model/Experiments.lean`, C70, C71), `experiments/estimation_loop_test` (`Model/LoopTest.lean`, C80) and `experiments/manual_CHAMP_test` (`Model/ManualChamp.lean`, C82) and `experiments/bistable_SBM/plot_bistable_SBM_analytic` (`Model/Bistable.lean`, C85) and the detection loop of `experiments/modularity_nonmonotonic_K` (`Model/NonMonotone.lean`, C86) and the boxplot of `experiments/social_networks` (`Model/Snap.lean`, C87) and the block models of `experiments/hierarchical_SBM_test` and `experiments/miscellaneous_tests/gamma_estimation_test` (`Model/BlockModels.lean`, C88) and `LFR_benchmark_igraph` and `run_method` of `experiments/lfr_benchmark_test` (`Model/Lfr.lean`, C89) and `generate_LFR_graphs`, `run_experiment` and the script there (`Model/LfrRuns.lean`, `Model/LfrPlots.lean`, C90, C91) are modelled. Of `docs/` and `tests/`, the two documented call sequences (`Model/Workflow.lean`, C94) and the network generators (also that of `experiments/pamfil_synthetic_networks`; `Model/Synthetic.lean`, C95) the Lazega script (network, pipeline, figure data; `Model/Lazega.lean`, C96) the caching of intermediate results by seven scripts (`Model/Stages.lean`, C97) the gamma_max curve with its finite differences (`Model/GammaMax.lean`, C98) the simulation studies (`Model/Studies.lean`, C99), the sweeps over starting values (`Model/Sweeps.lean`, C100), the
assertions of the CHAMP tests (`Model/Checks.lean`, C101), the directed-consistency tests (`Model/DirectedChecks.lean`, C102),
the timeout of the LFR generation (`Model/Timeout.lean`, C103), the reading of the data files (`Model/DataFiles.lean`, C104; ASCII only,
no underscores in numbers), the Louvain sweep over the SNAP networks (`Model/SnapLouvain.lean`, C105), the table of attribute
scores (`Model/Metadata.lean`, C106), the worked example of CHAMP (`Model/ChampExample.lean`, C107) the randomised CHAMP tests
(`Model/RandomTests.lean`, C108), the documentation examples (`Model/DocExample.lean`, C109),
the convergence tests (`Model/Convergence.lean`, C110), the performance tests (`Model/Performance.lean`, C111),
the legacy partition objects (`Model/LouvainPart.lean`, C112),
the data of the figures of domains with estimates (`Model/DomainFigures.lean`, C113),
the documented plots of domains (`Model/DocPlots.lean`, C114),
sampling of the largest expected estimates and figures 6.1-6.3 (`Model/GammaScan.lean`, C115),
figures A.1 and A.2 (`Model/DualityFigures.lean`, C116)
and calls through the deprecated module, the runtime comparison and the simple benchmark (`Model/Calls.lean`, C117) are modelled. `CHAMP_2D` and `CHAMP_3D` are also modelled with rounded coefficients (`Model/Rounded.lean`, C123), `prune_to_stable_partitions` and `prune_to_multilayer_stable_partitions` with rounded coefficients and estimates (`Model/RoundedPrune.lean`, C125, and `Model/RoundedPrune3D.lean`, C126). The rest of `experiments/`, `tests/` and `docs/` is not modelled.

## Findings (all proved)

* `omega_max` is not an upper bound for omega estimates (C33).
* NaN gamma estimates count as stable in the multilayer filter, also in the whole pipeline (C37, `c37_pipeline_returns_nan`);
  so do degenerate polygons.  In 2D the boundary is included, in 3D excluded.
* One dominant partition with copying probability strictly between 0 and 1 and no inner edge, or exactly the expected number,
  makes multilayer pruning raise (C69).
* Omega estimates in the last thousandth below `omega_end` are truncated without the documented warning
  (`c68_silent_truncation`).
* `get_interior_point` with `initial_num_sampled=0` never returns (C14); an unbounded LP is reported as "impossible".
* The single-layer estimator raises `ZeroDivisionError` for an isolated one-vertex community structure (C25); an empty layer
  gives NaN or `ZeroDivisionError` (C28).
* Singleton partitions of directed graphs make `CHAMP_2D` raise; the directed gamma estimate uses the undirected formula.
* The layer-splitting cache returns stale layers after in-place changes (C54).
* Weights: pruning either uses or overwrites existing weights although it announces to ignore them (C57); CHAMP ignores weights
  while Leiden optimises the weighted quality (C55); the parallel drivers do not set the caller's weights, the serial ones do.
* `max_iter=0`: `TypeError` with `verbose`, and the multilayer variant returns a stale global or raises `NameError` (C48).
* A leidenalg partition object passed as `parts` raises `AttributeError` (C65).
* Layer vectors that are too short raise `IndexError` instead of the consistency error (C49, C53); unknown models pass the
  consistency check (C47).
* `louvain_utilities`: unknown names are silently `None`, a missing package raises `NameError` even with `fatal=False` (C58);
  empty grids raise `ZeroDivisionError` (C52); the unchunked progress total is wrong (C52).
* A single vertex without edges is reported as disconnected by the multilayer pipeline (C63).
* `plot_multiplex_community` shows vertex 0 everywhere for the documented argument types (C60); domains that cover the plotting
  window are not drawn (C67); more than nine mutually adjacent domains make `plot_2d_domains` raise (C59).
* `num_communities` is wrong for negative labels (C04/C05 notes).
* When no one-community candidate is given, a partition returned by pruning can be strictly less likely, under its own
  estimated parameters, than a discarded one (C83, `c83_less_likely_returned`).
* The temporal posterior is equivalent to multilayer modularity at four times the omega estimate, not at the estimate
  (with the directed coupling edges the package requires; C84, `c84_not_at_estimate`).
* The figure of the bistable block model mixes estimates for blocks of 100 vertices with the switch curve for infinitely large
  blocks; it shows bistability where there is none (C85, `c85_figure`).
* `assert g_est < 15` in the SNAP boxplot fails on NaN estimates (and only on those for fewer than 71 communities; C87).
* `gamma_estimation_test.py` says "~8 out-edges per node to each community"; it is 8 to all other communities together; its
  "true gamma" is slightly above the estimate for the true communities (factor below 250/249; C88).
* `run_method` compares the ground truth's estimate with a number before testing it for `None`: degenerate ground truths raise
  `TypeError` instead of the intended `ValueError` (C89).
* The LFR benchmark's result files are overwritten in place: a crash while `lfr_benchmark_results_partial.p` is written loses all
  rows, and every later run raises until the file is removed by hand; the same for graph files.  Rows stored by a run with other
  numbers of graphs or Louvain runs are reused without a check (C90: `c90_rows_lost`, `c90_torn_forever`, `c90_stale`).
* Coupling given in both directions doubles the ordinal and categorical persistence, so it changes the omega estimates, while CHAMP is
  indifferent to it (`c92_persistence_doubles`, `c92_champ3D`).
* The benchmark generator `generate_synthetic_network` retries when the estimates are off, but not when the last vertex of the random
  graph is isolated (`ValueError`) or a layer is empty (`ZeroDivisionError`); `epsilon = 0` always raises; `eta = 1` loops for ever
  (C95: `c95_aborts`, `c95_empty_layer`, `c95_zero_epsilon`, `c95_full_copying_rejected`).
* The coupling of the Lazega network has self-loops on the first layer and no edges between the other two layers, because its
  comprehension runs over `t` only; since there are exactly three layers the number of edges happens to be right and nothing
  fails, but the measured persistence is at least `1/3` even if no lawyer keeps a community, and the coupling estimate is positive
  for every partition with four or more communities (C96: `c96_coupling`, `c96_persistence`, `c96_spurious_coupling`).
* The markers of figure 5.8 truncate at `2.99`, the figures they are compared with at `2.999` (C96: `c96_markers`).
* The scripts test whether a cache file exists, not whether it is complete: a script killed while writing leaves a truncated
  pickle, and every later run raises until the user deletes it (C97: `c97_torn_forever`). Deleting a source file leaves the files
  derived from the old one in place (C97: `c97_stale`). `SNAP_boxplot.py` keeps the partitions of all graphs in memory until the
  last is computed (C97: `c97_all_or_nothing`). `lazega_CHAMP5.p` to `lazega_CHAMP7.p` are computed but never used (C97:
  `c97_unused`).
* The third panel of `plot_gamma_max_derivatives`, titled as the third derivative, plots the second difference again;
  `fprime3_estimate` is never called (C98: `c98_third_panel`).
* The bars "Probability of finding a stable partition" of the hierarchical study count partitions, not graphs; a bar can exceed 1
  (C99: `c99_at_least_share`, `c99_above_one`). A single stable partition with 20 communities discards the whole study (C99:
  `c99_assertion`). `find_example_with_4_stable_partitions` plots the estimates of a second Louvain run, but draws the stable
  partitions of the first, and pictures with the same number of communities overwrite each other (C99: `c99_pictures`,
  `c99_one_picture`). Four abscissas of the bistable study are simulated and drawn twice (C99: `c99_abscissas`).
* The sweeps treat every `ValueError` as a degenerate partition; a misspelt method gives empty figures instead of an error (C100:
  `c100_unknown_method`). A grid point of `plot_pamfil_iteration` at which all five calls fail is drawn with a NaN arrow (C100:
  `c100_grid_arrow`). The histograms per number of communities leave out runs with one or more than nine communities (C100:
  `c100_per_K`).
* The test suite's checks: `leiden_part` ignores edge weights while `multilayer_leiden_part` uses them, so the multilayer coefficient
  check rejects the (correct, unweighted) coefficients of a weighted network (C101: `c101_weighted_rejected`); neither check can be
  used on an edgeless graph (C101: `c101_edgeless_rejected`). The `>= 0` of the 3D point test includes the boundary of a domain only
  because `CHAMP_3D` returns clockwise polygons; for counterclockwise ones it would test the interior (C101: `c101_point_test`).
* The directed-consistency tests call `to_directed()` on the same graph object in every iteration, so only the first comparison is
  between an undirected and a directed graph; the multilevel model is never tested (C102: `c102_directed_blind`, `c102_first_only`,
  `c102_multilevel_untested`).
* The `timeout` decorator cancels alarms set by others, cannot be nested, and a single timeout discards the graphs all other workers
  generated in that round (C103: `c103_nested`, `c103_swallowed`, `c103_round`, `c103_starves`).
* The SNAP graphs are numbered by their size, and `parts{i}.p` is keyed by that number only: a tie in size or one more file in the
  directory gives cached partitions to the wrong graph (C104: `c104_ties`, `c104_unexpected`).  Links given in both directions, as in
  the directed SNAP networks, become double edges (C104: `c104_tsv`).
* `run_louvain` divides by the number of partitions in a message: `ZeroDivisionError` if the first run has more than 100 communities
  (C105: `c105_zero`).
* Figure 3.1 (`plot_champ_example.py`) assumes that the partition sampled at 1.0 is nowhere optimal; if all four are optimal it draws a
  wrong envelope without complaint (C107: `c107_all_optimal_wrong`).
* The multilayer test generator checks that the whole random graph is connected, not that every layer has an edge; if one has none, both
  multilayer tests fail (C108: `c108_coefficients_3D`, `c108_champ_3D`).
* The documented multilayer network has more than `K` planted communities per layer if `K` does not divide the number of vertices
  (C109: `c109_blocks`), and the test of the example never compares the first and third planted block, nor the blocks of the second
  layer (`c109_third_block_unchecked`).
* The convergence tests stop with `ValueError` if the last drawn vertex is isolated or a layer is empty (C110: `c110_accepted`), with
  `ZeroDivisionError` if the copying probability is 1 or the two probabilities are equal (`c110_truth_errors`); the library's
  multiplex formula returns `omega_max` if `theta_in` is exactly 1, where the test's formula does not (`c110_truth_is_estimate`).
  The second run of the temporal test cannot disagree with the first about any partition (`c110_multilevel_is_temporal`).
* The performance tests judge the whole process by one measurement of the machine (C111: `c111_measured_once`); a clock that stands still
  raises `ZeroDivisionError` and leaves the lowered threshold behind (`c111_clock_stands_still`); on a machine where the mock calculation
  gains nothing, a pool that works serially passes (`c111_serial_pool_passes`).
* `multilayer_louvain_part` adds weights to both graphs before it finds out that the package cannot do what it needs (C112:
  `c112_effect`, `c112_unsupported`); `multilayer_louvain` checks first (`c112_run_effect`).
* Figures 5.7 and 5.8 have blank regions: domains whose partition has no gamma estimate are not drawn (C113: `c113_lazega_gap`,
  `c113_no_estimate`).
* With the window of `CHAMP_3D` as plot window, as documented, no domain is lost (C114), in contrast to a smaller one (C67).
* The contour 1.0926 drawn in figures 6.2 and 6.3 as the maximum for three communities is slightly too low (rounded down): the line of possible parameters crosses it (C115).
* `hierarchical_SBM_test.py:45` and `runtime_comparison_with_louvain.py:26` still pass `chunk_dispatch=False`, a parameter the Leiden functions dropped; both scripts raise `TypeError` at their first Louvain run (c117_hierarchical, c117_runtimes_stale). The properties of the hierarchical study (C99) therefore concern the script with that keyword removed.
- C120: pruning batches separately and pruning the union again is not the same as pruning everything: a partition with fewer inner edges than expected can survive because the one-community partition, having no estimate, has been dropped from its batch (`c120_prune_batches_unsafe`).
- C121: a graph with a single isolated vertex makes `prune_to_stable_partitions` raise ZeroDivisionError when the window starts at 0 and the isolated vertex is a community of its own in the partitions given (`c121_raises`); the warning about disconnected graphs only says that they have not been thoroughly tested.

## Testing against wrong programs

`seeded/LOG.jsonl` has one line per edit of the model.  `tools/run.py` applies an edit to a copy of `/verif/lean` (with the
concrete examples stripped, so that they cannot hide theorem failures), rebuilds, and lists the property theorems that depend on a
declaration that no longer compiles.
