{"id": "C01", "title": "sorted_tuple preserves the partition", "statement": "sorted_tuple(t) has the same length as t and puts two positions in the same community exactly when t does.", "quantifier": "every membership tuple over every totally ordered label type", "why_tests_cant": "tuples of every length and labelling", "anchors": ["utilities/leiden_utilities.py:sorted_tuple"]}
{"id": "C02", "title": "sorted_tuple is a canonical form", "statement": "sorted_tuple(s) == sorted_tuple(t) iff s and t describe the same partition; the output labels are 0..K-1 in order of first appearance; sorted_tuple is idempotent.", "quantifier": "every pair of membership tuples", "why_tests_cant": "the 'only if' direction ranges over all pairs of tuples", "anchors": ["utilities/leiden_utilities.py:sorted_tuple"]}
{"id": "C03", "title": "Memoisation of sorted_tuple is unobservable", "statement": "After any history of calls, with any cache size, a memoised call returns what a fresh computation would, and the cache never holds more than maxsize entries nor two entries for a key.", "quantifier": "every sequence of calls and every cache capacity", "why_tests_cant": "evictions depend on the whole call history", "anchors": ["utilities/leiden_utilities.py:sorted_tuple (functools.lru_cache)"]}
{"id": "C04", "title": "num_communities counts communities and accepts exactly contiguous labellings", "statement": "On a non-empty membership of natural labels, num_communities returns K iff the set of labels is exactly {0..K-1}; otherwise it raises; it never raises on the output of sorted_tuple for a non-empty tuple and then equals the number of distinct input labels.", "quantifier": "every membership list", "why_tests_cant": "label sets of any size", "anchors": ["utilities/partition_utilities.py:num_communities"]}
{"id": "C05", "title": "Community dictionaries are exact partitions of the vertices", "statement": "membership_to_communities (and the layered variant) returns one entry per occurring label (label, layer), keyed without repetition, whose list is, in increasing order, exactly the vertices with that label (label, layer).", "quantifier": "every membership list and layer vector", "why_tests_cant": "all sizes", "anchors": ["utilities/partition_utilities.py:membership_to_communities, membership_to_layered_communities"]}
{"id": "C06", "title": "2D CHAMP coefficients are the modularity matrix sums (undirected)", "statement": "For an undirected graph with at least one edge, the coefficients of every partition are A_hat = sum_ij A_ij [c_i=c_j] and P_hat = sum_ij k_i k_j/(2m) [c_i=c_j], so A_hat - gamma P_hat is the (unnormalised) modularity at every gamma. Multi-edges and self-loops included.", "quantifier": "every undirected multigraph, partition list and gamma", "why_tests_cant": "all graphs, partitions and gammas", "anchors": ["utilities/champ_utilities.py:partition_coefficients_2D_serial"]}
{"id": "C07", "title": "2D CHAMP coefficients are the Leicht-Newman sums (directed)", "statement": "For a directed graph with at least one edge the coefficients are sum_ij A_ij [c_i=c_j] and sum_ij k_in_i k_out_j / m [c_i=c_j].", "quantifier": "every directed multigraph and partition list", "why_tests_cant": "all graphs and partitions", "anchors": ["utilities/champ_utilities.py:partition_coefficients_2D_serial"]}
{"id": "C08", "title": "3D CHAMP coefficients are the multilayer modularity sums", "statement": "If every layer that has a vertex has an intralayer edge leaving it (and, for an undirected intralayer graph, no intralayer edge joins different layers), A_hat, P_hat, C_hat are the intralayer adjacency, per-layer null model and interlayer adjacency sums over pairs in the same community (pairs in the same layer for P_hat), for all four combinations of directedness.", "quantifier": "every intralayer/interlayer multigraph pair, layer vector and partition list", "why_tests_cant": "all graphs, layer assignments and partitions", "anchors": ["utilities/champ_utilities.py:partition_coefficients_3D_serial"]}
{"id": "C09", "title": "CHAMP coefficients depend only on the partition, not on its labels", "statement": "Two memberships describing the same partition get the same coefficients, or the same exception (2D and 3D); in particular canonicalising with sorted_tuple changes no coefficient.", "quantifier": "all graphs, layer vectors and pairs of lists of equivalent memberships", "why_tests_cant": "all relabelings", "anchors": ["utilities/champ_utilities.py:partition_coefficients_2D_serial, partition_coefficients_3D_serial", "utilities/leiden_utilities.py:sorted_tuple"]}
{"id": "C10", "title": "Coefficient bounds and extremes", "statement": "For an undirected graph with m>0 edges: 0<=A_hat<=2m, 0<P_hat<=2m, the one-community partition attains A_hat=P_hat=2m, K communities give P_hat>=2m/K, and coarsening a partition never decreases A_hat or P_hat.", "quantifier": "every undirected graph with an edge and every partition", "why_tests_cant": "all graphs and partitions", "anchors": ["utilities/champ_utilities.py:partition_coefficients_2D_serial"]}
{"id": "C11", "title": "Parallel coefficient computation equals serial computation", "statement": "partition_coefficients_2D (single_threaded or not) and partition_coefficients_3D return exactly the serial result in input order, for every worker count >= 1, every order of task completion, and whatever (monotone, integer-exact) rounding the float chunk boundaries suffer.", "quantifier": "every worker count, completion order, rounding function, graph and partition list", "why_tests_cant": "schedules and machine sizes", "anchors": ["utilities/champ_utilities.py:partition_coefficients_2D, partition_coefficients_3D"]}
{"id": "C12", "title": "Coefficient failure modes are exactly characterised", "statement": "On an edgeless graph every P_hat is NaN; if a layer has a vertex but no intralayer edge anywhere near it every 3D P_hat is NaN; a membership longer than the vertex count raises IndexError; a membership of the right length never raises.", "quantifier": "every graph, layer vector and partition", "why_tests_cant": "all degenerate shapes", "anchors": ["utilities/champ_utilities.py:partition_coefficients_2D_serial, partition_coefficients_3D_serial"]}
{"id": "C13", "title": "get_interior_point only returns strictly interior points", "statement": "Whatever the random sampler and the LP solver do, a returned point satisfies every input halfspace strictly.", "quantifier": "every halfspace list, every sampler behaviour, every LP solver behaviour", "why_tests_cant": "arbitrary solver output and randomness", "anchors": ["utilities/champ_utilities.py:get_interior_point"]}
{"id": "C14", "title": "get_interior_point always terminates", "statement": "For initial_num_sampled >= 1 the loop stops after a bounded number of LP solves (doublings to reach all halfspaces plus the retry limit plus 2), for every solver and sampler; with initial_num_sampled = 0 and a failing solver it would never stop.", "quantifier": "every halfspace list, solver and sampler, all parameter values", "why_tests_cant": "non-termination cannot be tested; adversarial solvers", "anchors": ["utilities/champ_utilities.py:get_interior_point"]}
{"id": "C15", "title": "get_interior_point succeeds whenever an interior point exists (exact LP)", "statement": "If the LP solver is exact and the halfspaces have nonzero normals and two window rows facing each other, get_interior_point returns a point and never raises when they have a common strictly interior point, and raises ValueError when they have none. Without a bounding window (arbitrarily large balls inside), or whenever the first LP is reported infeasible or unbounded, it raises the impossible-or-degenerate ValueError at once.", "quantifier": "every feasible/infeasible halfspace list, every sampler", "why_tests_cant": "all inputs and random choices", "anchors": ["utilities/champ_utilities.py:get_interior_point"]}
{"id": "C16", "title": "Halfspace encoding is faithful", "statement": "A point (gamma, Q) satisfies the normalised halfspace of a partition iff Q >= A_hat - gamma P_hat (3D: Q >= A_hat - gamma P_hat + omega C_hat) and is on its boundary iff equality holds; normalisation never divides by zero.", "quantifier": "all coefficients and points", "why_tests_cant": "all reals", "anchors": ["utilities/champ_utilities.py:halfspaces_from_coefficients_2D, halfspaces_from_coefficients_3D, CHAMP_2D, CHAMP_3D"]}
{"id": "C17", "title": "CHAMP_2D ranges are correct", "statement": "Every returned (g0, g1, part) has gamma_0 <= g0 < g1 <= gamma_f, part is one of the inputs, and at every gamma in [g0, g1] part's modularity is maximal among all input partitions. On a graph with an edge CHAMP_2D returns iff gamma_0 < gamma_f and every input optimal at gamma_0 has a positive null-model sum, and otherwise raises ValueError (also without an edge); on a connected graph (strongly, if directed) with two vertices it always returns.", "quantifier": "every graph, partition list, window, sampler, LP solver, and every exact halfspace intersection", "why_tests_cant": "all gammas in all ranges", "anchors": ["utilities/champ_utilities.py:CHAMP_2D"]}
{"id": "C18", "title": "CHAMP_2D ranges cover the window", "statement": "Every gamma in [gamma_0, gamma_f] lies in some returned range, so the best input modularity at gamma is attained by a returned partition whose range contains gamma.", "quantifier": "every graph, partition list and window on which CHAMP_2D returns; every gamma", "why_tests_cant": "all gammas", "anchors": ["utilities/champ_utilities.py:CHAMP_2D"]}
{"id": "C19", "title": "CHAMP_2D output is a sorted tiling", "statement": "The returned ranges are sorted, first starts at gamma_0, last ends at gamma_f, and each range starts where the previous one ends.", "quantifier": "every successful CHAMP_2D call", "why_tests_cant": "all inputs", "anchors": ["utilities/champ_utilities.py:CHAMP_2D"]}
{"id": "C20", "title": "CHAMP_2D keeps exactly the somewhere-strictly-optimal partitions", "statement": "No input position is returned twice; an input strictly better than every input with different coefficients at some interior gamma is returned (or another input with equal coefficients is); a returned partition is strictly better at some gamma than every input with different coefficients.", "quantifier": "every successful CHAMP_2D call", "why_tests_cant": "all inputs", "anchors": ["utilities/champ_utilities.py:CHAMP_2D"]}
{"id": "C21", "title": "CHAMP_3D domains are correct", "statement": "Every returned (polygon, part): part is an input; polygon vertices lie in the (gamma, omega) window; at every point of the polygon's convex hull part's multilayer modularity is maximal among all inputs. With an edge in every layer CHAMP_3D returns iff both windows are non-empty and every input optimal at (gamma_0, omega_f) has a positive null-model sum or a coupling edge inside a community, and otherwise raises ValueError, as it does if some layer has no edge.", "quantifier": "every successful CHAMP_3D call; every point of every domain", "why_tests_cant": "all points of all domains", "anchors": ["utilities/champ_utilities.py:CHAMP_3D"]}
{"id": "C22", "title": "CHAMP_3D domains cover the window", "statement": "Every (gamma, omega) in the window lies in the convex hull of some returned polygon; domains of different partitions have disjoint interiors.", "quantifier": "every successful CHAMP_3D call with non-negative coefficients; every point", "why_tests_cant": "all points", "anchors": ["utilities/champ_utilities.py:CHAMP_3D"]}
{"id": "C23", "title": "CHAMP_3D polygons are in boundary order", "statement": "The returned vertices of each domain are in clockwise boundary order in the (gamma, omega) plane: all other vertices lie strictly on the right of every consecutive edge.", "quantifier": "every successful CHAMP_3D call with exact halfspace intersection", "why_tests_cant": "all polygons of all sizes", "anchors": ["utilities/champ_utilities.py:CHAMP_3D (arctan2 sort)"]}
{"id": "C24", "title": "Single-layer SBM estimates match the CHAMP coefficients", "statement": "For an unweighted undirected graph omega_in = A_hat/P_hat and omega_out = (2m-A_hat)/(2m-P_hat) (0 for one community), hence P_hat*omega_in + (2m-P_hat)*omega_out = 2m, and omega_in > 1 iff modularity at gamma=1 is positive iff (for more than one community) omega_out < 1.", "quantifier": "every undirected graph and partition", "why_tests_cant": "all graphs and partitions", "anchors": ["utilities/parameter_estimation_utilities.py:estimate_singlelayer_SBM_parameters", "utilities/champ_utilities.py:partition_coefficients_2D_serial"]}
{"id": "C25", "title": "When single-layer estimation divides by zero", "statement": "With positive weights, estimate_singlelayer_SBM_parameters raises ZeroDivisionError iff the graph has no edges or there is more than one community and one community is incident to every edge end; it never raises on a graph without isolated vertices whose labels are contiguous.", "quantifier": "every positively weighted graph and membership", "why_tests_cant": "all graphs", "anchors": ["utilities/parameter_estimation_utilities.py:estimate_singlelayer_SBM_parameters"]}
{"id": "C26", "title": "The gamma estimate is the logarithmic mean", "statement": "For positive unequal omega_in, omega_out the estimate is symmetric, lies strictly between them, is at least their geometric and at most their arithmetic mean, scales linearly, and increases with each argument.", "quantifier": "all positive reals", "why_tests_cant": "all reals", "anchors": ["utilities/parameter_estimation_utilities.py:gamma_estimate_from_parameters"]}
{"id": "C27", "title": "Degenerate gamma estimates", "statement": "The estimate is None iff one parameter is 0, NaN iff (neither is 0 and) they are equal or one is negative, and a real number otherwise; in particular omega_in == omega_out never yields the limiting value.", "quantifier": "all reals", "why_tests_cant": "all reals", "anchors": ["utilities/parameter_estimation_utilities.py:gamma_estimate_from_parameters"]}
{"id": "C28", "title": "Multilayer SBM estimates match the 3D coefficients", "statement": "For unweighted undirected intralayer graphs without cross-layer edges and with an edge in every layer, theta_in = A_hat/P_hat and theta_out = (2M-A_hat)/(2M-P_hat) (0 if 2M=P_hat), K is the number of communities; a layer without edges raises ZeroDivisionError.", "quantifier": "every multilayer graph, layer vector and partition", "why_tests_cant": "all graphs", "anchors": ["utilities/parameter_estimation_utilities.py:estimate_multilayer_SBM_parameters"]}
{"id": "C29", "title": "The copying probability estimate is a probability", "statement": "For temporal and multilevel models p lies in [0,1] for every community count and persistence; p = 1 iff persistence >= 1 or K <= 1; p = 0 iff K>1 and persistence <= 1/K. Hence the 'impossible estimate' error can only come from the multiplex model.", "quantifier": "all K and persistence values", "why_tests_cant": "all reals", "anchors": ["utilities/parameter_estimation_utilities.py:estimate_multilayer_SBM_parameters", "utilities/parameter_estimation.py:iterative_multilayer_resolution_parameter_estimation"]}
{"id": "C30", "title": "The multiplex copying probability is well defined", "statement": "For K>1, T>1 and 1/K <= persistence < 1 the multiplex equation has exactly one root in [0, infinity) and it lies in [0,1); if fsolve returns an exact non-negative root the estimate is that root; if persistence < 1/K no non-negative root exists and any exact root gives p = 0.", "quantifier": "all K, T, persistence", "why_tests_cant": "all degrees T", "anchors": ["utilities/parameter_estimation_utilities.py:estimate_multilayer_SBM_parameters"]}
{"id": "C31", "title": "Persistence is a fraction on accepted graphs", "statement": "On graphs accepted by check_multilayer_graph_consistency, temporal and multiplex persistence lie in [0,1]; multilevel persistence lies in [0, T/(T-1)], and in [0,1] if some layer has no incoming interlayer edge; a community-constant partition has persistence 1 (temporal, multiplex).", "quantifier": "every accepted multilayer graph and membership", "why_tests_cant": "all graphs", "anchors": ["utilities/parameter_estimation_utilities.py:ordinal_persistence, multilevel_persistence, categorical_persistence", "utilities/parameter_estimation.py:check_multilayer_graph_consistency"]}
{"id": "C32", "title": "Omega estimates: value, sign and exact error conditions", "statement": "temporal/multilevel: 0 if p=0, omega_max if p>=1, otherwise log(1+pK/(1-p))/(2(log theta_in - log theta_out)) (log theta_in alone if theta_out=0), raising exactly when a log argument is not positive or the denominator is zero; positive when theta_in>theta_out>0, increasing in p and K. Multiplex with T=2 and theta_in != 1 agrees with temporal.", "quantifier": "all parameters", "why_tests_cant": "all reals", "anchors": ["utilities/parameter_estimation_utilities.py:temporal_multilevel_omega_estimate_from_parameters, multiplex_omega_estimate_from_parameters"]}
{"id": "C33", "title": "omega_max bounds the omega estimate", "statement": "The returned omega never exceeds omega_max ('maximum allowed value for omega').", "quantifier": "all parameters", "why_tests_cant": "all reals", "anchors": ["utilities/parameter_estimation_utilities.py:temporal_multilevel_omega_estimate_from_parameters, multiplex_omega_estimate_from_parameters"]}
{"id": "C34", "title": "Model names are dispatched exactly", "statement": "omega_function_from_model and persistence_function_from_model raise ValueError for every model string other than temporal, multilevel, multiplex (and for missing N/T/Nt/layer_vec the model needs), and otherwise select that model's formula.", "quantifier": "every string and every combination of missing arguments", "why_tests_cant": "all strings", "anchors": ["utilities/parameter_estimation_utilities.py:omega_function_from_model, persistence_function_from_model"]}
{"id": "C35", "title": "Single-layer stability filter", "statement": "gamma_estimates_to_stable_partitions returns, in order, exactly the memberships whose estimate is a number within the closed range; None and NaN estimates are never stable.", "quantifier": "every list of estimates", "why_tests_cant": "all lists", "anchors": ["utilities/parameter_estimation_utilities.py:gamma_estimates_to_stable_partitions, ranges_to_gamma_estimates"]}
{"id": "C36", "title": "Multi-layer stability test is point-in-polygon", "statement": "For a domain whose vertices are in (either) strictly convex boundary order, a domain with a real estimate is kept iff the estimate is in the interior of the convex hull of the vertices; boundary points are not stable. Kept entries appear in input order.", "quantifier": "every convex polygon of any size and every point", "why_tests_cant": "all polygons and points", "anchors": ["utilities/parameter_estimation_utilities.py:gamma_omega_estimates_to_stable_partitions"]}
{"id": "C37", "title": "Undefined multi-layer estimates are not stable", "statement": "A domain whose gamma or omega estimate is undefined (None or NaN) is never reported stable.", "quantifier": "every domain list", "why_tests_cant": "all inputs", "anchors": ["utilities/parameter_estimation_utilities.py:gamma_omega_estimates_to_stable_partitions, prune_to_multilayer_stable_partitions"]}
{"id": "C38", "title": "prune_to_stable_partitions is sound", "statement": "Every returned partition is the canonical form of an input, has a gamma estimate within [gamma_start, gamma_end], and its modularity at that estimate is maximal among all inputs.", "quantifier": "every graph, partition set, window and environment", "why_tests_cant": "all inputs", "anchors": ["utilities/parameter_estimation_utilities.py:prune_to_stable_partitions"]}
{"id": "C39", "title": "prune_to_stable_partitions is complete", "statement": "If an input has a real estimate strictly inside the window and is strictly better at it than every input with other coefficients, then it, or an input with the same coefficients, is examined, and it is returned if no other input has the same coefficients.", "quantifier": "every graph, partition set, window", "why_tests_cant": "all inputs", "anchors": ["utilities/parameter_estimation_utilities.py:prune_to_stable_partitions"]}
{"id": "C40", "title": "Pruning ignores labels, duplicates and order of the inputs", "statement": "Relabelling communities, repeating or reordering inputs does not change the set of partitions handed to CHAMP, so every soundness/completeness guarantee is unaffected; with distinct coefficients the returned set is identical.", "quantifier": "all equivalent input collections and all set iteration orders", "why_tests_cant": "hash order and relabelings", "anchors": ["utilities/parameter_estimation_utilities.py:prune_to_stable_partitions"]}
{"id": "C41", "title": "Pruning is idempotent and survives removal of competitors", "statement": "A returned partition is still returned when pruning any subset of the inputs that contains it, if different inputs have different coefficients (without this: up to a partition with equal coefficients, on unweighted undirected graphs); pruning the output again returns the same set.", "quantifier": "all inputs and all subsets", "why_tests_cant": "all subsets", "anchors": ["utilities/parameter_estimation_utilities.py:prune_to_stable_partitions"]}
{"id": "C42", "title": "restrict_num_communities restricts the inputs", "statement": "With restrict_num_communities=K all returned partitions have exactly K communities and the result is that of pruning only the K-community inputs (different inputs having different coefficients); an empty (or emptied) input returns [].", "quantifier": "all inputs and all K", "why_tests_cant": "all inputs", "anchors": ["utilities/parameter_estimation_utilities.py:prune_to_stable_partitions, prune_to_multilayer_stable_partitions"]}
{"id": "C43", "title": "prune_to_multilayer_stable_partitions is sound", "statement": "Every returned partition is the canonical form of an input; its gamma estimate is not None; if its estimate is a number, (gamma, min(omega, omega_end - 0.001)) lies strictly inside the window and the partition's multilayer modularity there is maximal among all inputs.", "quantifier": "every multilayer graph, partition set, window and environment", "why_tests_cant": "all inputs", "anchors": ["utilities/parameter_estimation_utilities.py:prune_to_multilayer_stable_partitions"]}
{"id": "C44", "title": "prune_to_multilayer_stable_partitions is complete", "statement": "An input whose truncated estimate is strictly inside the window and at which it is strictly better than all inputs with other coefficients is returned if no other input has the same coefficients.", "quantifier": "every multilayer graph, partition set, window", "why_tests_cant": "all inputs", "anchors": ["utilities/parameter_estimation_utilities.py:prune_to_multilayer_stable_partitions"]}
{"id": "C45", "title": "Single-threaded multilayer pruning is rejected up front", "statement": "single_threaded=True raises NotImplementedError for all arguments.", "quantifier": "all arguments", "why_tests_cant": "all inputs", "anchors": ["utilities/parameter_estimation_utilities.py:prune_to_multilayer_stable_partitions"]}
{"id": "C46", "title": "Iterative single-layer estimation", "statement": "For every community detection behaviour, at most max_iter maximisations are made; on return the gamma is the estimate of the returned partition; if fewer than max_iter were made the last move was below tol; it raises ValueError iff some visited partition has no estimate; unknown methods are rejected.", "quantifier": "every maximiser behaviour, start, tolerance and iteration limit", "why_tests_cant": "arbitrary histories of a stochastic maximiser", "anchors": ["utilities/parameter_estimation.py:iterative_monolayer_resolution_parameter_estimation"]}
{"id": "C47", "title": "Iterative multilayer estimation", "statement": "As C46 with both gamma and omega: returned values are the estimates of the returned partitions, early stopping implies both moves were within tolerance, impossible p or missing gamma raises, malformed graphs are rejected before any optimisation.", "quantifier": "every maximiser behaviour, start, tolerances, iteration limit", "why_tests_cant": "arbitrary histories", "anchors": ["utilities/parameter_estimation.py:iterative_multilayer_resolution_parameter_estimation"]}
{"id": "C48", "title": "Results of iterative multilayer estimation do not depend on earlier calls", "statement": "For max_iter >= 1 the outcome is independent of any previous calls in the process, as long as graph objects are not modified in place between calls (for that see C54); for max_iter = 0 it is not (a stale partition or NameError).", "quantifier": "every history of calls", "why_tests_cant": "histories", "anchors": ["utilities/parameter_estimation.py:iterative_multilayer_resolution_parameter_estimation (global parts)"]}
{"id": "C49", "title": "Consistency check reports exactly the violated rules", "statement": "check_multilayer_graph_consistency raises iff at least one of the documented rules is violated and the message lists exactly the violated rules in order.", "quantifier": "every graph pair, layer vector, model", "why_tests_cant": "all graphs", "anchors": ["utilities/parameter_estimation.py:check_multilayer_graph_consistency"]}
{"id": "C50", "title": "Accepted graphs never crash persistence/SBM estimation", "statement": "If the consistency check passes for a known model then for every contiguous membership SBM estimation raises no ZeroDivisionError.", "quantifier": "every accepted graph and membership", "why_tests_cant": "all graphs", "anchors": ["utilities/parameter_estimation.py:check_multilayer_graph_consistency, estimate_multilayer_SBM_parameters"]}
{"id": "C51", "title": "Repeated Leiden runs: schedule-independent set of canonical partitions", "statement": "The parallel drivers return exactly the set of canonical forms of the partitions produced for each requested parameter, for every completion order; with a deterministic maximiser parallel equals serial; no two results describe the same partition.", "quantifier": "all parameter lists, schedules, worker counts", "why_tests_cant": "schedules", "anchors": ["utilities/leiden_utilities.py:repeated_leiden_from_gammas, repeated_parallel_leiden_from_gammas, repeated_leiden_from_gammas_omegas, repeated_parallel_leiden_from_gammas_omegas"]}
{"id": "C52", "title": "Louvain chunked dispatch processes every grid point exactly once", "statement": "The dispatched chunks concatenate to the full (gamma, omega) grid in order, for both settings of chunk_dispatch; pool re-initialisation does not change the result; the progress total equals the number of chunks in chunked mode; an empty gamma list with progress raises ZeroDivisionError.", "quantifier": "all grids and memory conditions", "why_tests_cant": "all sizes and memory histories", "anchors": ["utilities/louvain_utilities.py:repeated_parallel_louvain_from_gammas_omegas"]}
{"id": "C53", "title": "Splitting into layers loses no edge", "statement": "split_intralayer_leiden_graph returns one graph per layer on all vertices; layer t's edges are, in order, exactly the edges whose source is in layer t, with their weights; together they contain every edge exactly once.", "quantifier": "every graph and layer vector", "why_tests_cant": "all graphs", "anchors": ["utilities/leiden_utilities.py:split_intralayer_leiden_graph, _split_leiden_graph_layers_cached"]}
{"id": "C54", "title": "Layer splitting reflects the current graph", "statement": "A call to split_intralayer_leiden_graph returns the split of the graph as it is now, after any history of calls and in-place modifications.", "quantifier": "every history of calls and graph mutations", "why_tests_cant": "histories", "anchors": ["utilities/leiden_utilities.py:_split_leiden_graph_layers_cached (lru_cache keyed on Edge objects)"]}
{"id": "C55", "title": "Leiden optimises the same objective CHAMP prunes with", "statement": "The multiplex objective handed to leidenalg at (gamma, omega) equals A_hat - gamma P_hat + omega C_hat of CHAMP_3D for unweighted graphs with an edge in every layer and no intralayer edge between layers.", "quantifier": "every multilayer graph, membership, gamma, omega", "why_tests_cant": "all graphs", "anchors": ["utilities/leiden_utilities.py:multilayer_leiden", "utilities/champ_utilities.py:partition_coefficients_3D_serial"]}
{"id": "C56", "title": "Default weights are one on every edge", "statement": "Whatever igraph's answer to 'weight' in G.es, a graph without weights ends up with weight 1.0 on every edge (also in gamma_estimate, which supplies vcount instead of ecount values); a second call changes nothing more.", "quantifier": "every graph", "why_tests_cant": "all vertex/edge count combinations", "anchors": ["utilities/parameter_estimation_utilities.py:gamma_estimate, estimate_multilayer_SBM_parameters", "utilities/leiden_utilities.py:singlelayer_leiden"]}
{"id": "C57", "title": "Edge weights do not influence pruning and are left alone", "statement": "prune_to_stable_partitions proceeds as though the graph were unweighted and does not change the caller's weights.", "quantifier": "every weighted graph", "why_tests_cant": "all weights", "anchors": ["utilities/parameter_estimation_utilities.py:prune_to_stable_partitions, gamma_estimate"]}
{"id": "C58", "title": "Deprecated Louvain names forward to Leiden", "statement": "Looking up any name containing 'louvain' in louvain_utilities yields the leiden_utilities attribute with every occurrence of louvain replaced; other unknown names should raise AttributeError; capability check with fatal=False never raises.", "quantifier": "all attribute names, all installations", "why_tests_cant": "all strings", "anchors": ["utilities/louvain_utilities.py:__getattr__, check_multilayer_louvain_capabilities"]}
{"id": "C59", "title": "Adjacent domains get different colours", "statement": "plot_2d_domains either raises or assigns every domain a colour from the palette such that any two distinct domains sharing a vertex have different colours, for every random choice and shuffle.", "quantifier": "all domain lists, all palettes, all random choices", "why_tests_cant": "randomness and adjacency structure", "anchors": ["utilities/plotting.py:plot_2d_domains"]}
{"id": "C60", "title": "Multiplex community plot shows each vertex in its layer", "statement": "The plotted matrix has entry (n, t) equal to the community of the n-th vertex of layer t.", "quantifier": "every membership and layer vector of the documented types", "why_tests_cant": "all sizes", "anchors": ["utilities/plotting.py:plot_multiplex_community"]}
{"id": "C61", "title": "Estimate arrows stay inside the axes", "statement": "plot_estimates draws every arrow head within the current axis limits (finite estimates), and draws one arrow per partition with an estimate.", "quantifier": "all estimate lists and limits", "why_tests_cant": "all reals", "anchors": ["utilities/plotting.py:plot_estimates"]}
{"id": "C62", "title": "Progress bar has constant width", "statement": "For 0 <= i <= total (total > 0) the bar has exactly `length` cells, is monotone in i and full exactly when length*i/total >= length.", "quantifier": "all totals, lengths and positions", "why_tests_cant": "all sizes", "anchors": ["utilities/progress.py:Progress.update"]}
{"id": "C63", "title": "Disconnected and weighted inputs are warned about", "statement": "The single-layer pipeline warns about connectivity iff the graph has no vertex or its vertices split into two non-empty sets with no edge from the first to the second; the multilayer pipeline (at least two vertices) iff the vertices split into two non-empty sets with no intra- or interlayer edge between them; both warn about weights iff some weight of the given graphs differs from 1.", "quantifier": "all graphs and graph pairs", "why_tests_cant": "all graphs", "anchors": ["utilities/parameter_estimation_utilities.py:prune_to_stable_partitions, prune_to_multilayer_stable_partitions"]}
{"id": "C64", "title": "At its own estimate a partition beats the trivial ones", "statement": "On an unweighted undirected graph, for a partition whose gamma estimate is a number: its modularity at resolution 1 is positive iff at its own estimate its modularity is positive and exceeds that of the one-community partition.", "quantifier": "every unweighted undirected graph and partition", "why_tests_cant": "all graphs", "anchors": ["utilities/parameter_estimation_utilities.py:gamma_estimate, gamma_estimate_from_parameters, prune_to_stable_partitions"]}
{"id": "C65", "title": "Partition objects given as parts are not silently misread", "statement": "A leidenalg partition object with at least one cluster passed as `parts` raises AttributeError in both pruning pipelines (the isinstance branch iterates clusters, which have no membership).", "quantifier": "every partition object", "why_tests_cant": "all inputs", "anchors": ["utilities/parameter_estimation_utilities.py:prune_to_stable_partitions, prune_to_multilayer_stable_partitions"]}
{"id": "C66", "title": "Estimate arrows of domains", "statement": "plot_2d_domains_with_estimates draws an arrow exactly for the domains whose two estimates are given and inside the plotting window and whose centroid is horizontally at most 5% of the width outside it, from the centroid moved into the window to the estimate; both ends are inside the window; points are drawn iff requested.", "quantifier": "all domain lists with estimates, all windows", "why_tests_cant": "all reals", "anchors": ["utilities/plotting.py:plot_2d_domains_with_estimates"]}
{"id": "C67", "title": "Domains coloured by a value: the window", "statement": "plot_2d_domains_with_num_communities and plot_2d_domains_with_ami draw every domain that meets the plotting window, in order, each with its own value (capped at K_max if given).", "quantifier": "all domain lists, windows and K_max", "why_tests_cant": "all reals", "anchors": ["utilities/plotting.py:plot_2d_domains_with_num_communities, plot_2d_domains_with_ami"]}
{"id": "C68", "title": "Truncated omega estimates are announced", "statement": "prune_to_multilayer_stable_partitions warns about truncation iff some dominant partition with a gamma estimate has an omega estimate at or above omega_end; without the warning the omega estimate of every returned partition lies below omega_end.", "quantifier": "every multilayer graph, partition set, window", "why_tests_cant": "all inputs and reals", "anchors": ["utilities/parameter_estimation_utilities.py:prune_to_multilayer_stable_partitions"]}
{"id": "C69", "title": "Explicit estimates on unweighted temporal networks", "statement": "For an unweighted undirected temporal network the gamma and omega estimates of a partition are explicit functions of its CHAMP coefficients and number of communities; the estimation raises exactly if the copying probability is strictly between 0 and 1 and the partition has no inner edge (ValueError) or as many as expected (ZeroDivisionError); pruning returns if no candidate is of that kind and raises if such a candidate is dominant.", "quantifier": "every unweighted temporal network, partition set, window", "why_tests_cant": "all graphs and partitions", "anchors": ["utilities/parameter_estimation_utilities.py:gamma_omega_estimate, domains_to_gamma_omega_estimates, prune_to_multilayer_stable_partitions"]}
{"id": "C70", "title": "Gamma/omega duality curves", "statement": "For positive gamma and omega the experiments' parametric_omega(gamma, omega) is the unique other parameter (besides the diagonal) for which gamma_estimate_from_parameters returns exactly gamma; it lies on the other side of gamma, and applying it twice gives back the parameter; on the diagonal it is the identity while the estimate is NaN.", "quantifier": "all positive gamma, omega; every lambertw that solves w e^w = z on its two real branches", "why_tests_cant": "all reals", "anchors": ["experiments/plot_duality_details/plot_gamma_omega_duality.py:parametric_omega", "utilities/parameter_estimation_utilities.py:gamma_estimate_from_parameters"]}
{"id": "C71", "title": "Maximum gamma estimates", "statement": "For a partition into K >= 2 communities of a graph with positive weights: theta_in lies in [0, K]; if theta_in >= 1 then theta_out lies below the line (K - x)/(K - 1), with equality if the communities are balanced; if theta_out < theta_in its gamma estimate is below K/2 and at most a value of the experiments' curve f(K, x), attained for balanced communities.", "quantifier": "every positively weighted graph and partition", "why_tests_cant": "all graphs and partitions", "anchors": ["experiments/plot_duality_details/plot_maximum_gamma_estimates.py:f", "experiments/plot_duality_details/plot_maximum_gamma_estimates_general.py", "utilities/parameter_estimation_utilities.py:estimate_singlelayer_SBM_parameters, gamma_estimate_from_parameters"]}
{"id": "C72", "title": "Estimates depend only on the partition", "statement": "Relabelling the communities (labels 0..K-1) changes neither the value nor the exception of gamma_estimate, gamma_omega_estimate and the SBM parameter estimations.", "quantifier": "every graph (pair), layer vector, model, pair of memberships describing the same partition", "why_tests_cant": "all graphs, all relabellings", "anchors": ["utilities/parameter_estimation_utilities.py:gamma_estimate, gamma_omega_estimate, estimate_singlelayer_SBM_parameters, estimate_multilayer_SBM_parameters"]}
{"id": "C73", "title": "Estimates do not depend on the unit of the weights", "statement": "Multiplying all (intralayer) edge weights by a nonzero number changes neither the value nor the exception of gamma_estimate, gamma_omega_estimate and the SBM parameter estimations.", "quantifier": "every weighted graph (pair), membership, model, nonzero factor", "why_tests_cant": "all reals, all graphs", "anchors": ["utilities/parameter_estimation_utilities.py:gamma_estimate, gamma_omega_estimate, estimate_singlelayer_SBM_parameters, estimate_multilayer_SBM_parameters"]}
{"id": "C74", "title": "Choosing a smaller parameter window clips, and loses only what lies outside it", "statement": "With the same inputs and two nested windows: every CHAMP_2D range (CHAMP_3D domain) of the smaller window is the part inside it of a range (domain) of the larger window of a partition with the same modularity everywhere, and every range (domain) of the larger run overlapping the smaller window is represented there; prune_to_stable_partitions on the smaller window returns a subset of what it returns on the larger one, containing everything whose gamma estimate lies strictly inside the smaller window; the multilayer pruning agrees on partitions whose estimates lie inside the smaller window.", "quantifier": "every graph (pair), partitions, pair of nested windows, solver answers, set order and schedule of both runs", "why_tests_cant": "all real windows, all graphs, two arbitrary runs", "anchors": ["utilities/champ_utilities.py:CHAMP_2D, CHAMP_3D", "utilities/parameter_estimation_utilities.py:prune_to_stable_partitions, prune_to_multilayer_stable_partitions"]}
{"id": "C75", "title": "nmi is a symmetric score in [0, 1], 1 exactly for equal partitions and 0 exactly for independent ones", "statement": "For any two membership lists of the same length, nmi returns the mutual information divided by the mean entropy: a number between 0 and 1, unchanged by swapping the arguments or renaming labels, equal to 1 exactly if both lists describe the same partition, and equal to 0 exactly if the labels are statistically independent and not both trivial. Lists of different lengths raise ValueError.", "quantifier": "all pairs of label lists", "why_tests_cant": "The two characterisations are equality cases of an inequality over all labellings; samples cannot show there is no other pair scoring 1 or 0.", "anchors": ["utilities/partition_utilities.py:nmi"]}
{"id": "C76", "title": "ami is at most 1, equals 1 exactly for equal partitions, and averages to 0 under random relabelling of positions", "statement": "For membership lists of the same length, other than two partitions into singletons, ami is defined, symmetric, independent of the label names, at most 1, and 1 exactly for equal partitions; over all permutations of the second list the scores average to exactly 0.", "quantifier": "all pairs of label lists and all permutations of one of them, for every adjusted score satisfying scikit-learn's documented formula", "why_tests_cant": "The chance correction is a statement about all n! permutations.", "anchors": ["utilities/partition_utilities.py:ami"]}
{"id": "C77", "title": "precomputed optional arguments never change an estimate", "statement": "Passing correctly precomputed values (m, N, T, Nt, m_t, in any combination) to the estimation functions gives exactly the same estimate, the same exception and the same graph side effect as leaving them None. Arguments the model type does not use are ignored, and a wrong number of layers is never silently accepted.", "quantifier": "all graphs, layer vectors, partitions, model types and all 2^4 combinations of supplied arguments", "why_tests_cant": "The combinations times graphs times exceptional paths cannot be enumerated; the equality includes the exceptions.", "anchors": ["utilities/parameter_estimation_utilities.py:estimate_singlelayer_SBM_parameters, estimate_multilayer_SBM_parameters, gamma_omega_estimate"]}
{"id": "C78", "title": "iterative estimation and pruning agree under ideal optimisation", "statement": "If the community detection is at least as good as a set of candidate partitions (all partitions, for an exact Leiden optimiser), a run of the iterative estimation that stops before its limit returns a partition within tol (in normalised modularity) of every candidate at the returned parameters; a partition that pruning keeps because it is strictly best at its own estimate is a fixed point of the iteration, reached after one maximisation; and an exact fixed point lying in the window survives pruning. Both single-layer and multilayer (for near-optimality).", "quantifier": "all unweighted graphs, candidate sets, starting values, tolerances and optimisers satisfying the ideal assumption", "why_tests_cant": "Near-optimality is a statement about all partitions of the vertices and all runs of the iteration.", "anchors": ["utilities/parameter_estimation.py:iterative_monolayer_resolution_parameter_estimation, iterative_multilayer_resolution_parameter_estimation", "utilities/parameter_estimation_utilities.py:prune_to_stable_partitions"]}
{"id": "C79", "title": "Results do not depend on how vertices are numbered or edges are listed", "statement": "Renumber the vertices of the graph(s) by any permutation, list the edges in any order (the two ends of an undirected edge in either order, every edge keeping its weight), and renumber the memberships and layer vector accordingly. Then modularity and multilayer modularity are unchanged, gamma_estimate and gamma_omega_estimate return the same estimates or raise the same exception (directed interlayer graph), CHAMP_2D returns the same list of ranges with partitions of the same modularity, CHAMP_3D returns the same number of domains, each the same polygon with a partition of the same modularity, and prune_to_stable_partitions and prune_to_multilayer_stable_partitions return exactly the renumbered partitions (different candidates having different coefficients).", "quantifier": "all graphs, permutations, edge orders, memberships, windows, solver choices, set iteration orders", "why_tests_cant": "a factorial number of renumberings per graph, and solver/scheduling freedom on both sides", "anchors": ["utilities/parameter_estimation_utilities.py:gamma_estimate, gamma_omega_estimate, prune_to_stable_partitions, prune_to_multilayer_stable_partitions", "utilities/champ_utilities.py:CHAMP_2D, CHAMP_3D"]}
{"id": "C80", "title": "Loops of gamma estimates: found when they exist, never stable, and the iteration does not settle on them", "statement": "The loop search of the estimation experiment reports a loop whenever following the gamma estimates of the CHAMP ranges leads back to a range through different partitions, and, for fewer than 1000 ranges, only then (1001 ranges without a loop can be reported); without a report every walk ends at a stable partition or outside the window. The two-partition test succeeds exactly when each partition has larger modularity at the other's estimate; then pruning keeps neither of them, CHAMP on the two yields a loop, and the iterative estimation with a community detection finding the better of the two makes all max_iter steps and returns either estimate by parity. Such a pair exists on a four-vertex graph.", "quantifier": "all graphs, partitions, lists of ranges, tolerances, iteration counts and process states", "why_tests_cant": "Loops depend on exact coincidences of estimates and domains; a random search reports some, it cannot show that none is missed or invented.", "anchors": ["experiments/estimation_loop_test/estimation_loop_test.py:gamma_to_domain", "experiments/estimation_loop_test/estimation_loop_test_no_louvain.py:main", "utilities/parameter_estimation.py:iterative_monolayer_resolution_parameter_estimation", "utilities/parameter_estimation_utilities.py:gamma_estimate, prune_to_stable_partitions"]}
{"id": "C81", "title": "CHAMP_3D on a single layer without coupling is CHAMP_2D", "statement": "For a single-layer network without interlayer edges, CHAMP_3D returns as many domains as CHAMP_2D returns ranges: each range [a, b] reappears as the four corners of [a, b] x [omega_0, omega_f] in boundary order, with a partition of the same modularity. With a single layer gamma_omega_estimate always raises, and prune_to_multilayer_stable_partitions never returns when there is a candidate.", "quantifier": "all graphs, partitions, windows, solver choices, schedules, models", "why_tests_cant": "Agreement of the two geometric pipelines for every graph and every pair of runs.", "anchors": ["utilities/champ_utilities.py:CHAMP_2D, CHAMP_3D", "utilities/parameter_estimation_utilities.py:gamma_omega_estimate, prune_to_multilayer_stable_partitions"]}
{"id": "C82", "title": "The brute-force consistency check agrees with CHAMP", "statement": "The grid plot of the consistency script holds, for every grid point, the first partition of maximal multilayer modularity; for every CHAMP_3D run on the same partitions, a cell lying in a returned domain has the modularity of that domain's partition, and inside the domain its partition has the same modularity everywhere. The null-model matrix handed to the champ package yields exactly this package's P coefficient on undirected graphs, but twice as much (one layer, one community) on directed graphs.", "quantifier": "all networks, partition sets and orders, grids, windows, solver choices", "why_tests_cant": "The script compares one network at 62500 grid points by eye.", "anchors": ["experiments/manual_CHAMP_test/manual_CHAMP.py:plot_manual_CHAMP, run_CHAMP_with_their_coefarray_computation", "utilities/champ_utilities.py:CHAMP_3D, partition_coefficients_3D"]}
{"id": "C83", "title": "The gamma estimate is the resolution at which modularity is equivalent to likelihood", "statement": "For positive edge weights, the parameters returned by the single-layer SBM estimation are the unique maximum-likelihood parameters of the degree-corrected planted-partition model for the given partition (and there are none when one of them is 0, i.e. when the gamma estimate is None). For parameters omega_in > omega_out > 0 with gamma estimate g, modularity at resolution g orders all partitions of an undirected graph exactly as the likelihood does; for omega_in < omega_out it orders them in reverse. Every partition returned by prune_to_stable_partitions therefore maximises the likelihood among the candidates under its own maximum-likelihood parameters, provided those are assortative, which is guaranteed when a one-community partition is among the candidates; without it a returned partition can be strictly less likely than a discarded one.", "quantifier": "all graphs, positive weights, partitions and labellings, parameters, candidate lists, windows, solver and set-order choices", "why_tests_cant": "The documented meaning of the estimate is a statement about all parameters and all partitions; tests compare a few numbers.", "anchors": ["utilities/parameter_estimation_utilities.py:gamma_estimate, gamma_estimate_from_parameters, estimate_singlelayer_SBM_parameters, prune_to_stable_partitions"]}
{"id": "C84", "title": "The temporal estimates and the posterior of the temporal block model", "statement": "On an unweighted temporal network the returned theta_in, theta_out are the unique maximum-likelihood intralayer parameters, and (coupling edges numbering N(T-1)) the returned p is the unique maximum-likelihood copying probability, or 1 with the likelihood increasing towards 1 when no coupling edge changes label. For parameters theta_in > theta_out > 0 and copying probability p < 1, with directed coupling edges (which the package requires), the posterior of the temporal planted-partition model orders all partitions as the multilayer modularity does at (gamma, 4 omega), gamma and omega being the estimates computed by the package; at omega itself the order can be reversed.", "quantifier": "all unweighted temporal networks, labellings, parameters, numbers of layers and communities", "why_tests_cant": "The relation is between two functions of the partition, for all partitions and parameters; tests only check convergence on examples.", "anchors": ["utilities/parameter_estimation_utilities.py:estimate_multilayer_SBM_parameters, temporal_multilevel_omega_estimate_from_parameters, gamma_omega_estimate, ordinal_persistence", "utilities/parameter_estimation.py:check_multilayer_graph_consistency"]}
{"id": "C85", "title": "The analytic curves of the bistable block model", "statement": "On the expected network of the bistable block model with blocks of 100 vertices, gamma_estimate of the three blocks is gamma_3(delta) and of the two-community ground truth gamma_2(delta), for every delta >= 0, and has no finite value exactly where the curve raises. For every block size B and delta, the three blocks have at least the modularity of the two-community partition exactly from gamma_cross(B, delta) on; this tends to the plotted gamma_cross_limit from strictly above as B grows. For 0.0225 <= delta <= 0.0485 and B = 100 each of the two partitions beats the other at its own estimate; at delta = 0.0495, left of the figure's right line, the figure's curves say so but it is false, because estimates for B = 100 are compared with the switch for B to infinity.", "quantifier": "all delta >= 0, all block sizes, all resolutions", "why_tests_cant": "Equality of closed forms with sums over all pairs of vertices, inequalities between transcendental functions on intervals, a limit.", "anchors": ["experiments/bistable_SBM/plot_bistable_SBM_analytic.py:gamma_cross, gamma_cross_limit, gamma_2, gamma_3", "utilities/parameter_estimation_utilities.py:gamma_estimate"]}
{"id": "C86", "title": "More resolution does not always mean more communities", "statement": "There is a connected simple graph (9 vertices, 12 edges) on which, among all partitions, the unique best at gamma = 3/4 has three communities and the unique best at gamma = 24/25 has two. Whatever candidates the optimiser finds, provided these two are among them, the search script reports the ranges returned by CHAMP_2D on any window containing both resolutions as non-monotonic. Conversely, on every graph, if of any two candidates one refines the other, the number of communities never drops along the returned ranges.", "quantifier": "all partitions of the graph; all candidate lists and windows; for the converse all graphs and nested candidate lists", "why_tests_cant": "Optimality over all partitions and a guarantee over all candidate lists; the script only searches random graphs with a heuristic optimiser.", "anchors": ["experiments/modularity_nonmonotonic_K/modularity_nonmonotonic_K.py:Ks", "utilities/champ_utilities.py:CHAMP_2D", "utilities/partition_utilities.py:num_communities"]}
{"id": "C87", "title": "Estimates on real networks stay small", "statement": "On every unweighted simple or multi-graph without isolated vertices and every partition of it into K >= 2 communities, the estimated out-parameter is at most 2 and the gamma estimate, when it is a number, lies strictly between 0 and max(2, K/2); for 2 <= K <= 70 it is below 15. Hence the assertion `estimate < 15` of the SNAP figure fails exactly when some plotted partition has a NaN estimate (which happens, e.g. on a 4-cycle), and otherwise the figure's column for K holds the estimates of exactly the partitions with K communities. The figure's reference curve is the mean and the maximum of the estimate over the sampled parameter triangle, positive and below K/2, and the assertion on its value for two communities holds.", "quantifier": "all graphs, all partitions, all lists of graphs with their partitions, all K and all grid sizes >= 4", "why_tests_cant": "A bound over all graphs and partitions and an exact characterisation of an assertion failure; the repository's data sets only sample it.", "anchors": ["experiments/social_networks/SNAP_boxplot.py:generate_boxplot_results, assert, find_maximum_gammas", "utilities/parameter_estimation_utilities.py:gamma_estimate", "utilities/parameter_estimation.py:estimate_singlelayer_SBM_parameters"]}
{"id": "C88", "title": "The block models of the experiments behave as designed, in expectation", "statement": "On the expected network of the hierarchical block model (9B vertices): every vertex expects 1/2 + 3 + (6 - 6/B) = k neighbours as designed; among all partitions of the vertices the best is the whole graph for gamma <= 0.75/k, the 3-community ground truth for 0.75/k <= gamma <= 13.5/k and the 9-community one for 13.5/k <= gamma <= 54/k, uniquely strictly inside; for B >= 3 the gamma estimates of both ground truths lie strictly inside their own interval and inside the script's window, so both are stable (for B = 2 the 9-community one is not). In the reproduction of Newman's test with q >= 2 blocks: estimates are (2q/3, q/(3(q-1))), the blocks are the unique best partition between them, and the 'true gamma' of a graph with the expected number of edges exceeds the estimate by a factor below 250/249.", "quantifier": "all block sizes B, all numbers of blocks q, all resolutions, all partitions of the vertices", "why_tests_cant": "Optimality over all partitions and a statement for every size; the experiments draw a few random graphs and optimise heuristically.", "anchors": ["experiments/hierarchical_SBM_test/hierarchical_SBM_test.py:generate_hierarchical_SBM", "experiments/miscellaneous_tests/gamma_estimation_test.py:true_gamma", "utilities/parameter_estimation_utilities.py:gamma_estimate"]}
{"id": "C89", "title": "The LFR benchmark scores what it says it scores", "statement": "LFR_benchmark_igraph returns a graph with a ground truth only if the planted communities are nonempty, cover the vertices and do not overlap; the labels are then 0..K-1 and describe exactly the planted partition, whatever order Python iterates over the set of communities in; connected graphs with proper communities are always accepted. run_method: 'gamma sweep' scores every different partition found at the evenly spaced resolutions exactly once, 'ground truth gamma' those found at the ground truth's estimate; 'modularity pruning' scores only partitions found in the sweep whose own estimate lies in the window and which no partition found beats there ('... ground truth K': among those with the ground truth's number of communities); every score is in [0,1] and is 1 exactly for the ground truth's partition; if the sweep finds the ground truth and it is the best found at its own estimate inside the window, pruning reports the score 1; pruned scores are among the sweep's scores. A ground truth without estimate raises TypeError (the documented ValueError is unreachable).", "quantifier": "all graphs, planted communities, iteration orders of sets, numbers of runs, windows, results of the community detection, LP solvers", "why_tests_cant": "Quantifies over every generated graph, set iteration order and every outcome of the randomised community detection.", "anchors": ["experiments/lfr_benchmark_test/lfr_benchmark_test.py:LFR_benchmark_igraph,run_method"]}
{"id": "C90", "title": "The LFR benchmark can be interrupted and resumed", "statement": "Start generate_LFR_graphs, run_experiment or the whole LFR script any number of times, with any parameters, and kill or crash each run at any moment: every complete graph file then holds exactly the number of graphs in its name, generated for the mixing parameter in its name; every complete (partial) results file holds only finished rows - for each of its mixing parameters one result of each of the four methods for every graph of a complete graph file, all scores between 0 and 1 -; complete graph files never change; rows once stored stay first and unchanged in the partial results while that file is complete. A finished run_experiment has stored the rows it found followed by rows for the missing mixing parameters in order, and never uses the workers for rows already stored; a run killed at a moment when no file was being written and started again ends with exactly the files of the uninterrupted run (also for the whole script, which then plots the same data). What does not hold: files are not replaced atomically, so every run that stores a row passes a moment at which a crash loses all rows for good - run_experiment then raises for ever -, incomplete files are never repaired, and rows computed with other numbers of runs or graphs are silently reused.", "quantifier": "all histories of commands, all crash points, all results of the worker processes, all formattings of the mixing parameter", "why_tests_cant": "Quantifies over every crash point in every history of runs and every outcome of the randomised workers.", "anchors": ["experiments/lfr_benchmark_test/lfr_benchmark_test.py:generate_LFR_graphs,run_experiment,__main__"]}
{"id": "C91", "title": "The LFR figure shows the data it is drawn from", "statement": "For every stored result with at least one graph per mixing parameter, the figure is drawn without error: the points are at exactly the mixing parameters with at least one score, in stored order; each point has at least half of the scores at or below it and at least half at or above; at least a quarter of the scores are at or below the lower end of its bar and at least a quarter at or above the upper end; both bar lengths are nonnegative (matplotlib raises otherwise) and the bar stays within the range of the scores, so within [0,1]; the plotted probability of finding stable partitions is the share of graphs with at least one score, in [0,1], and 1 exactly if every graph has one, one value per stored mixing parameter; the four panels go to four different places. A stored mixing parameter with zero graphs raises ZeroDivisionError.", "quantifier": "all result dictionaries, in particular all those any history of interrupted runs can leave", "why_tests_cant": "Quantifies over all multisets of scores and all histories of interrupted runs.", "anchors": ["experiments/lfr_benchmark_test/lfr_benchmark_test.py:__main__"]}
{"id": "C92", "title": "An undirected graph and its directed version give the same results", "statement": "Replacing an undirected graph by igraph's to_directed() version of it (every edge becomes two opposite arcs with the attributes of the edge; for multilayer networks the intralayer graph) changes nothing a user sees: the modularity and the CHAMP coefficients of every partition are equal (2D and 3D, for 3D also when the interlayer graph is replaced), CHAMP_2D and CHAMP_3D return exactly the same domains (or raise the same exception), the block-model parameters, gamma_estimate and gamma_omega_estimate are equal for every model, prune_to_stable_partitions and prune_to_multilayer_stable_partitions return the same list of partitions and emit the same warnings. For the interlayer graph this is false: coupling given in both directions doubles the persistence the temporal and multiplex models compute.", "quantifier": "all well-formed undirected graphs and multilayer networks, weighted or not, all partitions, parameter ranges, models and external-solver answers", "why_tests_cant": "The tests compare a few random graphs up to rounding; the claim is an equality for every graph, partition and range.", "anchors": ["utilities/champ_utilities.py:CHAMP_2D, CHAMP_3D", "utilities/parameter_estimation_utilities.py:gamma_estimate, gamma_omega_estimate, prune_to_stable_partitions, prune_to_multilayer_stable_partitions", "tests/test_champ_coefficients_2D.py", "tests/test_temporal_multilevel_parameter_estimation.py"]}
{"id": "C93", "title": "Weighted networks can be pruned exactly by repeating edges", "statement": "CHAMP ignores edge weights (C57) while the estimates use them. Repeating every edge as often as its whole-number weight says (and dropping the weights) repairs this: the modularity (single-layer and multilayer) of every partition in the resulting graph is its weighted modularity in the original graph; the block-model parameters, gamma_estimate and gamma_omega_estimate are those of the weighted graph (same exceptions); weights that are whole multiples of a common unit change weighted modularity only by a constant factor. So prune_to_stable_partitions on the repeated graph returns only candidates with the largest weighted modularity at their own weighted estimate, and exactly those that qualify when candidates differ in weighted modularity; multilayer pruning likewise returns only such candidates (or ones with NaN estimate, C37).", "quantifier": "all graphs with whole-number weights or weights with a common unit, all candidate partitions, windows, models and external-solver answers", "why_tests_cant": "Relates two different inputs for every weighted graph and every candidate set.", "anchors": ["utilities/champ_utilities.py:CHAMP_2D, CHAMP_3D, partition_coefficients_2D", "utilities/parameter_estimation_utilities.py:gamma_estimate, gamma_omega_estimate, prune_to_stable_partitions, prune_to_multilayer_stable_partitions"]}
{"id": "C94", "title": "What the documented workflow guarantees", "statement": "Running repeated_parallel_leiden_from_gammas on a grid and pruning the result (the documented example): every partition printed was found by one of the runs and none of the partitions found beats it at its own estimate; with a deterministic optimiser the answer does not depend on the number of processors, the state of the worker processes, the completion order, the iteration order of the set, the LP solver, the sampler or threading; under the stated input conditions the workflow completes without an exception. If Leiden is ideal and the grid covers the window with spacing h, everything returned is within h/4 in normalised modularity of the best of ALL partitions at its own estimate (for np.linspace(a, b, n): (b-a)/(4(n-1))), and every partition that is strictly best at its own estimate and on a range at least h wide is returned (up to equal modularity). Multilayer: the same with h/4 of the intralayer plus k/4 of the interlayer total.", "quantifier": "all graphs, grids, windows, optimisers meeting the contract, processor counts, worker histories, completion orders and set orders", "why_tests_cant": "Compares with all partitions of the vertices and quantifies over every schedule of a process pool.", "anchors": ["utilities/leiden_utilities.py:repeated_parallel_leiden_from_gammas, repeated_parallel_leiden_from_gammas_omegas", "utilities/parameter_estimation_utilities.py:prune_to_stable_partitions, prune_to_multilayer_stable_partitions", "docs/source/basic_example.rst", "docs/source/basic_multilayer_example.rst", "tests/test_documentation_examples.py"]}
{"id": "C95", "title": "The synthetic temporal block models", "statement": "The generators of synthetic multilayer networks (benchmark script, test helpers, documented example): the layer vector has n vertices for each of T layers; a vertex has the label of its copy in the layer before iff its random number is below the copying probability (probability 1: all layers equal, 0: nothing copied); intralayer edges join a pair of vertices at most once, only inside a layer, and exactly if the random number is below p_in or p_out; coupling joins every vertex to its copy in the next layer and nothing else. If generate_synthetic_network returns, the network is a temporal network, the ground truth uses labels 0..K-1 and starts with K equal blocks, and its estimates exist and are within 0.005 of the wanted ones. An attempt in which the last vertex is isolated ends the generation with ValueError, a layer without edges with ZeroDivisionError, epsilon = 0 always ends in an exception, and copying probability 1 is never accepted. generate_connected_multilayer_ER loses no edge; generate_random_partition returns exactly the labels 0..K-1.", "quantifier": "all numbers of vertices, layers and communities, all probabilities and all results of the random numbers", "why_tests_cant": "The networks are random: a test sees one of them, the properties are about every outcome of the random numbers.", "anchors": ["experiments/pamfil_synthetic_networks/easy_regime_generation.py:generate_synthetic_network", "tests/shared_testing_functions.py:generate_multilayer_intralayer_SBM, generate_connected_multilayer_ER, generate_random_partition", "docs/source/basic_multilayer_example.rst"]}
{"id": "C96", "title": "The Lazega law firm network", "statement": "The multiplex network built from adjacency matrices: accepted exactly if every matrix has N rows and no entry 1 leads beyond the last vertex (otherwise AssertionError); the intralayer graph has one directed edge per entry 1 and nothing else, inside its layer if the matrices are square; a row that is too long in an earlier layer is not noticed and its entries become edges between layers; the graph has all N T vertices exactly if the last vertex has an edge, otherwise the estimates raise ValueError. The coupling graph has two self-loops at every vertex of the first layer and one edge each way between the first and every other layer, nothing between the others. The multiplex persistence measured with it is at least 1/3, is 1 exactly if the three layers agree, and exceeds the persistence over all pairs of layers by a third of the share of vertices that differ between layers two and three; with four or more communities the copying probability is positive for every partition. The self-loops add 2 N omega to the quality of every partition. The stable partitions shown are those prune_to_multilayer_stable_partitions returns on [0,2]x[0,3] with the restriction to K communities; figure 5.10 shows every vertex once.", "quantifier": "all numbers of vertices, all matrices, all partitions, all sets of Louvain partitions and all K", "why_tests_cant": "The script runs on one data set that is not in the repository; the properties are about every matrix and every partition.", "anchors": ["experiments/lazega_law_firm/lazega_figures.py:generate_lazega_igraph, run_champ_on_lazega_partitions_restricted_K, plot_figure1, plot_figure1_restricted_K, plot_figure3"]}
{"id": "C97", "title": "Experiment scripts with cached intermediate results", "statement": "Seven scripts compute a result file only if it does not exist and then load it. However often they are started in one directory, in any order, and raise or are killed at any moment: an existing file is never changed; starting from an empty directory every complete file was derived from what its source files hold now, and no file exists whose sources are incomplete. A run with no incomplete file in use succeeds, computes exactly the missing files and leaves all others alone; running it again writes nothing and shows the same. But an incomplete file in use makes every later run raise for ever; a deleted and recomputed file leaves the results derived from the old one in place; the SNAP script saves nothing before all graphs are done; three Lazega result files are never used. The scripts do not share file names.", "quantifier": "all histories of runs of the scripts, all crash points, all results of the computations (also exceptions), any number of SNAP graphs", "why_tests_cant": "Interruptions at every point between two file operations and arbitrary sequences of restarts cannot be enumerated, and the scripts run for days.", "anchors": ["experiments/pamfil_synthetic_networks/easy_regime_generation.py:__main__", "experiments/pamfil_synthetic_networks/hard_regime_generation.py:__main__", "experiments/lazega_law_firm/lazega_figures.py:__main__", "experiments/social_networks/SNAP_boxplot.py:run_louvain_if_necessary, __main__", "experiments/hierarchical_SBM_test/hierarchical_SBM_test.py", "experiments/example_figures/hierarchical_sbm_plot.py", "experiments/miscellaneous_tests/runtime_comparison_with_louvain.py"]}
{"id": "C98", "title": "The largest expected gamma estimate by number of communities", "statement": "With an exact minimiser, gamma_max(K) does not raise for K>=2 and is the least upper bound of the gamma estimates expected for K balanced assortative communities; no assortative partition with K communities of any graph with positive weights has a larger gamma estimate. gamma_max(2)=1 is not attained, for K>=3 it exceeds 1 and is attained. It lies between K(K-1)/((2K-1)log K) and K/log(K+1), is at most K/2, strictly increases with K while gamma_max(K)/K strictly decreases. The panels show central differences at the given numbers of communities; but the third panel, titled third derivative, shows second differences. The example tangents pass through the curve with the slope of the secant of the two neighbours.", "quantifier": "all numbers of communities from 2 on, all lists of numbers of communities, all graphs and partitions for the estimate bound, all step sizes, every exact minimiser", "why_tests_cant": "A supremum over all ratios and a bound over all graphs and all numbers of communities cannot be sampled; the script only draws the curve.", "anchors": ["experiments/plot_duality_details/plot_gamma_max_derivatives.py:f, gamma_max, fprime_estimate, fprime2_estimate, fprime3_estimate, plot_gamma_max_derivatives, plot_gamma_max_tangent_examples"]}
{"id": "C99", "title": "The simulation studies count what they say they count", "statement": "Bistable study: a point of the figure is produced exactly if the required number of graphs is accepted before an exception occurs, and shows the shares, among precisely the first accepted graphs, of those for which prune_to_stable_partitions (gamma in [0,2]) returns a 2-community partition, a 3-community partition, or both; hence 0<=both<=each<=1 and both>=sum-1. A graph is skipped exactly if it is not connected or a planted partition has no estimate; otherwise, with exact geometry, a pass never raises. The 45 abscissas contain four values twice. Hierarchical study: it ends with numbers exactly if nothing raises and all stable partitions have fewer than 20 communities (else AssertionError, losing everything); bar K is the number of stable K-community partitions per graph - at least the share of graphs having one, equal to it exactly if no graph has two, and it can exceed 1. The example search stops at the first graph with more than three stable partitions with at most nine communities; pictures are named by K, so only the last with that K survives. Karate club: the pictures show what prune_to_stable_partitions returns with restrict_num_communities 2, 3, 4; none overwrites another.", "quantifier": "all sequences of random graphs and Louvain results (canonical partitions), all numbers of trials, all set orders and environments, all exception positions", "why_tests_cant": "The studies depend on random graphs and run for hours; a counting error or an endless loop shows only on particular sequences of graphs.", "anchors": ["experiments/bistable_SBM/bistable_SBM_test_constant_probs.py:generate_bistable_SBM_test_output", "experiments/hierarchical_SBM_test/hierarchical_SBM_test.py:run_CHAMP, find_example_with_4_stable_partitions, find_stability_probabilities", "experiments/karate_club_test/karate_club_test.py:plot_stable_partitions"]}
{"id": "C100", "title": "The sweeps over starting values record exactly the results of the calls", "statement": "Karate club figures: for every method, run_estimation_until_convergence records for every starting value in order one entry per call that returned (10 calls for louvain, 1 otherwise), skipping ValueErrors; any other exception ends the run, and no sweep ends with a ValueError. The two lists have equal length and every final value is the gamma estimate of a partition the optimiser found. plot_one_step_estimation draws an arrow at a starting value exactly if some step from it succeeded, from (g,g) to the average of the estimates of the partitions found at g. With an unsupported method both return empty results without an error. Study per number of communities: ValueError if no run succeeded, AssertionError if an estimate lies outside (0.6,1.6); otherwise one histogram per K in 2..9 that occurs, whose 99 heights are the shares of the runs with K communities with the estimate in the bin and add up to 1; runs with 1 or more than 9 communities are not shown. Pamfil grid: 225 points in order; at each point at most five differences, each to the gamma and omega estimate of a partition found at exactly that point on the actual layers of the network, whatever happened before in the process; the arrow covers a tenth of the way to the average, and is NaN if all five calls failed.", "quantifier": "all graphs, methods, starting values, behaviours of the optimiser, histories of the process and results of the runs", "why_tests_cant": "The optimiser is random and the sweeps make hundreds of thousands of calls sharing one graph object and one cache; which calls fail cannot be controlled in a test.", "anchors": ["experiments/karate_club_gamma_estimates/karate_club_gamma_estimates.py:run_estimation_until_convergence, plot_one_step_estimation", "experiments/karate_club_gamma_estimates/karate_club_estimates_per_community.py:one_run", "experiments/pamfil_synthetic_networks/easy_regime_generation.py:run_pamfil_iteration, plot_pamfil_iteration"]}
{"id": "C101", "title": "The package's own randomised checks accept every correct result, and only those", "statement": "The assertions of the repository's randomised tests, as functions of their inputs. Single-layer coefficients: the check passes iff every A_hat and P_hat agrees up to 0.5e-10 with the within-community adjacency sum and the null-model sum of the graph without weights, otherwise AssertionError; so it accepts what partition_coefficients_2D returns on every graph with an edge, for every worker count and completion order, and rejects it (NaN) on every edgeless graph. Multilayer coefficients: the same for A_hat, P_hat, C_hat on unweighted multilayer networks, in every state of the process, including the alternate computation of P_hat from the induced layer subgraphs. Ranges: the check passes iff at each gamma some range contains it and the partition of the first such range is optimal up to 0.5e-10; so it accepts CHAMP_2D's result at all gammas of the window. Domains: the point test with >= 0 decides membership in the closed polygon for clockwise polygons (and in its interior for counterclockwise ones); the check passes iff each point lies in a polygon and the partition of the first such polygon is optimal up to 0.5e-10; so it accepts CHAMP_3D's result at all points of the window. On weighted networks the multilayer check rejects correct coefficients, because multilayer_leiden_part uses weights and CHAMP does not.", "quantifier": "all graphs, partitions, candidate results (right or wrong), query points, worker counts, completion orders and reachable states of the process", "why_tests_cant": "These are the tests: each run of them only compares some random graphs; which results they would let through, and whether they can ever fail on correct ones, is not something they can tell.", "anchors": ["tests/test_champ_coefficients_2D.py:assert_partition_coefficient_correctness", "tests/test_champ_coefficients_3D.py:assert_partition_coefficient_correctness", "tests/test_champ_usage_2D.py:assert_best_partitions_match_champ_set", "tests/test_champ_usage_3D.py:point_is_inside_champ_domain, assert_best_partitions_match_champ_set", "utilities/leiden_utilities.py:leiden_part, leiden_part_with_membership, multilayer_leiden_part, multilayer_leiden_part_with_membership"]}
{"id": "C102", "title": "The directed-consistency tests accept the estimators, and notice less than they seem to", "statement": "assert_almost_equal_or_both_none_or_nan passes exactly if both arguments are None, both NaN, both the same infinity, or numbers that agree up to 0.5e-10, and raises TypeError exactly if only the second is None. For every undirected graph and membership the single-layer directed-consistency test passes if gamma_estimate returns and otherwise raises its exception; the multiplex and the temporal/multilevel tests on every multilayer network with undirected intralayer edges and every list of partitions likewise only ever fail with an exception of gamma_omega_estimate. But to_directed() changes the graph in place: after the first comparison a comparison passes for every estimator, right or wrong, that returns; so the multiplex test passes iff its comparison on the first partition does, and the temporal test passes iff the temporal comparison on the first partition does, even if the multilevel estimates are replaced by an arbitrary function.", "quantifier": "all graphs, layer vectors, lists of partitions, models, and all estimators", "why_tests_cant": "A test cannot tell what it would fail to notice; and that the estimates agree for every graph cannot be sampled.", "anchors": ["tests/shared_testing_functions.py:assert_almost_equal_or_both_none_or_nan", "tests/test_monolayer_parameter_estimation.py:test_directed_consistency_igraph_famous", "tests/test_multiplex_parameter_estimation.py:test_directed_consistency_multiplex_SBM_leiden", "tests/test_temporal_multilevel_parameter_estimation.py:test_directed_consistency_temporal_SBM_leiden"]}
{"id": "C103", "title": "The timeout of the LFR generation stops every generation that hangs, and what it costs", "statement": "A function decorated with timeout(s), s > 0, that contains no handler and no other decorated call: if it ends (and the alarm is cancelled) before the limit the caller gets its outcome as if there were no timeout, otherwise TimeoutError at the limit, also if the function would never end; an alarm set before the call has no influence. Whatever the function does, no alarm is pending once the call has ended. timeout(0) is no timeout. A decorated function that calls another decorated function loses its own limit, and so does code that catches the TimeoutError. A worker with k generations is done after k times the limit. The loop gets the graphs of a round iff no generation of the round timed out; if in every round one hangs it never gets any.", "quantifier": "all durations, limits, moments at which the signal arrives (also while the alarm is being cancelled), nestings of decorated calls and handlers, and sequences of rounds", "why_tests_cant": "When the signal arrives, and which generations hang, depends on timing and random numbers.", "anchors": ["experiments/lfr_benchmark_test/lfr_benchmark_test.py:timeout, trial, generate_LFR_graphs"]}
{"id": "C104", "title": "The data files of the experiments are read completely, and what the reading depends on", "statement": "A well-formed SNAP edge list (comment lines with #, lines with two numbers separated by blanks or tabs) or comma separated edge list (header lines containing 'node') is read as the largest connected component \u2013 the one with the smallest vertex if there are several \u2013 of exactly the links in the file, each as often as it is there, also if it is there in both directions; the graph is connected, undirected and unweighted, and its vertices occur in the file if any link joins two different vertices. A line of blanks makes either format fail. read_graphs raises FileNotFoundError iff one of the sixteen files is missing; otherwise it returns one graph for every non-hidden *.txt and *.csv file, sorted by number of vertices, independent of the order in which the directory is listed if these numbers differ \u2013 but not if two files of the same kind tie, and one more small file shifts all others, so that parts{i}.p of an earlier run belongs to another graph. The Lazega matrices are read as written, in the order advice, friendship, work, and FileNotFoundError is raised iff one of the four files is missing.", "quantifier": "all texts, all sets of links, all directories and all orders in which they are listed", "why_tests_cant": "Texts and directories are unbounded, and the order of a directory listing is up to the operating system.", "anchors": ["experiments/social_networks/SNAP_boxplot.py:read_file, read_graphs", "experiments/lazega_law_firm/lazega_figures.py:adjacency_from_dat, generate_lazega_igraph"]}
{"id": "C105", "title": "The Louvain sweep over a SNAP network keeps what was found before the first partition with more than 100 communities", "statement": "run_louvain returns a set of partitions iff there is an n between 1 and 1000 such that the first n of the 1000 runs with gamma evenly spaced from 0 to 10 found at most 100 communities each and the next one, if any, more than 100; the set then consists of the canonical tuples of these n partitions: it is not empty, and every member is a canonical partition of all vertices into 1 to 100 communities. What later runs would find has no influence. If the run with gamma = 0 finds more than 100 communities there is a ZeroDivisionError, which has no other cause. run_louvain_if_necessary computes exactly the missing results, each from the runs on its own graph.", "quantifier": "all results of the Louvain runs, all sets of existing files", "why_tests_cant": "The optimiser is randomised; its results cannot be enumerated.", "anchors": ["experiments/social_networks/SNAP_boxplot.py:run_louvain, run_louvain_if_necessary"]}
{"id": "C106", "title": "The table of similarities between the Lazega partitions and the lawyers' attributes", "statement": "For an attribute file with one row of at least eight numbers per person and partitions of the nodes of the three layers with communities numbered from 0, print_metadata_nmis shows for every partition the number of communities and the normalised mutual information with office, practice, age in five-year bins, years with the firm in five-year bins, status, gender and law school, where node v has the attributes of person v mod N. A partition of another number of nodes is a ValueError, a blank line in the file an IndexError.", "quantifier": "all attribute files, all partitions", "why_tests_cant": "Files and partitions are unbounded.", "anchors": ["experiments/lazega_law_firm/lazega_figures.py:print_metadata_nmis", "utilities/partition_utilities.py:nmi, num_communities"]}
{"id": "C107", "title": "The worked example of CHAMP draws the upper envelope, if its assumption holds", "statement": "sample_partitions returns four partitions, made at 0.5, 1.0, 1.5, 2.0; at 1.0 the worst of the runs, elsewhere the best. Left and centre panel: every point is at the modularity (over 2m) of its partition, on the line of that partition. If the partitions sampled at 0.5, 1.5, 2.0 are strictly the best there and the one sampled at 1.0 is nowhere the best, the right panel's bands tile the window, every segment lies on the upper envelope of the four lines, every resolution is on a segment and the vertical lines end on the envelope. If instead all four are optimal at their resolution, the panel is drawn without complaint but a segment passes strictly below the envelope at 1.0 and nothing is drawn from 2.0 on. With fewer than three ranges of optimality IndexError is raised.", "quantifier": "every graph with an edge, all results of the optimiser, every exact solver", "why_tests_cant": "The partitions are random, and the figure is looked at, not tested.", "anchors": ["experiments/example_figures/plot_champ_example.py:sample_partitions, plot_left_panel, plot_center_panel, plot_right_panel"]}
{"id": "C108", "title": "The randomised CHAMP tests pass for every random choice, and when not", "statement": "generate_connected_ER returns the first connected graph drawn, generate_random_partitions as many partitions as requested with labels exactly 0..K-1, generate_random_values values in the interval. Once they have returned: the 2D coefficient test and the CHAMP_2D test pass for every n >= 2, m, number of partitions and communities, window, directed or not; the tests on famous graphs pass for every undirected graph with an edge before and after to_directed. The 3D coefficient test passes iff every layer has an edge inside and raises AssertionError otherwise, although the graph as a whole is connected; the CHAMP_3D test passes iff also the windows are non-empty and (directed graphs) every optimal input at (gamma_start, omega_end) has a positive null-model sum or an interlayer edge inside, and raises ValueError otherwise. With fewer than n-1 edges (n, if directed) the generator never returns.", "quantifier": "all sequences of random choices, sizes, windows, worker counts and process states", "why_tests_cant": "The tests run with one seed; that they cannot fail for another is a statement about all.", "anchors": ["tests/shared_testing_functions.py:generate_connected_ER, generate_connected_multilayer_ER, generate_random_values, generate_random_partitions", "tests/test_champ_coefficients_2D.py", "tests/test_champ_usage_2D.py", "tests/test_champ_coefficients_3D.py", "tests/test_champ_usage_3D.py"]}
{"id": "C109", "title": "The documentation examples and the tests that run them", "statement": "The planted labels of the documented multilayer network are blocks of n // K vertices in every layer but the last, which has one community; if K does not divide n there are more than K communities; K = 0 or K > n is a ZeroDivisionError. A pair of vertices of a layer is joined exactly if its random number is below p_in (same planted community, or last layer) or p_out. If every layer and the last vertex have an edge it is a temporal network; if the last vertex has none the example never produces a result. The sweep and the pruning return if Leiden does, unless a partition found is one of those for which the estimation fails (C69). If the example ends, every stable partition was found by a run and is not beaten at its estimates, and the verdict of the test holds: it passes exactly if in every 3-community partition the most common communities of neighbouring blocks differ, some partition has more than 90% of the last layer in one community and some has less than half of it in every one; otherwise AssertionError. The first and third block are never compared. The documented plot of estimates is made; its segments are exactly the ranges of optimality of the partitions found, at the height of their numbers of communities, and cover the window.", "quantifier": "all sizes, probabilities, random numbers, executions (workers, schedules, set orders, solvers) and optimisers", "why_tests_cant": "The tests run the examples once per seed and look only at the verdict; what the example guarantees is about all executions.", "anchors": ["docs/source/basic_multilayer_example.rst", "docs/source/plotting_examples.rst", "tests/test_documentation_examples.py:generate_basic_multilayer_network, test_basic_multilayer_example, test_plot_estimates_example"]}
{"id": "C110", "title": "The convergence tests of the parameter estimation", "statement": "The coupling of the multiplex test joins every vertex to its copy in every other layer, once, and nothing else. The drawn networks are accepted by the estimation exactly if there are at least two layers, every layer has an edge and the last vertex has one; otherwise the run raises before any optimisation. The true values of the tests are the logarithmic mean of the connection probabilities relative to 2mT/N^2, and log(1 + cK/(1-c)) over scale times log(p_in/p_out), independent of the network; they are what the library's own formulas give for the planted parameters, except that the multiplex formula returns omega_max if theta_in is exactly 1. A copying probability of 1, or p_in = p_out, is a ZeroDivisionError. On the networks of the test the temporal and the multilevel model estimate the same parameters from every partition. In every process the tests pass exactly if the runs return numbers within the tolerances; if they pass, the network was usable and the runs found partitions whose estimates are near the true ones, in both models; and they do pass if every partition Leiden finds is such a one. The single-layer test passes only if for each of Newman's networks a partition was found whose gamma estimate is within 0.05 of the planted logarithmic mean.", "quantifier": "all sizes, probabilities, random numbers, optimisers and process histories", "why_tests_cant": "The tests draw a few networks and compare once; that the value they compare with is the planted one, when they can pass at all, and what a pass shows concern all networks and all outcomes of Leiden.", "anchors": ["tests/test_monolayer_parameter_estimation.py", "tests/test_multiplex_parameter_estimation.py", "tests/test_temporal_multilevel_parameter_estimation.py", "utilities/parameter_estimation.py:iterative_multilayer_resolution_parameter_estimation"]}
{"id": "C111", "title": "The parallel performance tests", "statement": "The tests measure how much faster a mock calculation is per unit in the pool once per process: every test, in any order and number, is judged with the speed-up and the threshold (50% if the machine was busy, 75% otherwise) determined at the first one, however the machine behaves later. A clock that reports 0 for the pool is a ZeroDivisionError; nothing is cached then, but a lowered threshold stays. The single-layer sweep in the pool makes cpu times as many runs over the same interval; the multilayer one makes floor(n sqrt(cpu)) values per parameter over the same rectangle, at least as many as in the serial sweep and exactly cpu times as many grid points if cpu is a square; the reported figure is in each case the speed-up per run divided by the target, and failures of the sweeps are propagated. If the optimiser never fails, the number of processors cancels: the test passes exactly if duration/pool_duration exceeds the threshold times base/pool of the mock. So a pool that works one run after the other fails wherever the mock became at least twice as fast, a pool as good as the mock passes, and where the mock gained nothing a serial pool passes too.", "quantifier": "all numbers of processors, clock readings, utilisations, sweeps, orders of tests and completion orders", "why_tests_cant": "The tests run on one machine with one clock; what their verdict means, and that it is the same for every order of tests and every number of processors, concerns all machines and timings.", "anchors": ["tests/test_parallel_leiden_performance.py"]}
{"id": "C112", "title": "The legacy Louvain partition objects", "statement": "multilayer_louvain_part returns an object for the intralayer graph with its layers at resolution 1 and one for the interlayer graph at resolution 0, every vertex alone; multilayer_louvain_part_with_membership stores the given membership in both, exactly if it has one entry per vertex of both graphs (ValueError otherwise). Whether or not they return, both graphs have weights afterwards (1 where they had none) and are otherwise unchanged; a second call changes nothing more. Without the package they raise NameError, without multilayer support AttributeError, after the weights were added, whereas multilayer_louvain leaves the graphs alone then. The test of the deprecated names passes exactly if the new module has the five replacements, so in every installation; the multilayer names remain the legacy functions.", "quantifier": "all graphs, layer assignments, memberships, installations and module tables", "why_tests_cant": "The repository tests only the names; what the functions do to the caller's graphs in each installation, and for each failure, concerns all inputs.", "anchors": ["utilities/louvain_utilities.py:multilayer_louvain_part", "utilities/louvain_utilities.py:multilayer_louvain_part_with_membership", "utilities/louvain_utilities.py:multilayer_louvain", "tests/test_deprecated_louvain_names.py"]}
{"id": "C113", "title": "The figures of domains with estimates", "statement": "generate_domains_with_estimates (easy regime) and the Lazega figures compute, whenever they return, one domain for each partition found - with the wanted number of communities; None and 0 mean any - that is strictly best somewhere inside the window, up to equal modularity: the domain is exactly the set of points where the partition is best, the domains cover the window and overlap in boundaries only, and the estimates are those of gamma_omega_estimate in the temporal or multiplex model. A domain of a K-community partition among all partitions lies within a domain of figure 5.6 for K. Figures 5.4 and 5.6 show these regions with coupling horizontally and resolution vertically and leave no gap. Figures 5.7 and 5.8 leave out partitions without gamma estimate - all whose communities are joined by no edge - so the inside of their domains stays blank. The score and community-number figures show the domains with a corner in view, with the right values; the markers of figure 5.8 are at the estimates (omega cut off at 2.99) of the partitions best there, and at NaN for NaN estimates; figure 5.3 shows an arrow per grid point and the estimate of the planted partition.", "quantifier": "all networks, partitions, restrictions, set iteration orders, sound LP solvers and random colours", "why_tests_cant": "That the drawn polygons tile the window, nest under restriction and lie under their markers are statements about every point of the plane for every network.", "anchors": ["experiments/pamfil_synthetic_networks/easy_regime_generation.py:generate_domains_with_estimates", "experiments/pamfil_synthetic_networks/easy_regime_generation.py:plot_domains", "experiments/pamfil_synthetic_networks/easy_regime_generation.py:plot_domains_with_amis", "experiments/pamfil_synthetic_networks/easy_regime_generation.py:plot_domains_with_Ks", "experiments/pamfil_synthetic_networks/easy_regime_generation.py:plot_domains_restricted_communities", "experiments/lazega_law_firm/lazega_figures.py:run_champ_on_lazega_partitions", "experiments/lazega_law_firm/lazega_figures.py:plot_figure1", "experiments/lazega_law_firm/lazega_figures.py:plot_figure2"]}
{"id": "C114", "title": "The documented plots of two-dimensional domains", "statement": "The documented sweep - CHAMP_3D - domains_to_gamma_omega_estimates sequence computes, whenever it returns, the domains of the partitions found by the runs: each belongs to a partition found, is the set of points of the window at which no partition found is better, and together they cover the window; it returns on an unweighted temporal network with exact solvers unless a partition found has a failing estimate. Because the plots use the very window given to CHAMP_3D, all four plotting functions draw all domains, the same polygons in the same order with coupling horizontally, leaving no gap (the loss of domains of C67 cannot happen); domains sharing a corner get different colours; the scores and numbers of communities are those of the partitions; arrows are drawn exactly for the domains whose estimates are numbers inside the window, from the mean of the corners to the estimates. The ground truth scored against is the planted partition of the example network.", "quantifier": "all networks, grids, windows, optimiser outcomes, worker schedules and histories, random colours and score functions", "why_tests_cant": "The statements range over every point of the window, every schedule of the workers and every outcome of the optimiser; the documentation test only runs the calls and looks at nothing they draw.", "anchors": ["tests/test_documentation_examples.py:TestDocumentationExamples.test_plot_2d_domains_examples", "docs/source/plotting_examples.rst", "utilities/plotting.py:plot_2d_domains", "utilities/plotting.py:plot_2d_domains_with_estimates", "utilities/plotting.py:plot_2d_domains_with_ami", "utilities/plotting.py:plot_2d_domains_with_num_communities"]}
{"id": "C115", "title": "Sampling the largest expected gamma estimates; figures 6.1 - 6.3", "statement": "compute_and_print_maximum_gamma_estimates always ends: it prints between 2 and 25 rounds, round k with 1024*2^k sample points, each value being the largest of the estimates expected at the sample points, and it stops exactly at the first two consecutive rounds whose values all differ by less than 1e-6. A sampled maximum never exceeds the least upper bound of the estimates expected for K communities and misses it by at most the fraction 2K^2/(n-1) (K>=3); for K=2 it lies in [1-1e-9, 1). The least upper bound for three communities is 1.0926 to four decimals, but strictly above 1.0926. In figures 6.2/6.3 the line of two communities touches the contour of 1 exactly at (1,1) and is below it elsewhere; that of three communities is below the contour of 1.09265 everywhere but crosses the drawn contour of 1.0926 at a drawn abscissa; the filled areas contain the estimated parameters of every partition into K communities of every positively weighted network within the limits of the axes. Figure 6.1 draws expected estimates only.", "quantifier": "all numbers of sample points, communities, ratios and parameters; all networks and partitions for the filled areas; the unbounded loop", "why_tests_cant": "Termination of the loop and the distance to the true supremum concern all ratios; no run can show that the supremum over a continuum is 1.0926 to four decimals.", "anchors": ["experiments/plot_duality_details/plot_maximum_gamma_estimates.py:compute_and_print_maximum_gamma_estimates", "experiments/plot_duality_details/plot_maximum_gamma_estimates_in_omega_space.py:parametric_omega", "experiments/plot_duality_details/plot_maximum_gamma_estimates_general.py:plot_figure1", "experiments/plot_duality_details/plot_maximum_gamma_estimates_general.py:plot_figure2"]}
{"id": "C116", "title": "The figures of the gamma/omega duality (A.1, A.2)", "statement": "In the left panel of figure A.1 a point whose gamma estimate is the number g lies, at every drawn abscissa, in the band of colour 3i/10 exactly if 3i/10 <= g <= 3(i+1)/10; the ten bands are non-empty, stacked without gap or overlap from the axis to above the plot, so that every point of the plot is coloured. In the right panel every labelled curve passes exactly through the points whose estimate is the label, meets the diagonal only at (label, label) and is symmetric about it. In figure A.2 the band labelled gamma +- 0.1 contains exactly the points whose estimates differ from gamma by at most 0.1, the curve of gamma runs strictly inside, and the bands do not overlap.", "quantifier": "all drawn abscissas and all ordinates (a continuum), every sound implementation of Lambert's W", "why_tests_cant": "The statement concerns every real point of the plane; the script only draws.", "anchors": ["experiments/plot_duality_details/plot_gamma_omega_duality.py:plot_figure1", "experiments/plot_duality_details/plot_gamma_omega_duality.py:plot_figure2", "experiments/plot_duality_details/plot_gamma_omega_duality.py:plot_figure3"]}
{"id": "C117", "title": "Calls through the deprecated names reach the function with the arguments meant", "statement": "A call of a function goes through exactly if its arguments can be bound to the parameters (otherwise TypeError), and the parameters then have exactly these values. In every installation a call through an old single-layer Louvain name reaches the Leiden function and goes through exactly if that function takes the arguments; multilayer names reach the legacy functions. All calls of the experiments go through, except the call with the keyword chunk_dispatch, which the Leiden functions do not have: it raises TypeError for every graph and all resolution parameters, so that the hierarchical study (example search and stability probabilities) and the runtime comparison end at their first Louvain run. Without that keyword the runtime comparison finishes exactly if all runs and prunings do and lists durations and numbers of distinct partitions. The simple benchmark makes the passes up to the first that takes the time limit, with numbers of runs growing by half.", "quantifier": "all signatures and argument lists, installations, graphs, resolution parameters, optimisers, clocks", "why_tests_cant": "The tests only compare the function objects behind the names; no test calls the experiments, and no finite set of calls covers all argument lists.", "anchors": ["utilities/louvain_utilities.py:__getattr__", "utilities/leiden_utilities.py:repeated_parallel_leiden_from_gammas", "experiments/hierarchical_SBM_test/hierarchical_SBM_test.py:run_louvain", "experiments/miscellaneous_tests/runtime_comparison_with_louvain.py:generate_runtimes", "experiments/miscellaneous_tests/simple_benchmark.py:test"]}
{"id": "C118", "title": "Raising the resolution trades edges within communities; the number of ranges and domains is bounded by the edges", "statement": "Along the ranges returned by CHAMP_2D, from low to high resolution, the null-model sum strictly decreases and, on a window without negative resolutions, so does the number of edges within communities. Hence CHAMP_2D never returns more than one range more than the graph has edges, and prune_to_stable_partitions never more partitions, in the order of decreasing numbers of internal edges, however many partitions they are given. Successive ranges meet where both partitions have the same modularity, at the quotient of the differences of their sums. On a window from 0 the first range belongs to a partition with the most internal edges; on a connected graph that is the partition into one community, if given. No two domains of CHAMP_3D have the same numbers of internal intralayer and interlayer edges, so there are at most (m+1)(m'+1) of them, and prune_to_multilayer_stable_partitions returns no more.", "quantifier": "all graphs, sets of partitions, windows, LP solvers and iteration orders of sets", "why_tests_cant": "Tests compare a few ranges with brute force; a bound on the number of ranges for every set of partitions cannot be tested.", "anchors": ["utilities/champ_utilities.py:CHAMP_2D", "utilities/champ_utilities.py:CHAMP_3D", "utilities/parameter_estimation_utilities.py:prune_to_stable_partitions", "utilities/parameter_estimation_utilities.py:prune_to_multilayer_stable_partitions"]}
{"id": "C119", "title": "Two communities are joined or kept apart according to the edges between them (resolution limit)", "statement": "Joining two communities changes the modularity compared by CHAMP by the edges between them (twice, if undirected; interlayer edges times omega) less gamma times the number the null model expects. Hence, on an undirected graph, with e edges between two communities of degree sums k and l, the range CHAMP_2D returns for a partition starts at 2me/(kl) or later if the partition with the two joined was given too, and the range of the joined partition ends there or earlier if the partition with the two apart was given; the same inequality holds in directed graphs, at every point of a domain of CHAMP_3D, and at the own estimate of every partition returned by prune_to_stable_partitions. In particular, on windows without negative resolutions neither CHAMP nor the pruning functions return a partition with a community pieced together from two parts that no edge connects but the null model expects some, if the partition with the two apart was given.", "quantifier": "all graphs (directed and undirected), multilayer networks, sets of partitions, windows, LP solvers, iteration orders of sets", "why_tests_cant": "A relation between the parameters returned and the edges between any two communities of any partition of any graph.", "anchors": ["utilities/champ_utilities.py:CHAMP_2D", "utilities/champ_utilities.py:CHAMP_3D", "utilities/parameter_estimation_utilities.py:prune_to_stable_partitions", "utilities/parameter_estimation_utilities.py:prune_to_multilayer_stable_partitions"]}
{"id": "C120", "title": "CHAMP may be run in batches; pruning in batches keeps too much", "statement": "CHAMP_2D and CHAMP_3D can be run in batches or as new partitions arrive: running them on the partitions they returned for the batches gives the same ranges (domains, as sets of points) as running them on everything at once, with partitions of the same modularity, and CHAMP in batches followed by the pruning functions returns the partitions that pruning everything at once returns, if different partitions have different coefficients. Running prune_to_stable_partitions on the batches and again on the rest loses no partition that pruning everything at once returns, but can return partitions that pruning everything at once does not.", "quantifier": "all graphs (directed, undirected, weighted), multilayer networks, sets of partitions, ways of cutting them into (overlapping) batches, windows, LP solvers, iteration orders of sets, schedules", "why_tests_cant": "Quantifies over all ways of cutting any set of partitions into batches and compares several runs.", "anchors": ["utilities/champ_utilities.py:CHAMP_2D", "utilities/champ_utilities.py:CHAMP_3D", "utilities/parameter_estimation_utilities.py:prune_to_stable_partitions", "utilities/parameter_estimation_utilities.py:prune_to_multilayer_stable_partitions"]}
{"id": "C121", "title": "Vertices without edges never matter to CHAMP, but make pruning fail", "statement": "Partitions that group the vertices with edges in the same way have the same modularity at every resolution (multilayer modularity, if they agree on the vertices with an intralayer or interlayer edge), so CHAMP_2D, CHAMP_3D and prune_to_stable_partitions return at most one of them, and on unweighted undirected graphs they have the same gamma estimate or none; adding isolated vertices and putting them into any communities leaves the list of ranges of CHAMP_2D unchanged. But on a graph connected up to isolated vertices, with a window containing resolution 0, prune_to_stable_partitions raises ZeroDivisionError whenever some partition given has no edge between its communities and all such partitions given have at least two communities \u2013 for example when the isolated vertices are communities of their own, which is what community detection returns at small resolutions.", "quantifier": "all graphs with isolated vertices, multilayer networks, sets of partitions, windows, numbers of added vertices, LP solvers, iteration orders of sets", "why_tests_cant": "Relates all partitions of any graph that differ in isolated vertices, and any graph to all its extensions; tests use graphs without isolated vertices.", "anchors": ["utilities/champ_utilities.py:CHAMP_2D", "utilities/champ_utilities.py:CHAMP_3D", "utilities/parameter_estimation_utilities.py:prune_to_stable_partitions", "utilities/parameter_estimation_utilities.py:estimate_singlelayer_SBM_parameters", "utilities/parameter_estimation_utilities.py:gamma_estimate"]}
{"id": "C122", "title": "Results depend on the network only, not on how its edges are stored", "statement": "Reversing all edges of a directed graph, repeating every edge k times (and dropping the weights), or replacing an undirected graph by the directed one with both directions of every edge multiplies the modularity of every partition at every resolution by a constant. Hence CHAMP_2D returns the same list of ranges with partitions of the same modularity; unweighted graphs that also agree with directions forgotten give every partition the same gamma estimate or none, so prune_to_stable_partitions keeps the same set of partitions. With k times the intralayer and l times the interlayer edges, CHAMP_3D on the window with omega divided by l/k returns as many domains, each the original one with its omega axis divided by l/k, and with a partition of the same multilayer modularity.", "quantifier": "all pairs of graphs (directed or not) with proportional adjacencies, sets of partitions, windows, LP solvers, multiplicities k and l", "why_tests_cant": "Relates the results on any graph to those on all graphs with proportional edge multiplicities; tests run on one stored form.", "anchors": ["utilities/champ_utilities.py:CHAMP_2D", "utilities/champ_utilities.py:CHAMP_3D", "utilities/champ_utilities.py:partition_coefficients_2D", "utilities/parameter_estimation_utilities.py:prune_to_stable_partitions", "utilities/parameter_estimation_utilities.py:gamma_estimate"]}
{"id": "C123", "title": "Rounding errors move the results of CHAMP_2D and CHAMP_3D only by a bounded amount", "statement": "If the coefficients that CHAMP_2D works with are off by relative errors of at most u (rounding to doubles: u = 2^-53), the returned ranges still tile the window exactly; throughout its range every returned partition has a modularity within 2u(1+|gamma|) (as a fraction of the total of the adjacency matrix) of the best modularity of any input; an input that beats all others by more than that at some resolution inside the window is returned with a range containing it; where two ranges meet, the modularities of their partitions differ by at most that much, so that the breakpoint is within 2u(1+gamma) times the squared total of the resolution where they are equal, if their slopes differ. For CHAMP_3D likewise: the returned domains still cover the window, throughout its domain every returned partition has a multilayer modularity within 2u((1+|gamma|) T_intra + |omega| T_inter) of the best (T the totals of the adjacency matrices), and a clearer optimum is returned with a domain containing the point. With an exact LP solver the rounded computation returns whenever the exact one is known to.", "quantifier": "all rounding functions with relative error u, and all arrays of coefficients with absolute errors; all graphs, sets of partitions, windows, LP solvers", "why_tests_cant": "Bounds the effect of every rounding on every input; a test sees the rounding of one machine on a few inputs and compares with results that are themselves rounded.", "anchors": ["utilities/champ_utilities.py:CHAMP_2D", "utilities/champ_utilities.py:partition_coefficients_2D_serial", "utilities/champ_utilities.py:halfspaces_from_coefficients_2D", "utilities/champ_utilities.py:CHAMP_3D"]}
{"id": "C124", "title": "Raising the coupling keeps more interlayer edges within communities", "statement": "Of two domains of CHAMP_3D that contain points with the same resolution, the one at the larger omega has a partition with at least as many interlayer edges within communities and at most the intralayer modularity; if the numbers of interlayer edges are equal, the partitions are equally good at both points. At the same omega, a larger resolution gives at most as large a null model sum and at most as many edges within communities (interlayer ones weighted by omega). Beyond omega = (1 + |gamma|) times the total of the intralayer adjacency matrix, the partition of the domain keeps the largest number of interlayer edges within communities of all inputs, and is the best within the layers among those. The estimates of the partitions returned by the multilayer pruning obey the same law.", "quantifier": "all multilayer graphs, sets of partitions, windows, points of the domains, LP solvers, schedules; all models and estimates for pruning", "why_tests_cant": "A monotonicity along every line through the plane of parameters, for all inputs; tests look at single points.", "anchors": ["utilities/champ_utilities.py:CHAMP_3D", "utilities/parameter_estimation_utilities.py:prune_to_multilayer_stable_partitions"]}
{"id": "C125", "title": "Pruning with rounded numbers errs only near the boundary", "statement": "Let all coefficients of prune_to_stable_partitions be off by relative errors of at most u and the gamma estimates by at most v (doubles: about 2^-53 and a small multiple of it). Then every returned partition is an input and, at its exact estimate, at most margin(u, v, gamma) = 2u(1 + (1+v)|gamma|) + v|gamma| (as a fraction of the total of the adjacency matrix) worse than the best of all inputs; an input that beats all other inputs at its exact estimate by more than this margin, with the rounded estimate inside the window, is returned. With an exact LP solver it returns whenever the exact computation is known to.", "quantifier": "all rounding functions with relative errors u and v, graphs, sets of partitions, windows, restrictions, LP solvers, set orders, schedules", "why_tests_cant": "Bounds the effect of every rounding on the set of returned partitions; a test sees the rounding of one machine.", "anchors": ["utilities/parameter_estimation_utilities.py:prune_to_stable_partitions", "utilities/parameter_estimation_utilities.py:ranges_to_gamma_estimates", "utilities/champ_utilities.py:CHAMP_2D"]}
{"id": "C126", "title": "Multilayer pruning with rounded numbers errs only near the boundary", "statement": "Let all coefficients of prune_to_multilayer_stable_partitions be off by relative errors of at most u and the estimates of gamma and omega by at most v. Then every returned partition is an input whose resolution estimate is undefined (C37) or that is, at its exact estimates (omega cut off at the window), at most margin3D(u, v) = 2u((1+(1+v)|gamma|) T_intra + (|omega|+v|omega_0|) T_inter) + v(|gamma| T_intra + |omega_0| T_inter) worse than the best of all inputs (omega_0 the estimate before it is cut off, T the totals of the adjacency matrices); an input that beats all other inputs at its exact estimates by more than this, with the rounded estimates strictly inside the window, is returned. With an exact LP solver it returns unless the estimate of some input raises an exception.", "quantifier": "all rounding functions with relative errors u and v, multilayer graphs, models, sets of partitions, windows, restrictions, LP solvers, set orders, schedules", "why_tests_cant": "Bounds the effect of every rounding on the set of returned partitions; a test sees the rounding of one machine.", "anchors": ["utilities/parameter_estimation_utilities.py:prune_to_multilayer_stable_partitions", "utilities/parameter_estimation_utilities.py:domains_to_gamma_omega_estimates", "utilities/champ_utilities.py:CHAMP_3D"]}
{"id": "C127", "title": "Beyond which resolutions partitions become trivial", "statement": "Suppose the null model expects some edge between any two vertices, and at the resolution Gamma no two vertices are linked by more edges than it expects (in a simple undirected graph without isolated vertices: Gamma is the largest 2m/(k_i k_j) over the edges; the total of the adjacency matrix always suffices). If the partition into single vertices is among the inputs, every other range returned by CHAMP_2D ends at Gamma or earlier, and every other partition returned by prune_to_stable_partitions has an estimate of at most Gamma, so that a window beyond Gamma adds nothing else. At the other end, in a connected undirected graph with m edges, a partition into K communities cuts at least K-1 edges; if the partition into one community is among the inputs, the range of a partition into K >= 2 communities starts at K/m or later, and if prune_to_stable_partitions returns it its estimate is at least K/m: at resolution gamma there are never more than gamma m communities. In a multilayer network whose edges together connect the vertices, if the partition into one community is among the inputs, a domain of CHAMP_3D containing (gamma, omega), both not negative, has a partition into K communities only if K-1 times the smaller of the weights of an intralayer edge and an interlayer edge (1 and omega, twice if undirected) is at most gamma times the total of the intralayer adjacency matrix, and so have the partitions returned by prune_to_multilayer_stable_partitions at their own estimates.", "quantifier": "all graphs, bounds Gamma, sets of partitions, windows, restrictions, LP solvers, set orders, schedules", "why_tests_cant": "A bound over all graphs and sets of partitions; tests look at some partitions of some graphs.", "anchors": ["utilities/champ_utilities.py:CHAMP_2D", "utilities/champ_utilities.py:CHAMP_3D", "utilities/parameter_estimation_utilities.py:prune_to_stable_partitions", "utilities/parameter_estimation_utilities.py:prune_to_multilayer_stable_partitions"]}
