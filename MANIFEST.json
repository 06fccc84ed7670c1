{
 "claims": [
  {
   "property": "C01",
   "status": "proved",
   "theorems": [
    "Verif.Props.c01_sorted_tuple_preserves_partition"
   ],
   "note": ""
  },
  {
   "property": "C02",
   "status": "proved",
   "theorems": [
    "Verif.Props.c02_sorted_tuple_canonical"
   ],
   "note": ""
  },
  {
   "property": "C03",
   "status": "proved",
   "theorems": [
    "Verif.Props.c03_memoisation_transparent",
    "Verif.Props.c03_sorted_tuple_memoised"
   ],
   "note": ""
  },
  {
   "property": "C04",
   "status": "proved",
   "theorems": [
    "Verif.Props.c04_num_communities",
    "Verif.Props.c04_num_communities_canonical"
   ],
   "note": ""
  },
  {
   "property": "C05",
   "status": "proved",
   "theorems": [
    "Verif.Props.c05_communities",
    "Verif.Props.c05_layered_communities"
   ],
   "note": ""
  },
  {
   "property": "C06",
   "status": "proved",
   "theorems": [
    "Verif.Props.c06_coefficients_undirected"
   ],
   "note": ""
  },
  {
   "property": "C07",
   "status": "proved",
   "theorems": [
    "Verif.Props.c07_coefficients_directed"
   ],
   "note": ""
  },
  {
   "property": "C08",
   "status": "proved",
   "theorems": [
    "Verif.Props.c08_coefficients_multilayer"
   ],
   "note": ""
  },
  {
   "property": "C09",
   "status": "proved",
   "theorems": [
    "Verif.Props.c09_coefficients_label_invariant",
    "Verif.Props.c09_sorted_tuple_keeps_coefficients"
   ],
   "note": ""
  },
  {
   "property": "C10",
   "status": "proved",
   "theorems": [
    "Verif.Props.c10_coefficient_bounds"
   ],
   "note": ""
  },
  {
   "property": "C11",
   "status": "proved",
   "theorems": [
    "Verif.Props.c11_parallel_2D",
    "Verif.Props.c11_parallel_3D"
   ],
   "note": ""
  },
  {
   "property": "C12",
   "status": "proved",
   "theorems": [
    "Verif.Props.c12_failures_2D",
    "Verif.Props.c12_failures_3D"
   ],
   "note": ""
  },
  {
   "property": "C13",
   "status": "proved",
   "theorems": [
    "Verif.Props.c13_returned_point_is_interior",
    "Verif.Props.c13_other_dimensions_rejected"
   ],
   "note": ""
  },
  {
   "property": "C14",
   "status": "proved",
   "theorems": [
    "Verif.Props.c14_terminates",
    "Verif.Props.c14_default_arguments",
    "Verif.Props.c14_zero_samples_diverges"
   ],
   "note": ""
  },
  {
   "property": "C15",
   "status": "proved",
   "theorems": [
    "Verif.Props.c15_exact_solver",
    "Verif.Props.c15_unbounded_raises",
    "Verif.Props.c15_impossible_reported",
    "Verif.Props.c15_exact_solver_exists"
   ],
   "note": ""
  },
  {
   "property": "C16",
   "status": "proved",
   "theorems": [
    "Verif.Props.c16_encoding_2D",
    "Verif.Props.c16_encoding_3D"
   ],
   "note": ""
  },
  {
   "property": "C17",
   "status": "proved",
   "theorems": [
    "Verif.Props.c17_ranges_correct",
    "Verif.Props.c17_returns",
    "Verif.Props.c17_empty_window_raises",
    "Verif.Props.c17_directed_singletons_raise",
    "Verif.Props.c17_returns_iff",
    "Verif.Props.c17_returns_connected",
    "Verif.Props.c17_edgeless"
   ],
   "note": ""
  },
  {
   "property": "C18",
   "status": "proved",
   "theorems": [
    "Verif.Props.c18_ranges_cover"
   ],
   "note": ""
  },
  {
   "property": "C19",
   "status": "proved",
   "theorems": [
    "Verif.Props.c19_sorted_tiling"
   ],
   "note": ""
  },
  {
   "property": "C20",
   "status": "proved",
   "theorems": [
    "Verif.Props.c20_no_duplicates",
    "Verif.Props.c20_returned_strictly_optimal",
    "Verif.Props.c20_strictly_optimal_returned"
   ],
   "note": ""
  },
  {
   "property": "C21",
   "status": "proved",
   "theorems": [
    "Verif.Props.c21_domains_correct",
    "Verif.Props.c21_returns",
    "Verif.Props.c21_returns_iff",
    "Verif.Props.c21_empty_layer"
   ],
   "note": ""
  },
  {
   "property": "C22",
   "status": "proved",
   "theorems": [
    "Verif.Props.c22_domains_cover",
    "Verif.Props.c22_domains_disjoint",
    "Verif.Props.c22_strictly_optimal_returned"
   ],
   "note": ""
  },
  {
   "property": "C23",
   "status": "proved",
   "theorems": [
    "Verif.Props.c23_boundary_order"
   ],
   "note": ""
  },
  {
   "property": "C24",
   "status": "proved",
   "theorems": [
    "Verif.Props.c24_sbm_matches_champ",
    "Verif.Props.c24_direction_ignored"
   ],
   "note": ""
  },
  {
   "property": "C25",
   "status": "proved",
   "theorems": [
    "Verif.Props.c25_zero_division",
    "Verif.Props.c25_no_isolated_vertices"
   ],
   "note": ""
  },
  {
   "property": "C26",
   "status": "proved",
   "theorems": [
    "Verif.Props.c26_logarithmic_mean"
   ],
   "note": ""
  },
  {
   "property": "C27",
   "status": "proved",
   "theorems": [
    "Verif.Props.c27_degenerate_estimates"
   ],
   "note": ""
  },
  {
   "property": "C28",
   "status": "proved",
   "theorems": [
    "Verif.Props.c28_multilayer_sbm_matches_champ",
    "Verif.Props.c28_empty_layer"
   ],
   "note": ""
  },
  {
   "property": "C29",
   "status": "proved",
   "theorems": [
    "Verif.Props.c29_copying_probability",
    "Verif.Props.c29_estimate_in_unit_interval"
   ],
   "note": ""
  },
  {
   "property": "C30",
   "status": "proved",
   "theorems": [
    "Verif.Props.c30_multiplex_probability",
    "Verif.Props.c30_one_community"
   ],
   "note": ""
  },
  {
   "property": "C31",
   "status": "proved",
   "theorems": [
    "Verif.Props.c31_persistence_is_fraction",
    "Verif.Props.c31_multilevel_persistence"
   ],
   "note": ""
  },
  {
   "property": "C32",
   "status": "proved",
   "theorems": [
    "Verif.Props.c32_temporal_omega",
    "Verif.Props.c32_multiplex_omega",
    "Verif.Props.c32_omega_increasing"
   ],
   "note": ""
  },
  {
   "property": "C33",
   "status": "partial",
   "theorems": [
    "Verif.Props.c33_omega_max_partial",
    "Verif.Props.c33_not_bounded"
   ],
   "note": "False of the code as stated: c33_not_bounded exhibits parameters whose temporal and multiplex estimates exceed omega_max=1000. c33_omega_max_partial gives the exact condition under which the bound holds."
  },
  {
   "property": "C34",
   "status": "proved",
   "theorems": [
    "Verif.Props.c34_model_dispatch",
    "Verif.Props.c34_persistence_dispatch"
   ],
   "note": ""
  },
  {
   "property": "C35",
   "status": "proved",
   "theorems": [
    "Verif.Props.c35_single_layer_filter"
   ],
   "note": ""
  },
  {
   "property": "C36",
   "status": "proved",
   "theorems": [
    "Verif.Props.c36_point_in_polygon",
    "Verif.Props.c36_in_order",
    "Verif.Props.c36_degenerate_polygons",
    "Verif.Props.c36_infinite",
    "Verif.Props.c36_both_infinite"
   ],
   "note": ""
  },
  {
   "property": "C37",
   "status": "partial",
   "theorems": [
    "Verif.Props.c37_pipeline_returns_nan",
    "Verif.Props.c37_none_not_stable_partial",
    "Verif.Props.c37_nan_is_stable"
   ],
   "note": "c37_none_not_stable_partial: a domain whose gamma or omega estimate is None is never stable. The stronger reading (undefined, i.e. NaN, estimates are never stable) is false of the code: c37_nan_is_stable."
  },
  {
   "property": "C38",
   "status": "proved",
   "theorems": [
    "Verif.Props.c38_sound",
    "Verif.Props.c38_no_duplicates",
    "Verif.Props.c38_estimate_formula"
   ],
   "note": ""
  },
  {
   "property": "C39",
   "status": "proved",
   "theorems": [
    "Verif.Props.c39_unique_coefficients",
    "Verif.Props.c39_characterisation",
    "Verif.Props.c39_complete",
    "Verif.Props.c39_returns"
   ],
   "note": ""
  },
  {
   "property": "C40",
   "status": "proved",
   "theorems": [
    "Verif.Props.c40_labels_duplicates_order",
    "Verif.Props.c40_up_to_coefficients",
    "Verif.Props.c40_multilayer"
   ],
   "note": ""
  },
  {
   "property": "C41",
   "status": "proved",
   "theorems": [
    "Verif.Props.c41_fewer_competitors",
    "Verif.Props.c41_fewer_competitors_exact",
    "Verif.Props.c41_idempotent",
    "Verif.Props.c41_multilayer_fewer_competitors",
    "Verif.Props.c41_multilayer_idempotent"
   ],
   "note": ""
  },
  {
   "property": "C42",
   "status": "proved",
   "theorems": [
    "Verif.Props.c42_number_of_communities",
    "Verif.Props.c42_same_as_filtering",
    "Verif.Props.c42_empty",
    "Verif.Props.c42_multilayer",
    "Verif.Props.c42_multilayer_empty"
   ],
   "note": ""
  },
  {
   "property": "C43",
   "status": "proved",
   "theorems": [
    "Verif.Props.c43_sound",
    "Verif.Props.c43_no_duplicates",
    "Verif.Props.c43_returns",
    "Verif.Props.c43_raises"
   ],
   "note": ""
  },
  {
   "property": "C44",
   "status": "proved",
   "theorems": [
    "Verif.Props.c44_unique_coefficients",
    "Verif.Props.c44_characterisation"
   ],
   "note": ""
  },
  {
   "property": "C45",
   "status": "proved",
   "theorems": [
    "Verif.Props.c45_single_threaded"
   ],
   "note": ""
  },
  {
   "property": "C46",
   "status": "proved",
   "theorems": [
    "Verif.Props.c46_iteration",
    "Verif.Props.c46_at_most_max_iter",
    "Verif.Props.c46_returns_estimate_of_partition",
    "Verif.Props.c46_verbose",
    "Verif.Props.c46_unsupported_method",
    "Verif.Props.c46_returns",
    "Verif.Props.c46_fixed_point"
   ],
   "note": ""
  },
  {
   "property": "C47",
   "status": "proved",
   "theorems": [
    "Verif.Props.c47_iteration",
    "Verif.Props.c47_returns_estimates_of_partition",
    "Verif.Props.c47_malformed",
    "Verif.Props.c47_unknown_model_error",
    "Verif.Props.c47_unknown_model"
   ],
   "note": ""
  },
  {
   "property": "C48",
   "status": "proved",
   "theorems": [
    "Verif.Props.c48_independent_of_history",
    "Verif.Props.c48_zero_iterations"
   ],
   "note": ""
  },
  {
   "property": "C49",
   "status": "proved",
   "theorems": [
    "Verif.Props.c49_reports_violated_rules",
    "Verif.Props.c49_passes_iff",
    "Verif.Props.c49_accepts_iff"
   ],
   "note": ""
  },
  {
   "property": "C50",
   "status": "proved",
   "theorems": [
    "Verif.Props.c50_no_crash"
   ],
   "note": ""
  },
  {
   "property": "C51",
   "status": "proved",
   "theorems": [
    "Verif.Props.c51_batch_size",
    "Verif.Props.c51_serial",
    "Verif.Props.c51_parallel",
    "Verif.Props.c51_order_irrelevant",
    "Verif.Props.c51_parallel_eq_serial",
    "Verif.Props.c51_no_duplicates",
    "Verif.Props.c51_grid",
    "Verif.Props.c51_multilayer_serial",
    "Verif.Props.c51_multilayer_parallel",
    "Verif.Props.c51_multilayer_parallel_eq_serial"
   ],
   "note": ""
  },
  {
   "property": "C52",
   "status": "proved",
   "theorems": [
    "Verif.Props.c52_chunks",
    "Verif.Props.c52_result",
    "Verif.Props.c52_irrelevant",
    "Verif.Props.c52_serial",
    "Verif.Props.c52_installation",
    "Verif.Props.c52_empty",
    "Verif.Props.c52_chunk_count",
    "Verif.Props.c52_progress"
   ],
   "note": ""
  },
  {
   "property": "C53",
   "status": "proved",
   "theorems": [
    "Verif.Props.c53_split",
    "Verif.Props.c53_short"
   ],
   "note": ""
  },
  {
   "property": "C54",
   "status": "partial",
   "theorems": [
    "Verif.Props.c54_reflects_graph_partial",
    "Verif.Props.c54_other_key_partial",
    "Verif.Props.c54_same_key",
    "Verif.Props.c54_stale"
   ],
   "note": "False in general: lru_cache is keyed on igraph Edge objects (graph object and index), so in-place changes of weights or endpoints are not noticed (c54_stale, c54_same_key). Proved: correct after every history without in-place modification, and after any history whose calls had other keys."
  },
  {
   "property": "C55",
   "status": "proved",
   "theorems": [
    "Verif.Props.c55_multilayer_objective",
    "Verif.Props.c55_same_optimum",
    "Verif.Props.c55_singlelayer_objective",
    "Verif.Props.c55_weighted_differs"
   ],
   "note": ""
  },
  {
   "property": "C56",
   "status": "proved",
   "theorems": [
    "Verif.Props.c56_gamma_estimate",
    "Verif.Props.c56_gamma_omega_estimate",
    "Verif.Props.c56_no_default",
    "Verif.Props.c56_singlelayer_leiden",
    "Verif.Props.c56_multilayer_leiden",
    "Verif.Props.c56_iterations"
   ],
   "note": ""
  },
  {
   "property": "C57",
   "status": "partial",
   "theorems": [
    "Verif.Props.c57_champ",
    "Verif.Props.c57_unweighted_partial",
    "Verif.Props.c57_multilayer_partial",
    "Verif.Props.c57_graph_partial",
    "Verif.Props.c57_weights_matter",
    "Verif.Props.c57_weights_lost"
   ],
   "note": "False of the code: on a graph with weights other than 1 either the gamma estimates use them and change the result (c57_weights_matter) or, if igraph's membership test denies them, they are overwritten (c57_weights_lost). Proved: CHAMP ignores all weights; both pipelines return the same on graphs that count as unweighted; multilayer pruning ignores interlayer weights; exact effect on the caller's graph."
  },
  {
   "property": "C58",
   "status": "partial",
   "theorems": [
    "Verif.Props.c58_forward",
    "Verif.Props.c58_own",
    "Verif.Props.c58_other_names_give_none",
    "Verif.Props.c58_lookup_partial",
    "Verif.Props.c58_capabilities_partial",
    "Verif.Props.c58_missing_package"
   ],
   "note": "Two clauses are false of the code: unknown names without 'louvain' are silently None (c58_other_names_give_none), and without the package the check raises NameError even with fatal=False (c58_missing_package). Proved: the forwarding, and the exact conditions under which lookups and checks raise."
  },
  {
   "property": "C59",
   "status": "proved",
   "theorems": [
    "Verif.Props.c59_adjacent_domains_differ",
    "Verif.Props.c59_only_value_error",
    "Verif.Props.c59_returns",
    "Verif.Props.c59_too_many_neighbours",
    "Verif.Props.c59_touching_domains_share_vertex",
    "Verif.Props.c59_champ_domains"
   ],
   "note": ""
  },
  {
   "property": "C60",
   "status": "partial",
   "theorems": [
    "Verif.Props.c60_arrays_partial",
    "Verif.Props.c60_uneven_layers_partial",
    "Verif.Props.c60_documented_types",
    "Verif.Props.c60_documented_types_wrong",
    "Verif.Props.c60_mixed_types"
   ],
   "note": "False for the documented argument types (tuple and list): layer_vec == layer is False, so every cell shows the community of vertex 0 (c60_documented_types, c60_documented_types_wrong). Proved: correct for numpy arrays with equal layer sizes; unequal sizes raise ValueError; mixed types raise."
  },
  {
   "property": "C61",
   "status": "proved",
   "theorems": [
    "Verif.Props.c61_arrows",
    "Verif.Props.c61_returns",
    "Verif.Props.c61_dots"
   ],
   "note": ""
  },
  {
   "property": "C62",
   "status": "proved",
   "theorems": [
    "Verif.Props.c62_new",
    "Verif.Props.c62_increment",
    "Verif.Props.c62_width",
    "Verif.Props.c62_monotone",
    "Verif.Props.c62_done",
    "Verif.Props.c62_exact",
    "Verif.Props.c62_one_step",
    "Verif.Props.c62_increments",
    "Verif.Props.c62_zero"
   ],
   "note": ""
  },
  {
   "property": "C63",
   "status": "proved",
   "theorems": [
    "Verif.Props.c63_single_layer",
    "Verif.Props.c63_multilayer",
    "Verif.Props.c63_single_vertex",
    "Verif.Props.c63_single_threaded"
   ],
   "note": ""
  },
  {
   "property": "C64",
   "status": "proved",
   "theorems": [
    "Verif.Props.c64_beats_trivial_partitions"
   ],
   "note": ""
  },
  {
   "property": "C65",
   "status": "proved",
   "theorems": [
    "Verif.Props.c65_partition_object_raises"
   ],
   "note": ""
  },
  {
   "property": "C66",
   "status": "proved",
   "theorems": [
    "Verif.Props.c66_arrows",
    "Verif.Props.c66_inside_window",
    "Verif.Props.c66_returns"
   ],
   "note": ""
  },
  {
   "property": "C67",
   "status": "partial",
   "theorems": [
    "Verif.Props.c67_num_communities_partial",
    "Verif.Props.c67_ami_partial",
    "Verif.Props.c67_returns",
    "Verif.Props.c67_covering_domain_missing"
   ],
   "note": "False as stated: a domain that meets (or covers) the window without having a vertex in it is not drawn (c67_covering_domain_missing). Proved: exactly the domains with a vertex in the window are drawn, with their values; exact conditions for returning."
  },
  {
   "property": "C68",
   "status": "proved",
   "theorems": [
    "Verif.Props.c68_warned",
    "Verif.Props.c68_warns",
    "Verif.Props.c68_unwarned",
    "Verif.Props.c68_silent_truncation"
   ],
   "note": ""
  },
  {
   "property": "C69",
   "status": "proved",
   "theorems": [
    "Verif.Props.c69_temporal_estimates",
    "Verif.Props.c69_outcome",
    "Verif.Props.c69_has_estimates",
    "Verif.Props.c69_has_nan",
    "Verif.Props.c69_fails_iff",
    "Verif.Props.c69_returns",
    "Verif.Props.c69_raises"
   ],
   "note": ""
  },
  {
   "property": "C70",
   "status": "proved",
   "theorems": [
    "Verif.Props.c70_duality",
    "Verif.Props.c70_involution",
    "Verif.Props.c70_diagonal",
    "Verif.Props.c70_bands"
   ],
   "note": ""
  },
  {
   "property": "C71",
   "status": "proved",
   "theorems": [
    "Verif.Props.c71_possible_parameters",
    "Verif.Props.c71_maximum_gamma"
   ],
   "note": ""
  },
  {
   "property": "C72",
   "status": "proved",
   "theorems": [
    "Verif.Props.c72_single_layer",
    "Verif.Props.c72_multilayer",
    "Verif.Props.c72_gamma_estimate",
    "Verif.Props.c72_gamma_omega_estimate"
   ],
   "note": ""
  },
  {
   "property": "C73",
   "status": "proved",
   "theorems": [
    "Verif.Props.c73_single_layer",
    "Verif.Props.c73_multilayer",
    "Verif.Props.c73_gamma_estimate",
    "Verif.Props.c73_gamma_omega_estimate"
   ],
   "note": ""
  },
  {
   "property": "C74",
   "status": "proved",
   "theorems": [
    "Verif.Props.c74_ranges_are_clipped",
    "Verif.Props.c74_prune",
    "Verif.Props.c74_prune_up_to_coefficients",
    "Verif.Props.c74_multilayer",
    "Verif.Props.c74_domains_are_clipped"
   ],
   "note": ""
  },
  {
   "property": "C75",
   "status": "proved",
   "theorems": [
    "Verif.Props.c75_value",
    "Verif.Props.c75_range",
    "Verif.Props.c75_symmetric",
    "Verif.Props.c75_labels",
    "Verif.Props.c75_one",
    "Verif.Props.c75_zero"
   ],
   "note": ""
  },
  {
   "property": "C76",
   "status": "proved",
   "theorems": [
    "Verif.Props.c76_value",
    "Verif.Props.c76_symmetric",
    "Verif.Props.c76_labels",
    "Verif.Props.c76_chance"
   ],
   "note": ""
  },
  {
   "property": "C77",
   "status": "proved",
   "theorems": [
    "Verif.Props.c77_single",
    "Verif.Props.c77_multilayer",
    "Verif.Props.c77_unused",
    "Verif.Props.c77_wrong_T",
    "Verif.Props.c77_gamma_omega_estimate"
   ],
   "note": ""
  },
  {
   "property": "C78",
   "status": "proved",
   "theorems": [
    "Verif.Props.c78_near_optimal",
    "Verif.Props.c78_stable_is_fixed",
    "Verif.Props.c78_fixed_is_stable",
    "Verif.Props.c78_near_optimal_multilayer",
    "Verif.Props.c78_exact_leiden",
    "Verif.Props.c78_exact_multilayer"
   ],
   "note": ""
  },
  {
   "property": "C79",
   "status": "proved",
   "theorems": [
    "Verif.Props.c79_gamma_estimate",
    "Verif.Props.c79_gamma_omega_estimate",
    "Verif.Props.c79_champ2D",
    "Verif.Props.c79_champ3D",
    "Verif.Props.c79_prune",
    "Verif.Props.c79_prune_multilayer",
    "Verif.Props.c79_modularity",
    "Verif.Props.c79_multilayer_modularity"
   ],
   "note": ""
  },
  {
   "property": "C80",
   "status": "proved",
   "theorems": [
    "Verif.Props.c80_loop_found",
    "Verif.Props.c80_found_is_real",
    "Verif.Props.c80_no_loop",
    "Verif.Props.c80_pair",
    "Verif.Props.c80_pair_pruned",
    "Verif.Props.c80_pair_loops",
    "Verif.Props.c80_trial",
    "Verif.Props.c80_pair_iteration",
    "Verif.Props.c80_loop_exists",
    "Verif.Props.c80_not_settling",
    "Verif.Props.c80_bound_needed"
   ],
   "note": ""
  },
  {
   "property": "C81",
   "status": "proved",
   "theorems": [
    "Verif.Props.c81_modularity",
    "Verif.Props.c81_one_layer",
    "Verif.Props.c81_no_estimate",
    "Verif.Props.c81_prune_never_returns"
   ],
   "note": ""
  },
  {
   "property": "C82",
   "status": "proved",
   "theorems": [
    "Verif.Props.c82_grid",
    "Verif.Props.c82_agrees",
    "Verif.Props.c82_their_null",
    "Verif.Props.c82_their_null_directed"
   ],
   "note": ""
  },
  {
   "property": "C83",
   "status": "proved",
   "theorems": [
    "Verif.Props.c83_maximum_likelihood",
    "Verif.Props.c83_equivalence",
    "Verif.Props.c83_stable_partitions",
    "Verif.Props.c83_assortative",
    "Verif.Props.c83_less_likely_returned"
   ],
   "note": ""
  },
  {
   "property": "C84",
   "status": "proved",
   "theorems": [
    "Verif.Props.c84_intralayer_parameters",
    "Verif.Props.c84_copying_probability",
    "Verif.Props.c84_equivalence",
    "Verif.Props.c84_not_at_estimate"
   ],
   "note": ""
  },
  {
   "property": "C85",
   "status": "proved",
   "theorems": [
    "Verif.Props.c85_estimate_curves",
    "Verif.Props.c85_switch",
    "Verif.Props.c85_limit",
    "Verif.Props.c85_bistable",
    "Verif.Props.c85_figure"
   ],
   "note": ""
  },
  {
   "property": "C86",
   "status": "proved",
   "theorems": [
    "Verif.Props.c86_optimum",
    "Verif.Props.c86_found",
    "Verif.Props.c86_nested"
   ],
   "note": ""
  },
  {
   "property": "C87",
   "status": "proved",
   "theorems": [
    "Verif.Props.c87_theta_out",
    "Verif.Props.c87_estimate_size",
    "Verif.Props.c87_figure",
    "Verif.Props.c87_columns",
    "Verif.Props.c87_maxmean",
    "Verif.Props.c87_maximum_check"
   ],
   "note": ""
  },
  {
   "property": "C88",
   "status": "proved",
   "theorems": [
    "Verif.Props.c88_newman_true_gamma",
    "Verif.Props.c88_newman_estimate",
    "Verif.Props.c88_newman_best",
    "Verif.Props.c88_hierarchical_degrees",
    "Verif.Props.c88_hierarchical_best",
    "Verif.Props.c88_hierarchical_stable"
   ],
   "note": ""
  },
  {
   "property": "C89",
   "status": "proved",
   "theorems": [
    "Verif.Props.c89_ground_truth",
    "Verif.Props.c89_iteration_order",
    "Verif.Props.c89_accepted",
    "Verif.Props.c89_gamma_sweep",
    "Verif.Props.c89_ground_truth_gamma",
    "Verif.Props.c89_pruning",
    "Verif.Props.c89_pruning_K",
    "Verif.Props.c89_errors",
    "Verif.Props.c89_pruned_scores_in_sweep",
    "Verif.Props.c89_recovers",
    "Verif.Props.c89_returns"
   ],
   "note": ""
  },
  {
   "property": "C90",
   "status": "proved",
   "theorems": [
    "Verif.Props.c90_files_sound",
    "Verif.Props.c90_files_kept",
    "Verif.Props.c90_generate",
    "Verif.Props.c90_finished",
    "Verif.Props.c90_resume_skips",
    "Verif.Props.c90_resume_same",
    "Verif.Props.c90_script_resume_same",
    "Verif.Props.c90_experiment_returns",
    "Verif.Props.c90_script_returns",
    "Verif.Props.c90_torn_forever",
    "Verif.Props.c90_rows_lost",
    "Verif.Props.c90_stale",
    "Verif.Props.c90_stored_scores"
   ],
   "note": ""
  },
  {
   "property": "C91",
   "status": "proved",
   "theorems": [
    "Verif.Props.c91_shows",
    "Verif.Props.c91_panel",
    "Verif.Props.c91_positions",
    "Verif.Props.c91_stored"
   ],
   "note": ""
  },
  {
   "property": "C92",
   "status": "proved",
   "theorems": [
    "Verif.Props.c92_coefficients_2D",
    "Verif.Props.c92_coefficients_3D",
    "Verif.Props.c92_champ2D",
    "Verif.Props.c92_champ3D",
    "Verif.Props.c92_modularity",
    "Verif.Props.c92_multilayer_modularity",
    "Verif.Props.c92_single_layer",
    "Verif.Props.c92_multilayer",
    "Verif.Props.c92_gamma_estimate",
    "Verif.Props.c92_gamma_omega_estimate",
    "Verif.Props.c92_prune",
    "Verif.Props.c92_prune_multilayer",
    "Verif.Props.c92_prune_warned",
    "Verif.Props.c92_prune_multilayer_warned",
    "Verif.Props.c92_persistence_doubles"
   ],
   "note": ""
  },
  {
   "property": "C93",
   "status": "proved",
   "theorems": [
    "Verif.Props.c93_modularity",
    "Verif.Props.c93_multilayer_modularity",
    "Verif.Props.c93_single_layer",
    "Verif.Props.c93_multilayer",
    "Verif.Props.c93_gamma_estimate",
    "Verif.Props.c93_gamma_omega_estimate",
    "Verif.Props.c93_unit",
    "Verif.Props.c93_prune_sound",
    "Verif.Props.c93_prune_exact",
    "Verif.Props.c93_prune_multilayer_sound"
   ],
   "note": ""
  },
  {
   "property": "C94",
   "status": "proved",
   "theorems": [
    "Verif.Props.c94_sound",
    "Verif.Props.c94_schedule",
    "Verif.Props.c94_schedule_unweighted",
    "Verif.Props.c94_returns",
    "Verif.Props.c94_linspace",
    "Verif.Props.c94_gap",
    "Verif.Props.c94_documented",
    "Verif.Props.c94_complete",
    "Verif.Props.c94_complete_range",
    "Verif.Props.c94_exact_is_ideal",
    "Verif.Props.c94_multilayer_sound",
    "Verif.Props.c94_multilayer_schedule",
    "Verif.Props.c94_multilayer_gap",
    "Verif.Props.c94_exact_is_ideal_multilayer"
   ],
   "note": ""
  },
  {
   "property": "C95",
   "status": "proved",
   "theorems": [
    "Verif.Props.c95_layers",
    "Verif.Props.c95_labels",
    "Verif.Props.c95_label_range",
    "Verif.Props.c95_full_copying",
    "Verif.Props.c95_no_copying",
    "Verif.Props.c95_edges",
    "Verif.Props.c95_extremes",
    "Verif.Props.c95_coupling",
    "Verif.Props.c95_balanced",
    "Verif.Props.c95_temporal",
    "Verif.Props.c95_isolated",
    "Verif.Props.c95_empty_layer",
    "Verif.Props.c95_accepts",
    "Verif.Props.c95_benchmark",
    "Verif.Props.c95_rounds",
    "Verif.Props.c95_aborts",
    "Verif.Props.c95_zero_epsilon",
    "Verif.Props.c95_full_copying_rejected",
    "Verif.Props.c95_split",
    "Verif.Props.c95_random_partition",
    "Verif.Props.c95_random_partition_returns",
    "Verif.Props.c95_test_model",
    "Verif.Props.c95_test_model_edges"
   ],
   "note": ""
  },
  {
   "property": "C96",
   "status": "proved",
   "theorems": [
    "Verif.Props.c96_accepts",
    "Verif.Props.c96_intralayer",
    "Verif.Props.c96_square",
    "Verif.Props.c96_long_row",
    "Verif.Props.c96_last_vertex",
    "Verif.Props.c96_coupling",
    "Verif.Props.c96_persistence",
    "Verif.Props.c96_copying",
    "Verif.Props.c96_spurious_coupling",
    "Verif.Props.c96_self_loops",
    "Verif.Props.c96_pipeline",
    "Verif.Props.c96_markers",
    "Verif.Props.c96_sort",
    "Verif.Props.c96_figure"
   ],
   "note": ""
  },
  {
   "property": "C97",
   "status": "proved",
   "theorems": [
    "Verif.Props.c97_kept",
    "Verif.Props.c97_provenance",
    "Verif.Props.c97_completes",
    "Verif.Props.c97_rerun",
    "Verif.Props.c97_torn_forever",
    "Verif.Props.c97_stale",
    "Verif.Props.c97_all_or_nothing",
    "Verif.Props.c97_scripts",
    "Verif.Props.c97_unused"
   ],
   "note": ""
  },
  {
   "property": "C98",
   "status": "proved",
   "theorems": [
    "Verif.Props.c98_maximum",
    "Verif.Props.c98_estimates",
    "Verif.Props.c98_attained",
    "Verif.Props.c98_bounds",
    "Verif.Props.c98_monotone",
    "Verif.Props.c98_panels",
    "Verif.Props.c98_third_panel",
    "Verif.Props.c98_tangent"
   ],
   "note": ""
  },
  {
   "property": "C99",
   "status": "proved",
   "theorems": [
    "Verif.Props.c99_hierarchical_library",
    "Verif.Props.c99_karate_library",
    "Verif.Props.c99_planted",
    "Verif.Props.c99_trial",
    "Verif.Props.c99_trial_returns",
    "Verif.Props.c99_skipped",
    "Verif.Props.c99_counts",
    "Verif.Props.c99_bounds",
    "Verif.Props.c99_abscissas",
    "Verif.Props.c99_probabilities",
    "Verif.Props.c99_bars",
    "Verif.Props.c99_at_least_share",
    "Verif.Props.c99_above_one",
    "Verif.Props.c99_assertion",
    "Verif.Props.c99_pictures",
    "Verif.Props.c99_search",
    "Verif.Props.c99_one_picture",
    "Verif.Props.c99_karate_pictures"
   ],
   "note": ""
  },
  {
   "property": "C100",
   "status": "proved",
   "theorems": [
    "Verif.Props.c100_until_convergence",
    "Verif.Props.c100_final_values",
    "Verif.Props.c100_exceptions",
    "Verif.Props.c100_one_step",
    "Verif.Props.c100_step_estimate",
    "Verif.Props.c100_arrow_tip",
    "Verif.Props.c100_unknown_method",
    "Verif.Props.c100_one_run",
    "Verif.Props.c100_grid",
    "Verif.Props.c100_grid_size",
    "Verif.Props.c100_grid_arrow",
    "Verif.Props.c100_per_K"
   ],
   "note": ""
  },
  {
   "property": "C101",
   "status": "proved",
   "theorems": [
    "Verif.Props.c101_coefficients_2D_meaning",
    "Verif.Props.c101_coefficients_2D_accepted",
    "Verif.Props.c101_edgeless_rejected",
    "Verif.Props.c101_coefficients_3D_meaning",
    "Verif.Props.c101_coefficients_3D_accepted",
    "Verif.Props.c101_ranges_meaning",
    "Verif.Props.c101_ranges_accepted",
    "Verif.Props.c101_point_test",
    "Verif.Props.c101_domains_meaning",
    "Verif.Props.c101_domains_accepted",
    "Verif.Props.c101_weighted_rejected"
   ],
   "note": ""
  },
  {
   "property": "C102",
   "status": "proved",
   "theorems": [
    "Verif.Props.c102_assertion",
    "Verif.Props.c102_gamma_accepted",
    "Verif.Props.c102_multiplex_accepted",
    "Verif.Props.c102_temporal_accepted",
    "Verif.Props.c102_gamma_meaning",
    "Verif.Props.c102_compare_meaning",
    "Verif.Props.c102_library_settles",
    "Verif.Props.c102_directed_blind",
    "Verif.Props.c102_first_only",
    "Verif.Props.c102_multilevel_untested"
   ],
   "note": ""
  },
  {
   "property": "C103",
   "status": "proved",
   "theorems": [
    "Verif.Props.c103_limit",
    "Verif.Props.c103_hang",
    "Verif.Props.c103_alarm_cleared",
    "Verif.Props.c103_zero",
    "Verif.Props.c103_nested",
    "Verif.Props.c103_swallowed",
    "Verif.Props.c103_worker",
    "Verif.Props.c103_round",
    "Verif.Props.c103_starves"
   ],
   "note": ""
  },
  {
   "property": "C104",
   "status": "proved",
   "theorems": [
    "Verif.Props.c104_tsv",
    "Verif.Props.c104_csv",
    "Verif.Props.c104_vertices",
    "Verif.Props.c104_blank_line",
    "Verif.Props.c104_int",
    "Verif.Props.c104_negative",
    "Verif.Props.c104_missing",
    "Verif.Props.c104_graphs",
    "Verif.Props.c104_order",
    "Verif.Props.c104_ties",
    "Verif.Props.c104_unexpected",
    "Verif.Props.c104_writable",
    "Verif.Props.c104_matrix",
    "Verif.Props.c104_lazega"
   ],
   "note": ""
  },
  {
   "property": "C105",
   "status": "proved",
   "theorems": [
    "Verif.Props.c105_run",
    "Verif.Props.c105_zero",
    "Verif.Props.c105_partitions",
    "Verif.Props.c105_stops",
    "Verif.Props.c105_missing"
   ],
   "note": ""
  },
  {
   "property": "C106",
   "status": "proved",
   "theorems": [
    "Verif.Props.c106_table",
    "Verif.Props.c106_wrong_length",
    "Verif.Props.c106_blank_line"
   ],
   "note": ""
  },
  {
   "property": "C107",
   "status": "proved",
   "theorems": [
    "Verif.Props.c107_sample",
    "Verif.Props.c107_sample_returns",
    "Verif.Props.c107_right",
    "Verif.Props.c107_all_optimal_wrong",
    "Verif.Props.c107_too_few",
    "Verif.Props.c107_left_center"
   ],
   "note": ""
  },
  {
   "property": "C108",
   "status": "proved",
   "theorems": [
    "Verif.Props.c108_connected",
    "Verif.Props.c108_partitions",
    "Verif.Props.c108_values",
    "Verif.Props.c108_too_few_edges",
    "Verif.Props.c108_coefficients_2D",
    "Verif.Props.c108_champ_2D",
    "Verif.Props.c108_famous_coefficients",
    "Verif.Props.c108_famous_champ",
    "Verif.Props.c108_coefficients_3D",
    "Verif.Props.c108_champ_3D"
   ],
   "note": ""
  },
  {
   "property": "C109",
   "status": "proved",
   "theorems": [
    "Verif.Props.c109_verdict",
    "Verif.Props.c109_third_block_unchecked",
    "Verif.Props.c109_labels",
    "Verif.Props.c109_blocks",
    "Verif.Props.c109_too_many",
    "Verif.Props.c109_network",
    "Verif.Props.c109_isolated",
    "Verif.Props.c109_completes",
    "Verif.Props.c109_example",
    "Verif.Props.c109_plot_estimates"
   ],
   "note": ""
  },
  {
   "property": "C110",
   "status": "proved",
   "theorems": [
    "Verif.Props.c110_multiplex_coupling",
    "Verif.Props.c110_accepted",
    "Verif.Props.c110_multilevel_is_temporal",
    "Verif.Props.c110_truth",
    "Verif.Props.c110_truth_is_estimate",
    "Verif.Props.c110_truth_errors",
    "Verif.Props.c110_assertion",
    "Verif.Props.c110_temporal_verdict",
    "Verif.Props.c110_multiplex_verdict",
    "Verif.Props.c110_temporal_pass",
    "Verif.Props.c110_multiplex_pass",
    "Verif.Props.c110_temporal_suffices",
    "Verif.Props.c110_multiplex_suffices",
    "Verif.Props.c110_newman"
   ],
   "note": ""
  },
  {
   "property": "C111",
   "status": "proved",
   "theorems": [
    "Verif.Props.c111_target",
    "Verif.Props.c111_measured_once",
    "Verif.Props.c111_clock_stands_still",
    "Verif.Props.c111_singlelayer",
    "Verif.Props.c111_singlelayer_verdict",
    "Verif.Props.c111_serial_pool_fails",
    "Verif.Props.c111_good_pool_passes",
    "Verif.Props.c111_serial_pool_passes",
    "Verif.Props.c111_pool_length",
    "Verif.Props.c111_multilayer"
   ],
   "note": ""
  },
  {
   "property": "C112",
   "status": "proved",
   "theorems": [
    "Verif.Props.c112_effect",
    "Verif.Props.c112_unsupported",
    "Verif.Props.c112_part",
    "Verif.Props.c112_with_membership",
    "Verif.Props.c112_rejected",
    "Verif.Props.c112_idempotent",
    "Verif.Props.c112_run_effect",
    "Verif.Props.c112_names",
    "Verif.Props.c112_modules"
   ],
   "note": ""
  },
  {
   "property": "C113",
   "status": "proved",
   "theorems": [
    "Verif.Props.c113_easy_domains",
    "Verif.Props.c113_lazega_domains",
    "Verif.Props.c113_restricted_contains",
    "Verif.Props.c113_easy_figure",
    "Verif.Props.c113_easy_no_gap",
    "Verif.Props.c113_lazega_figure",
    "Verif.Props.c113_lazega_gap",
    "Verif.Props.c113_no_estimate",
    "Verif.Props.c113_values",
    "Verif.Props.c113_markers",
    "Verif.Props.c113_stable_figures",
    "Verif.Props.c113_dots",
    "Verif.Props.c113_values_return",
    "Verif.Props.c113_easy_returns",
    "Verif.Props.c113_iteration_figure"
   ],
   "note": ""
  },
  {
   "property": "C114",
   "status": "proved",
   "theorems": [
    "Verif.Props.c114_domains",
    "Verif.Props.c114_completes",
    "Verif.Props.c114_plots",
    "Verif.Props.c114_arrows",
    "Verif.Props.c114_cover",
    "Verif.Props.c114_returns",
    "Verif.Props.c114_truth"
   ],
   "note": ""
  },
  {
   "property": "C115",
   "status": "proved",
   "theorems": [
    "Verif.Props.c115_round",
    "Verif.Props.c115_accuracy",
    "Verif.Props.c115_accuracy_two",
    "Verif.Props.c115_loop",
    "Verif.Props.c115_constant",
    "Verif.Props.c115_line_two",
    "Verif.Props.c115_line_three",
    "Verif.Props.c115_figure_curves",
    "Verif.Props.c115_filled",
    "Verif.Props.c115_drawn"
   ],
   "note": ""
  },
  {
   "property": "C116",
   "status": "proved",
   "theorems": [
    "Verif.Props.c116_drawn",
    "Verif.Props.c116_colours",
    "Verif.Props.c116_stacked",
    "Verif.Props.c116_curves",
    "Verif.Props.c116_ranges"
   ],
   "note": ""
  },
  {
   "property": "C117",
   "status": "proved",
   "theorems": [
    "Verif.Props.c117_bind",
    "Verif.Props.c117_shimmed",
    "Verif.Props.c117_multilayer",
    "Verif.Props.c117_chunk_dispatch",
    "Verif.Props.c117_sites",
    "Verif.Props.c117_hierarchical",
    "Verif.Props.c117_runtimes_stale",
    "Verif.Props.c117_runtimes",
    "Verif.Props.c117_benchmark",
    "Verif.Props.c117_benchmark_ends"
   ],
   "note": ""
  },
  {
   "property": "C118",
   "status": "proved",
   "theorems": [
    "Verif.Props.c118_tradeoff",
    "Verif.Props.c118_count",
    "Verif.Props.c118_crossing",
    "Verif.Props.c118_first",
    "Verif.Props.c118_pruned",
    "Verif.Props.c118_count_3D",
    "Verif.Props.c118_pruned_3D"
   ],
   "note": ""
  },
  {
   "property": "C119",
   "status": "proved",
   "theorems": [
    "Verif.Props.c119_gain",
    "Verif.Props.c119_apart",
    "Verif.Props.c119_joined",
    "Verif.Props.c119_resolution_limit",
    "Verif.Props.c119_connected",
    "Verif.Props.c119_pruned",
    "Verif.Props.c119_gain_3D",
    "Verif.Props.c119_domains",
    "Verif.Props.c119_pruned_3D"
   ],
   "note": ""
  },
  {
   "property": "C120",
   "status": "proved",
   "theorems": [
    "Verif.Props.c120_champ2D",
    "Verif.Props.c120_incremental",
    "Verif.Props.c120_champ3D",
    "Verif.Props.c120_champ_then_prune",
    "Verif.Props.c120_prune_superset",
    "Verif.Props.c120_champ_then_prune_multilayer",
    "Verif.Props.c120_prune_batches_unsafe"
   ],
   "note": ""
  },
  {
   "property": "C121",
   "status": "proved",
   "theorems": [
    "Verif.Props.c121_same",
    "Verif.Props.c121_same_multilayer",
    "Verif.Props.c121_champ_one",
    "Verif.Props.c121_prune_one",
    "Verif.Props.c121_domains_one",
    "Verif.Props.c121_estimate",
    "Verif.Props.c121_padded",
    "Verif.Props.c121_champ_padded",
    "Verif.Props.c121_never_returns",
    "Verif.Props.c121_raises"
   ],
   "note": ""
  },
  {
   "property": "C122",
   "status": "proved",
   "theorems": [
    "Verif.Props.c122_reversed",
    "Verif.Props.c122_repeated",
    "Verif.Props.c122_both_directions",
    "Verif.Props.c122_modularity",
    "Verif.Props.c122_champ2D",
    "Verif.Props.c122_estimate",
    "Verif.Props.c122_prune",
    "Verif.Props.c122_undirected",
    "Verif.Props.c122_multilayer_modularity",
    "Verif.Props.c122_champ3D"
   ],
   "note": ""
  },
  {
   "property": "C123",
   "status": "proved",
   "theorems": [
    "Verif.Props.c123_nearly_optimal",
    "Verif.Props.c123_tiling",
    "Verif.Props.c123_clear_optimum",
    "Verif.Props.c123_breakpoints",
    "Verif.Props.c123_exact",
    "Verif.Props.c123_rounded",
    "Verif.Props.c123_rounded_keeps",
    "Verif.Props.c123_rounded_breakpoints",
    "Verif.Props.c123_rounded_returns",
    "Verif.Props.c123_nearly_optimal_3D",
    "Verif.Props.c123_cover_3D",
    "Verif.Props.c123_clear_optimum_3D",
    "Verif.Props.c123_exact_3D",
    "Verif.Props.c123_rounded_3D",
    "Verif.Props.c123_rounded_returns_3D"
   ],
   "note": ""
  },
  {
   "property": "C124",
   "status": "proved",
   "theorems": [
    "Verif.Props.c124_monotone",
    "Verif.Props.c124_coupling",
    "Verif.Props.c124_resolution",
    "Verif.Props.c124_saturated",
    "Verif.Props.c124_pruned"
   ],
   "note": ""
  },
  {
   "property": "C125",
   "status": "proved",
   "theorems": [
    "Verif.Props.c125_exact",
    "Verif.Props.c125_sound",
    "Verif.Props.c125_complete",
    "Verif.Props.c125_returns"
   ],
   "note": ""
  },
  {
   "property": "C126",
   "status": "proved",
   "theorems": [
    "Verif.Props.c126_exact",
    "Verif.Props.c126_sound",
    "Verif.Props.c126_complete",
    "Verif.Props.c126_returns"
   ],
   "note": ""
  },
  {
   "property": "C127",
   "status": "proved",
   "theorems": [
    "Verif.Props.c127_singletons_best",
    "Verif.Props.c127_champ",
    "Verif.Props.c127_total",
    "Verif.Props.c127_cut",
    "Verif.Props.c127_one_best",
    "Verif.Props.c127_communities",
    "Verif.Props.c127_pruned",
    "Verif.Props.c127_pruned_communities",
    "Verif.Props.c127_domains",
    "Verif.Props.c127_pruned_domains",
    "Verif.Props.c127_communities_sharp",
    "Verif.Props.c127_champ_sharp"
   ],
   "note": ""
  }
 ]
}