'Verif.Props.c01_sorted_tuple_preserves_partition' depends on axioms: [propext, Classical.choice, Quot.sound]
'Verif.Props.c02_sorted_tuple_canonical' depends on axioms: [propext, Classical.choice, Quot.sound]
'Verif.Props.c03_memoisation_transparent' depends on axioms: [propext, Classical.choice, Quot.sound]
'Verif.Props.c03_sorted_tuple_memoised' depends on axioms: [propext, Classical.choice, Quot.sound]
'Verif.Props.c04_num_communities' depends on axioms: [propext, Classical.choice, Quot.sound]
'Verif.Props.c04_num_communities_canonical' depends on axioms: [propext, Classical.choice, Quot.sound]
'Verif.Props.c05_communities' depends on axioms: [propext, Classical.choice, Quot.sound]
'Verif.Props.c05_layered_communities' depends on axioms: [propext, Classical.choice, Quot.sound]
'Verif.Props.c06_coefficients_undirected' depends on axioms: [propext, Classical.choice, Quot.sound]
'Verif.Props.c07_coefficients_directed' depends on axioms: [propext, Classical.choice, Quot.sound]
'Verif.Props.c08_coefficients_multilayer' depends on axioms: [propext, Classical.choice, Quot.sound]
'Verif.Props.c09_coefficients_label_invariant' depends on axioms: [propext, Quot.sound]
'Verif.Props.c09_sorted_tuple_keeps_coefficients' depends on axioms: [propext, Classical.choice, Quot.sound]
'Verif.Props.c100_arrow_tip' depends on axioms: [propext, Classical.choice, Quot.sound]
'Verif.Props.c100_exceptions' depends on axioms: [propext, Classical.choice, Quot.sound]
'Verif.Props.c100_final_values' depends on axioms: [propext, Classical.choice, Quot.sound]
'Verif.Props.c100_grid' depends on axioms: [propext, Classical.choice, Quot.sound]
'Verif.Props.c100_grid_arrow' depends on axioms: [propext, Classical.choice, Quot.sound]
'Verif.Props.c100_grid_size' depends on axioms: [propext, Classical.choice, Quot.sound]
'Verif.Props.c100_one_run' depends on axioms: [propext, Classical.choice, Quot.sound]
'Verif.Props.c100_one_step' depends on axioms: [propext, Classical.choice, Quot.sound]
'Verif.Props.c100_per_K' depends on axioms: [propext, Classical.choice, Quot.sound]
'Verif.Props.c100_step_estimate' depends on axioms: [propext, Classical.choice, Quot.sound]
'Verif.Props.c100_unknown_method' depends on axioms: [propext, Classical.choice, Quot.sound]
'Verif.Props.c100_until_convergence' depends on axioms: [propext, Classical.choice, Quot.sound]
'Verif.Props.c101_coefficients_2D_accepted' depends on axioms: [propext, Classical.choice, Quot.sound]
'Verif.Props.c101_coefficients_2D_meaning' depends on axioms: [propext, Classical.choice, Quot.sound]
'Verif.Props.c101_coefficients_3D_accepted' depends on axioms: [propext, Classical.choice, Quot.sound]
'Verif.Props.c101_coefficients_3D_meaning' depends on axioms: [propext, Classical.choice, Quot.sound]
'Verif.Props.c101_domains_accepted' depends on axioms: [propext, Classical.choice, Quot.sound]
'Verif.Props.c101_domains_meaning' depends on axioms: [propext, Classical.choice, Quot.sound]
'Verif.Props.c101_edgeless_rejected' depends on axioms: [propext, Classical.choice, Quot.sound]
'Verif.Props.c101_point_test' depends on axioms: [propext, Classical.choice, Quot.sound]
'Verif.Props.c101_ranges_accepted' depends on axioms: [propext, Classical.choice, Quot.sound]
'Verif.Props.c101_ranges_meaning' depends on axioms: [propext, Classical.choice, Quot.sound]
'Verif.Props.c101_weighted_rejected' depends on axioms: [propext, Classical.choice, Quot.sound]
'Verif.Props.c102_assertion' depends on axioms: [propext, Classical.choice, Quot.sound]
'Verif.Props.c102_compare_meaning' depends on axioms: [propext, Classical.choice, Quot.sound]
'Verif.Props.c102_directed_blind' depends on axioms: [propext, Classical.choice, Quot.sound]
'Verif.Props.c102_first_only' depends on axioms: [propext, Classical.choice, Quot.sound]
'Verif.Props.c102_gamma_accepted' depends on axioms: [propext, Classical.choice, Quot.sound]
'Verif.Props.c102_gamma_meaning' depends on axioms: [propext, Classical.choice, Quot.sound]
'Verif.Props.c102_library_settles' depends on axioms: [propext, Classical.choice, Quot.sound]
'Verif.Props.c102_multilevel_untested' depends on axioms: [propext, Classical.choice, Quot.sound]
'Verif.Props.c102_multiplex_accepted' depends on axioms: [propext, Classical.choice, Quot.sound]
'Verif.Props.c102_temporal_accepted' depends on axioms: [propext, Classical.choice, Quot.sound]
'Verif.Props.c103_alarm_cleared' does not depend on any axioms
'Verif.Props.c103_hang' depends on axioms: [propext, Quot.sound]
'Verif.Props.c103_limit' depends on axioms: [propext, Classical.choice, Quot.sound]
'Verif.Props.c103_nested' depends on axioms: [propext, Classical.choice, Quot.sound]
'Verif.Props.c103_round' depends on axioms: [propext, Quot.sound]
'Verif.Props.c103_starves' depends on axioms: [propext, Quot.sound]
'Verif.Props.c103_swallowed' depends on axioms: [propext, Quot.sound]
'Verif.Props.c103_worker' depends on axioms: [propext, Classical.choice, Quot.sound]
'Verif.Props.c103_zero' depends on axioms: [propext, Quot.sound]
'Verif.Props.c104_blank_line' depends on axioms: [propext, Classical.choice, Quot.sound]
'Verif.Props.c104_csv' depends on axioms: [propext, Classical.choice, Quot.sound]
'Verif.Props.c104_graphs' depends on axioms: [propext, Classical.choice, Quot.sound]
'Verif.Props.c104_int' depends on axioms: [propext, Quot.sound]
'Verif.Props.c104_lazega' depends on axioms: [propext, Classical.choice, Quot.sound]
'Verif.Props.c104_matrix' depends on axioms: [propext, Classical.choice, Quot.sound]
'Verif.Props.c104_missing' depends on axioms: [propext, Classical.choice, Quot.sound]
'Verif.Props.c104_negative' depends on axioms: [propext, Classical.choice, Quot.sound]
'Verif.Props.c104_order' depends on axioms: [propext, Classical.choice, Quot.sound]
'Verif.Props.c104_ties' depends on axioms: [propext, Classical.choice, Quot.sound]
'Verif.Props.c104_tsv' depends on axioms: [propext, Classical.choice, Quot.sound]
'Verif.Props.c104_unexpected' depends on axioms: [propext, Classical.choice, Quot.sound]
'Verif.Props.c104_vertices' depends on axioms: [propext, Classical.choice, Quot.sound]
'Verif.Props.c104_writable' depends on axioms: [propext, Classical.choice, Quot.sound]
'Verif.Props.c105_missing' depends on axioms: [propext, Classical.choice, Quot.sound]
'Verif.Props.c105_partitions' depends on axioms: [propext, Classical.choice, Quot.sound]
'Verif.Props.c105_run' depends on axioms: [propext, Classical.choice, Quot.sound]
'Verif.Props.c105_stops' depends on axioms: [propext, Classical.choice, Quot.sound]
'Verif.Props.c105_zero' depends on axioms: [propext, Classical.choice, Quot.sound]
'Verif.Props.c106_blank_line' depends on axioms: [propext, Classical.choice, Quot.sound]
'Verif.Props.c106_table' depends on axioms: [propext, Classical.choice, Quot.sound]
'Verif.Props.c106_wrong_length' depends on axioms: [propext, Classical.choice, Quot.sound]
'Verif.Props.c107_all_optimal_wrong' depends on axioms: [propext, Classical.choice, Quot.sound]
'Verif.Props.c107_left_center' depends on axioms: [propext, Classical.choice, Quot.sound]
'Verif.Props.c107_right' depends on axioms: [propext, Classical.choice, Quot.sound]
'Verif.Props.c107_sample' depends on axioms: [propext, Classical.choice, Quot.sound]
'Verif.Props.c107_sample_returns' depends on axioms: [propext, Classical.choice, Quot.sound]
'Verif.Props.c107_too_few' depends on axioms: [propext, Classical.choice, Quot.sound]
'Verif.Props.c108_champ_2D' depends on axioms: [propext, Classical.choice, Quot.sound]
'Verif.Props.c108_champ_3D' depends on axioms: [propext, Classical.choice, Quot.sound]
'Verif.Props.c108_coefficients_2D' depends on axioms: [propext, Classical.choice, Quot.sound]
'Verif.Props.c108_coefficients_3D' depends on axioms: [propext, Classical.choice, Quot.sound]
'Verif.Props.c108_connected' depends on axioms: [propext, Classical.choice, Quot.sound]
'Verif.Props.c108_famous_champ' depends on axioms: [propext, Classical.choice, Quot.sound]
'Verif.Props.c108_famous_coefficients' depends on axioms: [propext, Classical.choice, Quot.sound]
'Verif.Props.c108_partitions' depends on axioms: [propext, Classical.choice, Quot.sound]
'Verif.Props.c108_too_few_edges' depends on axioms: [propext, Classical.choice, Quot.sound]
'Verif.Props.c108_values' depends on axioms: [propext, Classical.choice, Quot.sound]
'Verif.Props.c109_blocks' depends on axioms: [propext, Classical.choice, Quot.sound]
'Verif.Props.c109_completes' depends on axioms: [propext, Classical.choice, Quot.sound]
'Verif.Props.c109_example' depends on axioms: [propext, Classical.choice, Quot.sound]
'Verif.Props.c109_isolated' depends on axioms: [propext, Classical.choice, Quot.sound]
'Verif.Props.c109_labels' depends on axioms: [propext, Classical.choice, Quot.sound]
'Verif.Props.c109_network' depends on axioms: [propext, Classical.choice, Quot.sound]
'Verif.Props.c109_plot_estimates' depends on axioms: [propext, Classical.choice, Quot.sound]
'Verif.Props.c109_third_block_unchecked' depends on axioms: [propext, Classical.choice, Quot.sound]
'Verif.Props.c109_too_many' depends on axioms: [propext, Classical.choice, Quot.sound]
'Verif.Props.c109_verdict' depends on axioms: [propext, Classical.choice, Quot.sound]
'Verif.Props.c10_coefficient_bounds' depends on axioms: [propext, Classical.choice, Quot.sound]
'Verif.Props.c110_accepted' depends on axioms: [propext, Classical.choice, Quot.sound]
'Verif.Props.c110_assertion' depends on axioms: [propext, Classical.choice, Quot.sound]
'Verif.Props.c110_multilevel_is_temporal' depends on axioms: [propext, Classical.choice, Quot.sound]
'Verif.Props.c110_multiplex_coupling' depends on axioms: [propext, Classical.choice, Quot.sound]
'Verif.Props.c110_multiplex_pass' depends on axioms: [propext, Classical.choice, Quot.sound]
'Verif.Props.c110_multiplex_suffices' depends on axioms: [propext, Classical.choice, Quot.sound]
'Verif.Props.c110_multiplex_verdict' depends on axioms: [propext, Classical.choice, Quot.sound]
'Verif.Props.c110_newman' depends on axioms: [propext, Classical.choice, Quot.sound]
'Verif.Props.c110_temporal_pass' depends on axioms: [propext, Classical.choice, Quot.sound]
'Verif.Props.c110_temporal_suffices' depends on axioms: [propext, Classical.choice, Quot.sound]
'Verif.Props.c110_temporal_verdict' depends on axioms: [propext, Classical.choice, Quot.sound]
'Verif.Props.c110_truth' depends on axioms: [propext, Classical.choice, Quot.sound]
'Verif.Props.c110_truth_errors' depends on axioms: [propext, Classical.choice, Quot.sound]
'Verif.Props.c110_truth_is_estimate' depends on axioms: [propext, Classical.choice, Quot.sound]
'Verif.Props.c111_clock_stands_still' depends on axioms: [propext, Classical.choice, Quot.sound]
'Verif.Props.c111_good_pool_passes' depends on axioms: [propext, Classical.choice, Quot.sound]
'Verif.Props.c111_measured_once' depends on axioms: [propext, Classical.choice, Quot.sound]
'Verif.Props.c111_multilayer' depends on axioms: [propext, Classical.choice, Quot.sound]
'Verif.Props.c111_pool_length' depends on axioms: [propext, Classical.choice, Quot.sound]
'Verif.Props.c111_serial_pool_fails' depends on axioms: [propext, Classical.choice, Quot.sound]
'Verif.Props.c111_serial_pool_passes' depends on axioms: [propext, Classical.choice, Quot.sound]
'Verif.Props.c111_singlelayer' depends on axioms: [propext, Classical.choice, Quot.sound]
'Verif.Props.c111_singlelayer_verdict' depends on axioms: [propext, Classical.choice, Quot.sound]
'Verif.Props.c111_target' depends on axioms: [propext, Classical.choice, Quot.sound]
'Verif.Props.c112_effect' depends on axioms: [propext, Classical.choice, Quot.sound]
'Verif.Props.c112_idempotent' depends on axioms: [propext, Classical.choice, Quot.sound]
'Verif.Props.c112_modules' depends on axioms: [propext, Classical.choice, Quot.sound]
'Verif.Props.c112_names' depends on axioms: [propext, Classical.choice, Quot.sound]
'Verif.Props.c112_part' depends on axioms: [propext, Classical.choice, Quot.sound]
'Verif.Props.c112_rejected' depends on axioms: [propext, Classical.choice, Quot.sound]
'Verif.Props.c112_run_effect' depends on axioms: [propext, Classical.choice, Quot.sound]
'Verif.Props.c112_unsupported' depends on axioms: [propext, Classical.choice, Quot.sound]
'Verif.Props.c112_with_membership' depends on axioms: [propext, Classical.choice, Quot.sound]
'Verif.Props.c113_dots' depends on axioms: [propext, Classical.choice, Quot.sound]
'Verif.Props.c113_easy_domains' depends on axioms: [propext, Classical.choice, Quot.sound]
'Verif.Props.c113_easy_figure' depends on axioms: [propext, Classical.choice, Quot.sound]
'Verif.Props.c113_easy_no_gap' depends on axioms: [propext, Classical.choice, Quot.sound]
'Verif.Props.c113_easy_returns' depends on axioms: [propext, Classical.choice, Quot.sound]
'Verif.Props.c113_iteration_figure' depends on axioms: [propext, Classical.choice, Quot.sound]
'Verif.Props.c113_lazega_domains' depends on axioms: [propext, Classical.choice, Quot.sound]
'Verif.Props.c113_lazega_figure' depends on axioms: [propext, Classical.choice, Quot.sound]
'Verif.Props.c113_lazega_gap' depends on axioms: [propext, Classical.choice, Quot.sound]
'Verif.Props.c113_markers' depends on axioms: [propext, Classical.choice, Quot.sound]
'Verif.Props.c113_no_estimate' depends on axioms: [propext, Classical.choice, Quot.sound]
'Verif.Props.c113_restricted_contains' depends on axioms: [propext, Classical.choice, Quot.sound]
'Verif.Props.c113_stable_figures' depends on axioms: [propext, Classical.choice, Quot.sound]
'Verif.Props.c113_values' depends on axioms: [propext, Classical.choice, Quot.sound]
'Verif.Props.c113_values_return' depends on axioms: [propext, Classical.choice, Quot.sound]
'Verif.Props.c114_arrows' depends on axioms: [propext, Classical.choice, Quot.sound]
'Verif.Props.c114_completes' depends on axioms: [propext, Classical.choice, Quot.sound]
'Verif.Props.c114_cover' depends on axioms: [propext, Classical.choice, Quot.sound]
'Verif.Props.c114_domains' depends on axioms: [propext, Classical.choice, Quot.sound]
'Verif.Props.c114_plots' depends on axioms: [propext, Classical.choice, Quot.sound]
'Verif.Props.c114_returns' depends on axioms: [propext, Classical.choice, Quot.sound]
'Verif.Props.c114_truth' depends on axioms: [propext, Classical.choice, Quot.sound]
'Verif.Props.c115_accuracy' depends on axioms: [propext, Classical.choice, Quot.sound]
'Verif.Props.c115_accuracy_two' depends on axioms: [propext, Classical.choice, Quot.sound]
'Verif.Props.c115_constant' depends on axioms: [propext, Classical.choice, Quot.sound]
'Verif.Props.c115_drawn' depends on axioms: [propext, Classical.choice, Quot.sound]
'Verif.Props.c115_figure_curves' depends on axioms: [propext, Classical.choice, Quot.sound]
'Verif.Props.c115_filled' depends on axioms: [propext, Classical.choice, Quot.sound]
'Verif.Props.c115_line_three' depends on axioms: [propext, Classical.choice, Quot.sound]
'Verif.Props.c115_line_two' depends on axioms: [propext, Classical.choice, Quot.sound]
'Verif.Props.c115_loop' depends on axioms: [propext, Classical.choice, Quot.sound]
'Verif.Props.c115_round' depends on axioms: [propext, Classical.choice, Quot.sound]
'Verif.Props.c116_colours' depends on axioms: [propext, Classical.choice, Quot.sound]
'Verif.Props.c116_curves' depends on axioms: [propext, Classical.choice, Quot.sound]
'Verif.Props.c116_drawn' depends on axioms: [propext, Classical.choice, Quot.sound]
'Verif.Props.c116_ranges' depends on axioms: [propext, Classical.choice, Quot.sound]
'Verif.Props.c116_stacked' depends on axioms: [propext, Classical.choice, Quot.sound]
'Verif.Props.c117_benchmark' depends on axioms: [propext, Classical.choice, Quot.sound]
'Verif.Props.c117_benchmark_ends' depends on axioms: [propext, Classical.choice, Quot.sound]
'Verif.Props.c117_bind' depends on axioms: [propext, Classical.choice, Quot.sound]
'Verif.Props.c117_chunk_dispatch' depends on axioms: [propext, Classical.choice, Quot.sound]
'Verif.Props.c117_hierarchical' depends on axioms: [propext, Classical.choice, Quot.sound]
'Verif.Props.c117_multilayer' depends on axioms: [propext, Classical.choice, Quot.sound]
'Verif.Props.c117_runtimes' depends on axioms: [propext, Classical.choice, Quot.sound]
'Verif.Props.c117_runtimes_stale' depends on axioms: [propext, Classical.choice, Quot.sound]
'Verif.Props.c117_shimmed' depends on axioms: [propext, Classical.choice, Quot.sound]
'Verif.Props.c117_sites' depends on axioms: [propext, Classical.choice, Quot.sound]
'Verif.Props.c118_count' depends on axioms: [propext, Classical.choice, Quot.sound]
'Verif.Props.c118_count_3D' depends on axioms: [propext, Classical.choice, Quot.sound]
'Verif.Props.c118_crossing' depends on axioms: [propext, Classical.choice, Quot.sound]
'Verif.Props.c118_first' depends on axioms: [propext, Classical.choice, Quot.sound]
'Verif.Props.c118_pruned' depends on axioms: [propext, Classical.choice, Quot.sound]
'Verif.Props.c118_pruned_3D' depends on axioms: [propext, Classical.choice, Quot.sound]
'Verif.Props.c118_tradeoff' depends on axioms: [propext, Classical.choice, Quot.sound]
'Verif.Props.c119_apart' depends on axioms: [propext, Classical.choice, Quot.sound]
'Verif.Props.c119_connected' depends on axioms: [propext, Classical.choice, Quot.sound]
'Verif.Props.c119_domains' depends on axioms: [propext, Classical.choice, Quot.sound]
'Verif.Props.c119_gain' depends on axioms: [propext, Classical.choice, Quot.sound]
'Verif.Props.c119_gain_3D' depends on axioms: [propext, Classical.choice, Quot.sound]
'Verif.Props.c119_joined' depends on axioms: [propext, Classical.choice, Quot.sound]
'Verif.Props.c119_pruned' depends on axioms: [propext, Classical.choice, Quot.sound]
'Verif.Props.c119_pruned_3D' depends on axioms: [propext, Classical.choice, Quot.sound]
'Verif.Props.c119_resolution_limit' depends on axioms: [propext, Classical.choice, Quot.sound]
'Verif.Props.c11_parallel_2D' depends on axioms: [propext, Quot.sound]
'Verif.Props.c11_parallel_3D' depends on axioms: [propext, Quot.sound]
'Verif.Props.c120_champ2D' depends on axioms: [propext, Classical.choice, Quot.sound]
'Verif.Props.c120_champ3D' depends on axioms: [propext, Classical.choice, Quot.sound]
'Verif.Props.c120_champ_then_prune' depends on axioms: [propext, Classical.choice, Quot.sound]
'Verif.Props.c120_champ_then_prune_multilayer' depends on axioms: [propext, Classical.choice, Quot.sound]
'Verif.Props.c120_incremental' depends on axioms: [propext, Classical.choice, Quot.sound]
'Verif.Props.c120_prune_batches_unsafe' depends on axioms: [propext, Classical.choice, Quot.sound]
'Verif.Props.c120_prune_superset' depends on axioms: [propext, Classical.choice, Quot.sound]
'Verif.Props.c121_champ_one' depends on axioms: [propext, Classical.choice, Quot.sound]
'Verif.Props.c121_champ_padded' depends on axioms: [propext, Classical.choice, Quot.sound]
'Verif.Props.c121_domains_one' depends on axioms: [propext, Classical.choice, Quot.sound]
'Verif.Props.c121_estimate' depends on axioms: [propext, Classical.choice, Quot.sound]
'Verif.Props.c121_never_returns' depends on axioms: [propext, Classical.choice, Quot.sound]
'Verif.Props.c121_padded' depends on axioms: [propext, Classical.choice, Quot.sound]
'Verif.Props.c121_prune_one' depends on axioms: [propext, Classical.choice, Quot.sound]
'Verif.Props.c121_raises' depends on axioms: [propext, Classical.choice, Quot.sound]
'Verif.Props.c121_same' depends on axioms: [propext, Classical.choice, Quot.sound]
'Verif.Props.c121_same_multilayer' depends on axioms: [propext, Classical.choice, Quot.sound]
'Verif.Props.c122_both_directions' depends on axioms: [propext, Classical.choice, Quot.sound]
'Verif.Props.c122_champ2D' depends on axioms: [propext, Classical.choice, Quot.sound]
'Verif.Props.c122_champ3D' depends on axioms: [propext, Classical.choice, Quot.sound]
'Verif.Props.c122_estimate' depends on axioms: [propext, Classical.choice, Quot.sound]
'Verif.Props.c122_modularity' depends on axioms: [propext, Classical.choice, Quot.sound]
'Verif.Props.c122_multilayer_modularity' depends on axioms: [propext, Classical.choice, Quot.sound]
'Verif.Props.c122_prune' depends on axioms: [propext, Classical.choice, Quot.sound]
'Verif.Props.c122_repeated' depends on axioms: [propext, Classical.choice, Quot.sound]
'Verif.Props.c122_reversed' depends on axioms: [propext, Classical.choice, Quot.sound]
'Verif.Props.c122_undirected' depends on axioms: [propext, Classical.choice, Quot.sound]
'Verif.Props.c123_breakpoints' depends on axioms: [propext, Classical.choice, Quot.sound]
'Verif.Props.c123_clear_optimum' depends on axioms: [propext, Classical.choice, Quot.sound]
'Verif.Props.c123_clear_optimum_3D' depends on axioms: [propext, Classical.choice, Quot.sound]
'Verif.Props.c123_cover_3D' depends on axioms: [propext, Classical.choice, Quot.sound]
'Verif.Props.c123_exact' depends on axioms: [propext, Classical.choice, Quot.sound]
'Verif.Props.c123_exact_3D' depends on axioms: [propext, Classical.choice, Quot.sound]
'Verif.Props.c123_nearly_optimal' depends on axioms: [propext, Classical.choice, Quot.sound]
'Verif.Props.c123_nearly_optimal_3D' depends on axioms: [propext, Classical.choice, Quot.sound]
'Verif.Props.c123_rounded' depends on axioms: [propext, Classical.choice, Quot.sound]
'Verif.Props.c123_rounded_3D' depends on axioms: [propext, Classical.choice, Quot.sound]
'Verif.Props.c123_rounded_breakpoints' depends on axioms: [propext, Classical.choice, Quot.sound]
'Verif.Props.c123_rounded_keeps' depends on axioms: [propext, Classical.choice, Quot.sound]
'Verif.Props.c123_rounded_returns' depends on axioms: [propext, Classical.choice, Quot.sound]
'Verif.Props.c123_rounded_returns_3D' depends on axioms: [propext, Classical.choice, Quot.sound]
'Verif.Props.c123_tiling' depends on axioms: [propext, Classical.choice, Quot.sound]
'Verif.Props.c124_coupling' depends on axioms: [propext, Classical.choice, Quot.sound]
'Verif.Props.c124_monotone' depends on axioms: [propext, Classical.choice, Quot.sound]
'Verif.Props.c124_pruned' depends on axioms: [propext, Classical.choice, Quot.sound]
'Verif.Props.c124_resolution' depends on axioms: [propext, Classical.choice, Quot.sound]
'Verif.Props.c124_saturated' depends on axioms: [propext, Classical.choice, Quot.sound]
'Verif.Props.c125_complete' depends on axioms: [propext, Classical.choice, Quot.sound]
'Verif.Props.c125_exact' depends on axioms: [propext, Classical.choice, Quot.sound]
'Verif.Props.c125_returns' depends on axioms: [propext, Classical.choice, Quot.sound]
'Verif.Props.c125_sound' depends on axioms: [propext, Classical.choice, Quot.sound]
'Verif.Props.c126_complete' depends on axioms: [propext, Classical.choice, Quot.sound]
'Verif.Props.c126_exact' depends on axioms: [propext, Classical.choice, Quot.sound]
'Verif.Props.c126_returns' depends on axioms: [propext, Classical.choice, Quot.sound]
'Verif.Props.c126_sound' depends on axioms: [propext, Classical.choice, Quot.sound]
'Verif.Props.c127_champ' depends on axioms: [propext, Classical.choice, Quot.sound]
'Verif.Props.c127_champ_sharp' depends on axioms: [propext, Classical.choice, Quot.sound]
'Verif.Props.c127_communities' depends on axioms: [propext, Classical.choice, Quot.sound]
'Verif.Props.c127_communities_sharp' depends on axioms: [propext, Classical.choice, Quot.sound]
'Verif.Props.c127_cut' depends on axioms: [propext, Classical.choice, Quot.sound]
'Verif.Props.c127_domains' depends on axioms: [propext, Classical.choice, Quot.sound]
'Verif.Props.c127_one_best' depends on axioms: [propext, Classical.choice, Quot.sound]
'Verif.Props.c127_pruned' depends on axioms: [propext, Classical.choice, Quot.sound]
'Verif.Props.c127_pruned_communities' depends on axioms: [propext, Classical.choice, Quot.sound]
'Verif.Props.c127_pruned_domains' depends on axioms: [propext, Classical.choice, Quot.sound]
'Verif.Props.c127_singletons_best' depends on axioms: [propext, Classical.choice, Quot.sound]
'Verif.Props.c127_total' depends on axioms: [propext, Classical.choice, Quot.sound]
'Verif.Props.c12_failures_2D' depends on axioms: [propext, Classical.choice, Quot.sound]
'Verif.Props.c12_failures_3D' depends on axioms: [propext, Classical.choice, Quot.sound]
'Verif.Props.c13_other_dimensions_rejected' depends on axioms: [propext, Classical.choice, Quot.sound]
'Verif.Props.c13_returned_point_is_interior' depends on axioms: [propext, Classical.choice, Quot.sound]
'Verif.Props.c14_default_arguments' depends on axioms: [propext, Classical.choice, Quot.sound]
'Verif.Props.c14_terminates' depends on axioms: [propext, Classical.choice, Quot.sound]
'Verif.Props.c14_zero_samples_diverges' depends on axioms: [propext, Classical.choice, Quot.sound]
'Verif.Props.c15_exact_solver' depends on axioms: [propext, Classical.choice, Quot.sound]
'Verif.Props.c15_exact_solver_exists' depends on axioms: [propext, Classical.choice, Quot.sound]
'Verif.Props.c15_impossible_reported' depends on axioms: [propext, Classical.choice, Quot.sound]
'Verif.Props.c15_unbounded_raises' depends on axioms: [propext, Classical.choice, Quot.sound]
'Verif.Props.c16_encoding_2D' depends on axioms: [propext, Classical.choice, Quot.sound]
'Verif.Props.c16_encoding_3D' depends on axioms: [propext, Classical.choice, Quot.sound]
'Verif.Props.c17_directed_singletons_raise' depends on axioms: [propext, Classical.choice, Quot.sound]
'Verif.Props.c17_edgeless' depends on axioms: [propext, Classical.choice, Quot.sound]
'Verif.Props.c17_empty_window_raises' depends on axioms: [propext, Classical.choice, Quot.sound]
'Verif.Props.c17_ranges_correct' depends on axioms: [propext, Classical.choice, Quot.sound]
'Verif.Props.c17_returns' depends on axioms: [propext, Classical.choice, Quot.sound]
'Verif.Props.c17_returns_connected' depends on axioms: [propext, Classical.choice, Quot.sound]
'Verif.Props.c17_returns_iff' depends on axioms: [propext, Classical.choice, Quot.sound]
'Verif.Props.c18_ranges_cover' depends on axioms: [propext, Classical.choice, Quot.sound]
'Verif.Props.c19_sorted_tiling' depends on axioms: [propext, Classical.choice, Quot.sound]
'Verif.Props.c20_no_duplicates' depends on axioms: [propext, Classical.choice, Quot.sound]
'Verif.Props.c20_returned_strictly_optimal' depends on axioms: [propext, Classical.choice, Quot.sound]
'Verif.Props.c20_strictly_optimal_returned' depends on axioms: [propext, Classical.choice, Quot.sound]
'Verif.Props.c21_domains_correct' depends on axioms: [propext, Classical.choice, Quot.sound]
'Verif.Props.c21_empty_layer' depends on axioms: [propext, Classical.choice, Quot.sound]
'Verif.Props.c21_returns' depends on axioms: [propext, Classical.choice, Quot.sound]
'Verif.Props.c21_returns_iff' depends on axioms: [propext, Classical.choice, Quot.sound]
'Verif.Props.c22_domains_cover' depends on axioms: [propext, Classical.choice, Quot.sound]
'Verif.Props.c22_domains_disjoint' depends on axioms: [propext, Classical.choice, Quot.sound]
'Verif.Props.c22_strictly_optimal_returned' depends on axioms: [propext, Classical.choice, Quot.sound]
'Verif.Props.c23_boundary_order' depends on axioms: [propext, Classical.choice, Quot.sound]
'Verif.Props.c24_direction_ignored' depends on axioms: [propext, Quot.sound]
'Verif.Props.c24_sbm_matches_champ' depends on axioms: [propext, Classical.choice, Quot.sound]
'Verif.Props.c25_no_isolated_vertices' depends on axioms: [propext, Classical.choice, Quot.sound]
'Verif.Props.c25_zero_division' depends on axioms: [propext, Classical.choice, Quot.sound]
'Verif.Props.c26_logarithmic_mean' depends on axioms: [propext, Classical.choice, Quot.sound]
'Verif.Props.c27_degenerate_estimates' depends on axioms: [propext, Classical.choice, Quot.sound]
'Verif.Props.c28_empty_layer' depends on axioms: [propext, Classical.choice, Quot.sound]
'Verif.Props.c28_multilayer_sbm_matches_champ' depends on axioms: [propext, Classical.choice, Quot.sound]
'Verif.Props.c29_copying_probability' depends on axioms: [propext, Classical.choice, Quot.sound]
'Verif.Props.c29_estimate_in_unit_interval' depends on axioms: [propext, Classical.choice, Quot.sound]
'Verif.Props.c30_multiplex_probability' depends on axioms: [propext, Classical.choice, Quot.sound]
'Verif.Props.c30_one_community' depends on axioms: [propext, Classical.choice, Quot.sound]
'Verif.Props.c31_multilevel_persistence' depends on axioms: [propext, Classical.choice, Quot.sound]
'Verif.Props.c31_persistence_is_fraction' depends on axioms: [propext, Classical.choice, Quot.sound]
'Verif.Props.c32_multiplex_omega' depends on axioms: [propext, Classical.choice, Quot.sound]
'Verif.Props.c32_omega_increasing' depends on axioms: [propext, Classical.choice, Quot.sound]
'Verif.Props.c32_temporal_omega' depends on axioms: [propext, Classical.choice, Quot.sound]
'Verif.Props.c33_not_bounded' depends on axioms: [propext, Classical.choice, Quot.sound]
'Verif.Props.c33_omega_max_partial' depends on axioms: [propext, Classical.choice, Quot.sound]
'Verif.Props.c34_model_dispatch' depends on axioms: [propext, Classical.choice, Quot.sound]
'Verif.Props.c34_persistence_dispatch' depends on axioms: [propext, Classical.choice, Quot.sound]
'Verif.Props.c35_single_layer_filter' depends on axioms: [propext, Classical.choice, Quot.sound]
'Verif.Props.c36_both_infinite' depends on axioms: [propext, Classical.choice, Quot.sound]
'Verif.Props.c36_degenerate_polygons' depends on axioms: [propext, Classical.choice, Quot.sound]
'Verif.Props.c36_in_order' depends on axioms: [propext, Classical.choice, Quot.sound]
'Verif.Props.c36_infinite' depends on axioms: [propext, Classical.choice, Quot.sound]
'Verif.Props.c36_point_in_polygon' depends on axioms: [propext, Classical.choice, Quot.sound]
'Verif.Props.c37_nan_is_stable' depends on axioms: [propext, Classical.choice, Quot.sound]
'Verif.Props.c37_none_not_stable_partial' depends on axioms: [propext, Classical.choice, Quot.sound]
'Verif.Props.c37_pipeline_returns_nan' depends on axioms: [propext, Classical.choice, Quot.sound]
'Verif.Props.c38_estimate_formula' depends on axioms: [propext, Classical.choice, Quot.sound]
'Verif.Props.c38_no_duplicates' depends on axioms: [propext, Classical.choice, Quot.sound]
'Verif.Props.c38_sound' depends on axioms: [propext, Classical.choice, Quot.sound]
'Verif.Props.c39_characterisation' depends on axioms: [propext, Classical.choice, Quot.sound]
'Verif.Props.c39_complete' depends on axioms: [propext, Classical.choice, Quot.sound]
'Verif.Props.c39_returns' depends on axioms: [propext, Classical.choice, Quot.sound]
'Verif.Props.c39_unique_coefficients' depends on axioms: [propext, Classical.choice, Quot.sound]
'Verif.Props.c40_labels_duplicates_order' depends on axioms: [propext, Classical.choice, Quot.sound]
'Verif.Props.c40_multilayer' depends on axioms: [propext, Classical.choice, Quot.sound]
'Verif.Props.c40_up_to_coefficients' depends on axioms: [propext, Classical.choice, Quot.sound]
'Verif.Props.c41_fewer_competitors' depends on axioms: [propext, Classical.choice, Quot.sound]
'Verif.Props.c41_fewer_competitors_exact' depends on axioms: [propext, Classical.choice, Quot.sound]
'Verif.Props.c41_idempotent' depends on axioms: [propext, Classical.choice, Quot.sound]
'Verif.Props.c41_multilayer_fewer_competitors' depends on axioms: [propext, Classical.choice, Quot.sound]
'Verif.Props.c41_multilayer_idempotent' depends on axioms: [propext, Classical.choice, Quot.sound]
'Verif.Props.c42_empty' depends on axioms: [propext, Classical.choice, Quot.sound]
'Verif.Props.c42_multilayer' depends on axioms: [propext, Classical.choice, Quot.sound]
'Verif.Props.c42_multilayer_empty' depends on axioms: [propext, Classical.choice, Quot.sound]
'Verif.Props.c42_number_of_communities' depends on axioms: [propext, Classical.choice, Quot.sound]
'Verif.Props.c42_same_as_filtering' depends on axioms: [propext, Classical.choice, Quot.sound]
'Verif.Props.c43_no_duplicates' depends on axioms: [propext, Classical.choice, Quot.sound]
'Verif.Props.c43_raises' depends on axioms: [propext, Classical.choice, Quot.sound]
'Verif.Props.c43_returns' depends on axioms: [propext, Classical.choice, Quot.sound]
'Verif.Props.c43_sound' depends on axioms: [propext, Classical.choice, Quot.sound]
'Verif.Props.c44_characterisation' depends on axioms: [propext, Classical.choice, Quot.sound]
'Verif.Props.c44_unique_coefficients' depends on axioms: [propext, Classical.choice, Quot.sound]
'Verif.Props.c45_single_threaded' depends on axioms: [propext, Classical.choice, Quot.sound]
'Verif.Props.c46_at_most_max_iter' depends on axioms: [propext, Classical.choice, Quot.sound]
'Verif.Props.c46_fixed_point' depends on axioms: [propext, Classical.choice, Quot.sound]
'Verif.Props.c46_iteration' depends on axioms: [propext, Classical.choice, Quot.sound]
'Verif.Props.c46_returns' depends on axioms: [propext, Classical.choice, Quot.sound]
'Verif.Props.c46_returns_estimate_of_partition' depends on axioms: [propext, Classical.choice, Quot.sound]
'Verif.Props.c46_unsupported_method' depends on axioms: [propext, Classical.choice, Quot.sound]
'Verif.Props.c46_verbose' depends on axioms: [propext, Classical.choice, Quot.sound]
'Verif.Props.c47_iteration' depends on axioms: [propext, Classical.choice, Quot.sound]
'Verif.Props.c47_malformed' depends on axioms: [propext, Classical.choice, Quot.sound]
'Verif.Props.c47_returns_estimates_of_partition' depends on axioms: [propext, Classical.choice, Quot.sound]
'Verif.Props.c47_unknown_model' depends on axioms: [propext, Classical.choice, Quot.sound]
'Verif.Props.c47_unknown_model_error' depends on axioms: [propext, Classical.choice, Quot.sound]
'Verif.Props.c48_independent_of_history' depends on axioms: [propext, Classical.choice, Quot.sound]
'Verif.Props.c48_zero_iterations' depends on axioms: [propext, Classical.choice, Quot.sound]
'Verif.Props.c49_accepts_iff' depends on axioms: [propext, Classical.choice, Quot.sound]
'Verif.Props.c49_passes_iff' depends on axioms: [propext, Classical.choice, Quot.sound]
'Verif.Props.c49_reports_violated_rules' depends on axioms: [propext, Classical.choice, Quot.sound]
'Verif.Props.c50_no_crash' depends on axioms: [propext, Classical.choice, Quot.sound]
'Verif.Props.c51_batch_size' depends on axioms: [propext, Quot.sound]
'Verif.Props.c51_grid' depends on axioms: [propext, Classical.choice, Quot.sound]
'Verif.Props.c51_multilayer_parallel' depends on axioms: [propext, Classical.choice, Quot.sound]
'Verif.Props.c51_multilayer_parallel_eq_serial' depends on axioms: [propext, Classical.choice, Quot.sound]
'Verif.Props.c51_multilayer_serial' depends on axioms: [propext, Classical.choice, Quot.sound]
'Verif.Props.c51_no_duplicates' depends on axioms: [propext, Classical.choice, Quot.sound]
'Verif.Props.c51_order_irrelevant' depends on axioms: [propext, Classical.choice, Quot.sound]
'Verif.Props.c51_parallel' depends on axioms: [propext, Classical.choice, Quot.sound]
'Verif.Props.c51_parallel_eq_serial' depends on axioms: [propext, Classical.choice, Quot.sound]
'Verif.Props.c51_serial' depends on axioms: [propext, Classical.choice, Quot.sound]
'Verif.Props.c52_chunk_count' depends on axioms: [propext, Classical.choice, Quot.sound]
'Verif.Props.c52_chunks' depends on axioms: [propext, Classical.choice, Quot.sound]
'Verif.Props.c52_empty' depends on axioms: [propext, Classical.choice, Quot.sound]
'Verif.Props.c52_installation' depends on axioms: [propext, Classical.choice, Quot.sound]
'Verif.Props.c52_irrelevant' depends on axioms: [propext, Classical.choice, Quot.sound]
'Verif.Props.c52_progress' depends on axioms: [propext, Classical.choice, Quot.sound]
'Verif.Props.c52_result' depends on axioms: [propext, Classical.choice, Quot.sound]
'Verif.Props.c52_serial' depends on axioms: [propext, Classical.choice, Quot.sound]
'Verif.Props.c53_short' depends on axioms: [propext, Quot.sound]
'Verif.Props.c53_split' depends on axioms: [propext, Classical.choice, Quot.sound]
'Verif.Props.c54_other_key_partial' depends on axioms: [propext, Classical.choice, Quot.sound]
'Verif.Props.c54_reflects_graph_partial' depends on axioms: [propext, Classical.choice, Quot.sound]
'Verif.Props.c54_same_key' depends on axioms: [propext, Classical.choice, Quot.sound]
'Verif.Props.c54_stale' depends on axioms: [propext, Classical.choice, Quot.sound]
'Verif.Props.c55_multilayer_objective' depends on axioms: [propext, Classical.choice, Quot.sound]
'Verif.Props.c55_same_optimum' depends on axioms: [propext, Classical.choice, Quot.sound]
'Verif.Props.c55_singlelayer_objective' depends on axioms: [propext, Classical.choice, Quot.sound]
'Verif.Props.c55_weighted_differs' depends on axioms: [propext, Classical.choice, Quot.sound]
'Verif.Props.c56_gamma_estimate' depends on axioms: [propext, Classical.choice, Quot.sound]
'Verif.Props.c56_gamma_omega_estimate' depends on axioms: [propext, Classical.choice, Quot.sound]
'Verif.Props.c56_iterations' depends on axioms: [propext, Classical.choice, Quot.sound]
'Verif.Props.c56_multilayer_leiden' depends on axioms: [propext, Classical.choice, Quot.sound]
'Verif.Props.c56_no_default' depends on axioms: [propext, Classical.choice, Quot.sound]
'Verif.Props.c56_singlelayer_leiden' depends on axioms: [propext, Classical.choice, Quot.sound]
'Verif.Props.c57_champ' depends on axioms: [propext, Classical.choice, Quot.sound]
'Verif.Props.c57_graph_partial' depends on axioms: [propext, Classical.choice, Quot.sound]
'Verif.Props.c57_multilayer_partial' depends on axioms: [propext, Classical.choice, Quot.sound]
'Verif.Props.c57_unweighted_partial' depends on axioms: [propext, Classical.choice, Quot.sound]
'Verif.Props.c57_weights_lost' depends on axioms: [propext, Classical.choice, Quot.sound]
'Verif.Props.c57_weights_matter' depends on axioms: [propext, Classical.choice, Quot.sound]
'Verif.Props.c58_capabilities_partial' does not depend on any axioms
'Verif.Props.c58_forward' depends on axioms: [propext, Classical.choice, Quot.sound]
'Verif.Props.c58_lookup_partial' depends on axioms: [propext, Classical.choice, Quot.sound]
'Verif.Props.c58_missing_package' does not depend on any axioms
'Verif.Props.c58_other_names_give_none' depends on axioms: [propext, Classical.choice, Quot.sound]
'Verif.Props.c58_own' depends on axioms: [propext, Classical.choice, Quot.sound]
'Verif.Props.c59_adjacent_domains_differ' depends on axioms: [propext, Classical.choice, Quot.sound]
'Verif.Props.c59_champ_domains' depends on axioms: [propext, Classical.choice, Quot.sound]
'Verif.Props.c59_only_value_error' depends on axioms: [propext]
'Verif.Props.c59_returns' depends on axioms: [propext, Classical.choice, Quot.sound]
'Verif.Props.c59_too_many_neighbours' depends on axioms: [propext, Classical.choice, Quot.sound]
'Verif.Props.c59_touching_domains_share_vertex' depends on axioms: [propext, Classical.choice, Quot.sound]
'Verif.Props.c60_arrays_partial' depends on axioms: [propext, Classical.choice, Quot.sound]
'Verif.Props.c60_documented_types' depends on axioms: [propext, Classical.choice, Quot.sound]
'Verif.Props.c60_documented_types_wrong' depends on axioms: [propext, Quot.sound]
'Verif.Props.c60_mixed_types' depends on axioms: [propext, Classical.choice, Quot.sound]
'Verif.Props.c60_uneven_layers_partial' depends on axioms: [propext, Classical.choice, Quot.sound]
'Verif.Props.c61_arrows' depends on axioms: [propext, Classical.choice, Quot.sound]
'Verif.Props.c61_dots' depends on axioms: [propext, Classical.choice, Quot.sound]
'Verif.Props.c61_returns' depends on axioms: [propext, Classical.choice, Quot.sound]
'Verif.Props.c62_done' depends on axioms: [propext]
'Verif.Props.c62_exact' depends on axioms: [propext, Classical.choice, Quot.sound]
'Verif.Props.c62_increment' depends on axioms: [propext]
'Verif.Props.c62_increments' depends on axioms: [propext, Classical.choice, Quot.sound]
'Verif.Props.c62_monotone' depends on axioms: [propext, Classical.choice, Quot.sound]
'Verif.Props.c62_new' does not depend on any axioms
'Verif.Props.c62_one_step' depends on axioms: [propext, Quot.sound]
'Verif.Props.c62_width' depends on axioms: [propext, Quot.sound]
'Verif.Props.c62_zero' does not depend on any axioms
'Verif.Props.c63_multilayer' depends on axioms: [propext, Classical.choice, Quot.sound]
'Verif.Props.c63_single_layer' depends on axioms: [propext, Classical.choice, Quot.sound]
'Verif.Props.c63_single_threaded' depends on axioms: [propext, Classical.choice, Quot.sound]
'Verif.Props.c63_single_vertex' depends on axioms: [propext, Classical.choice, Quot.sound]
'Verif.Props.c64_beats_trivial_partitions' depends on axioms: [propext, Classical.choice, Quot.sound]
'Verif.Props.c65_partition_object_raises' depends on axioms: [propext, Classical.choice, Quot.sound]
'Verif.Props.c66_arrows' depends on axioms: [propext, Classical.choice, Quot.sound]
'Verif.Props.c66_inside_window' depends on axioms: [propext, Classical.choice, Quot.sound]
'Verif.Props.c66_returns' depends on axioms: [propext, Classical.choice, Quot.sound]
'Verif.Props.c67_ami_partial' depends on axioms: [propext, Classical.choice, Quot.sound]
'Verif.Props.c67_covering_domain_missing' depends on axioms: [propext, Classical.choice, Quot.sound]
'Verif.Props.c67_num_communities_partial' depends on axioms: [propext, Classical.choice, Quot.sound]
'Verif.Props.c67_returns' depends on axioms: [propext, Classical.choice, Quot.sound]
'Verif.Props.c68_silent_truncation' depends on axioms: [propext, Classical.choice, Quot.sound]
'Verif.Props.c68_unwarned' depends on axioms: [propext, Classical.choice, Quot.sound]
'Verif.Props.c68_warned' depends on axioms: [propext, Classical.choice, Quot.sound]
'Verif.Props.c68_warns' depends on axioms: [propext, Classical.choice, Quot.sound]
'Verif.Props.c69_fails_iff' depends on axioms: [propext, Classical.choice, Quot.sound]
'Verif.Props.c69_has_estimates' depends on axioms: [propext, Classical.choice, Quot.sound]
'Verif.Props.c69_has_nan' depends on axioms: [propext, Classical.choice, Quot.sound]
'Verif.Props.c69_outcome' depends on axioms: [propext, Classical.choice, Quot.sound]
'Verif.Props.c69_raises' depends on axioms: [propext, Classical.choice, Quot.sound]
'Verif.Props.c69_returns' depends on axioms: [propext, Classical.choice, Quot.sound]
'Verif.Props.c69_temporal_estimates' depends on axioms: [propext, Classical.choice, Quot.sound]
'Verif.Props.c70_bands' depends on axioms: [propext, Classical.choice, Quot.sound]
'Verif.Props.c70_diagonal' depends on axioms: [propext, Classical.choice, Quot.sound]
'Verif.Props.c70_duality' depends on axioms: [propext, Classical.choice, Quot.sound]
'Verif.Props.c70_involution' depends on axioms: [propext, Classical.choice, Quot.sound]
'Verif.Props.c71_maximum_gamma' depends on axioms: [propext, Classical.choice, Quot.sound]
'Verif.Props.c71_possible_parameters' depends on axioms: [propext, Classical.choice, Quot.sound]
'Verif.Props.c72_gamma_estimate' depends on axioms: [propext, Classical.choice, Quot.sound]
'Verif.Props.c72_gamma_omega_estimate' depends on axioms: [propext, Classical.choice, Quot.sound]
'Verif.Props.c72_multilayer' depends on axioms: [propext, Classical.choice, Quot.sound]
'Verif.Props.c72_single_layer' depends on axioms: [propext, Classical.choice, Quot.sound]
'Verif.Props.c73_gamma_estimate' depends on axioms: [propext, Classical.choice, Quot.sound]
'Verif.Props.c73_gamma_omega_estimate' depends on axioms: [propext, Classical.choice, Quot.sound]
'Verif.Props.c73_multilayer' depends on axioms: [propext, Classical.choice, Quot.sound]
'Verif.Props.c73_single_layer' depends on axioms: [propext, Classical.choice, Quot.sound]
'Verif.Props.c74_domains_are_clipped' depends on axioms: [propext, Classical.choice, Quot.sound]
'Verif.Props.c74_multilayer' depends on axioms: [propext, Classical.choice, Quot.sound]
'Verif.Props.c74_prune' depends on axioms: [propext, Classical.choice, Quot.sound]
'Verif.Props.c74_prune_up_to_coefficients' depends on axioms: [propext, Classical.choice, Quot.sound]
'Verif.Props.c74_ranges_are_clipped' depends on axioms: [propext, Classical.choice, Quot.sound]
'Verif.Props.c75_labels' depends on axioms: [propext, Classical.choice, Quot.sound]
'Verif.Props.c75_one' depends on axioms: [propext, Classical.choice, Quot.sound]
'Verif.Props.c75_range' depends on axioms: [propext, Classical.choice, Quot.sound]
'Verif.Props.c75_symmetric' depends on axioms: [propext, Classical.choice, Quot.sound]
'Verif.Props.c75_value' depends on axioms: [propext, Classical.choice, Quot.sound]
'Verif.Props.c75_zero' depends on axioms: [propext, Classical.choice, Quot.sound]
'Verif.Props.c76_chance' depends on axioms: [propext, Classical.choice, Quot.sound]
'Verif.Props.c76_labels' depends on axioms: [propext, Classical.choice, Quot.sound]
'Verif.Props.c76_symmetric' depends on axioms: [propext, Classical.choice, Quot.sound]
'Verif.Props.c76_value' depends on axioms: [propext, Classical.choice, Quot.sound]
'Verif.Props.c77_gamma_omega_estimate' depends on axioms: [propext, Classical.choice, Quot.sound]
'Verif.Props.c77_multilayer' depends on axioms: [propext, Classical.choice, Quot.sound]
'Verif.Props.c77_single' depends on axioms: [propext, Quot.sound]
'Verif.Props.c77_unused' depends on axioms: [propext, Classical.choice, Quot.sound]
'Verif.Props.c77_wrong_T' depends on axioms: [propext, Classical.choice, Quot.sound]
'Verif.Props.c78_exact_leiden' depends on axioms: [propext, Classical.choice, Quot.sound]
'Verif.Props.c78_exact_multilayer' depends on axioms: [propext, Classical.choice, Quot.sound]
'Verif.Props.c78_fixed_is_stable' depends on axioms: [propext, Classical.choice, Quot.sound]
'Verif.Props.c78_near_optimal' depends on axioms: [propext, Classical.choice, Quot.sound]
'Verif.Props.c78_near_optimal_multilayer' depends on axioms: [propext, Classical.choice, Quot.sound]
'Verif.Props.c78_stable_is_fixed' depends on axioms: [propext, Classical.choice, Quot.sound]
'Verif.Props.c79_champ2D' depends on axioms: [propext, Classical.choice, Quot.sound]
'Verif.Props.c79_champ3D' depends on axioms: [propext, Classical.choice, Quot.sound]
'Verif.Props.c79_gamma_estimate' depends on axioms: [propext, Classical.choice, Quot.sound]
'Verif.Props.c79_gamma_omega_estimate' depends on axioms: [propext, Classical.choice, Quot.sound]
'Verif.Props.c79_modularity' depends on axioms: [propext, Classical.choice, Quot.sound]
'Verif.Props.c79_multilayer_modularity' depends on axioms: [propext, Classical.choice, Quot.sound]
'Verif.Props.c79_prune' depends on axioms: [propext, Classical.choice, Quot.sound]
'Verif.Props.c79_prune_multilayer' depends on axioms: [propext, Classical.choice, Quot.sound]
'Verif.Props.c80_bound_needed' depends on axioms: [propext, Classical.choice, Quot.sound]
'Verif.Props.c80_found_is_real' depends on axioms: [propext, Classical.choice, Quot.sound]
'Verif.Props.c80_loop_exists' depends on axioms: [propext, Classical.choice, Quot.sound]
'Verif.Props.c80_loop_found' depends on axioms: [propext, Classical.choice, Quot.sound]
'Verif.Props.c80_no_loop' depends on axioms: [propext, Classical.choice, Quot.sound]
'Verif.Props.c80_not_settling' depends on axioms: [propext, Classical.choice, Quot.sound]
'Verif.Props.c80_pair' depends on axioms: [propext, Classical.choice, Quot.sound]
'Verif.Props.c80_pair_iteration' depends on axioms: [propext, Classical.choice, Quot.sound]
'Verif.Props.c80_pair_loops' depends on axioms: [propext, Classical.choice, Quot.sound]
'Verif.Props.c80_pair_pruned' depends on axioms: [propext, Classical.choice, Quot.sound]
'Verif.Props.c80_trial' depends on axioms: [propext, Classical.choice, Quot.sound]
'Verif.Props.c81_modularity' depends on axioms: [propext, Classical.choice, Quot.sound]
'Verif.Props.c81_no_estimate' depends on axioms: [propext, Classical.choice, Quot.sound]
'Verif.Props.c81_one_layer' depends on axioms: [propext, Classical.choice, Quot.sound]
'Verif.Props.c81_prune_never_returns' depends on axioms: [propext, Classical.choice, Quot.sound]
'Verif.Props.c82_agrees' depends on axioms: [propext, Classical.choice, Quot.sound]
'Verif.Props.c82_grid' depends on axioms: [propext, Classical.choice, Quot.sound]
'Verif.Props.c82_their_null' depends on axioms: [propext, Classical.choice, Quot.sound]
'Verif.Props.c82_their_null_directed' depends on axioms: [propext, Classical.choice, Quot.sound]
'Verif.Props.c83_assortative' depends on axioms: [propext, Classical.choice, Quot.sound]
'Verif.Props.c83_equivalence' depends on axioms: [propext, Classical.choice, Quot.sound]
'Verif.Props.c83_less_likely_returned' depends on axioms: [propext, Classical.choice, Quot.sound]
'Verif.Props.c83_maximum_likelihood' depends on axioms: [propext, Classical.choice, Quot.sound]
'Verif.Props.c83_stable_partitions' depends on axioms: [propext, Classical.choice, Quot.sound]
'Verif.Props.c84_copying_probability' depends on axioms: [propext, Classical.choice, Quot.sound]
'Verif.Props.c84_equivalence' depends on axioms: [propext, Classical.choice, Quot.sound]
'Verif.Props.c84_intralayer_parameters' depends on axioms: [propext, Classical.choice, Quot.sound]
'Verif.Props.c84_not_at_estimate' depends on axioms: [propext, Classical.choice, Quot.sound]
'Verif.Props.c85_bistable' depends on axioms: [propext, Classical.choice, Quot.sound]
'Verif.Props.c85_estimate_curves' depends on axioms: [propext, Classical.choice, Quot.sound]
'Verif.Props.c85_figure' depends on axioms: [propext, Classical.choice, Quot.sound]
'Verif.Props.c85_limit' depends on axioms: [propext, Classical.choice, Quot.sound]
'Verif.Props.c85_switch' depends on axioms: [propext, Classical.choice, Quot.sound]
'Verif.Props.c86_found' depends on axioms: [propext, Classical.choice, Quot.sound]
'Verif.Props.c86_nested' depends on axioms: [propext, Classical.choice, Quot.sound]
'Verif.Props.c86_optimum' depends on axioms: [propext, Classical.choice, Quot.sound]
'Verif.Props.c87_columns' depends on axioms: [propext, Classical.choice, Quot.sound]
'Verif.Props.c87_estimate_size' depends on axioms: [propext, Classical.choice, Quot.sound]
'Verif.Props.c87_figure' depends on axioms: [propext, Classical.choice, Quot.sound]
'Verif.Props.c87_maximum_check' depends on axioms: [propext, Classical.choice, Quot.sound]
'Verif.Props.c87_maxmean' depends on axioms: [propext, Classical.choice, Quot.sound]
'Verif.Props.c87_theta_out' depends on axioms: [propext, Classical.choice, Quot.sound]
'Verif.Props.c88_hierarchical_best' depends on axioms: [propext, Classical.choice, Quot.sound]
'Verif.Props.c88_hierarchical_degrees' depends on axioms: [propext, Classical.choice, Quot.sound]
'Verif.Props.c88_hierarchical_stable' depends on axioms: [propext, Classical.choice, Quot.sound]
'Verif.Props.c88_newman_best' depends on axioms: [propext, Classical.choice, Quot.sound]
'Verif.Props.c88_newman_estimate' depends on axioms: [propext, Classical.choice, Quot.sound]
'Verif.Props.c88_newman_true_gamma' depends on axioms: [propext, Classical.choice, Quot.sound]
'Verif.Props.c89_accepted' depends on axioms: [propext, Classical.choice, Quot.sound]
'Verif.Props.c89_errors' depends on axioms: [propext, Classical.choice, Quot.sound]
'Verif.Props.c89_gamma_sweep' depends on axioms: [propext, Classical.choice, Quot.sound]
'Verif.Props.c89_ground_truth' depends on axioms: [propext, Classical.choice, Quot.sound]
'Verif.Props.c89_ground_truth_gamma' depends on axioms: [propext, Classical.choice, Quot.sound]
'Verif.Props.c89_iteration_order' depends on axioms: [propext, Classical.choice, Quot.sound]
'Verif.Props.c89_pruned_scores_in_sweep' depends on axioms: [propext, Classical.choice, Quot.sound]
'Verif.Props.c89_pruning' depends on axioms: [propext, Classical.choice, Quot.sound]
'Verif.Props.c89_pruning_K' depends on axioms: [propext, Classical.choice, Quot.sound]
'Verif.Props.c89_recovers' depends on axioms: [propext, Classical.choice, Quot.sound]
'Verif.Props.c89_returns' depends on axioms: [propext, Classical.choice, Quot.sound]
'Verif.Props.c90_experiment_returns' depends on axioms: [propext, Classical.choice, Quot.sound]
'Verif.Props.c90_files_kept' depends on axioms: [propext, Classical.choice, Quot.sound]
'Verif.Props.c90_files_sound' depends on axioms: [propext, Classical.choice, Quot.sound]
'Verif.Props.c90_finished' depends on axioms: [propext, Classical.choice, Quot.sound]
'Verif.Props.c90_generate' depends on axioms: [propext, Classical.choice, Quot.sound]
'Verif.Props.c90_resume_same' depends on axioms: [propext, Classical.choice, Quot.sound]
'Verif.Props.c90_resume_skips' depends on axioms: [propext, Classical.choice, Quot.sound]
'Verif.Props.c90_rows_lost' depends on axioms: [propext, Classical.choice, Quot.sound]
'Verif.Props.c90_script_resume_same' depends on axioms: [propext, Classical.choice, Quot.sound]
'Verif.Props.c90_script_returns' depends on axioms: [propext, Classical.choice, Quot.sound]
'Verif.Props.c90_stale' depends on axioms: [propext, Classical.choice, Quot.sound]
'Verif.Props.c90_stored_scores' depends on axioms: [propext, Classical.choice, Quot.sound]
'Verif.Props.c90_torn_forever' depends on axioms: [propext, Classical.choice, Quot.sound]
'Verif.Props.c91_panel' depends on axioms: [propext, Classical.choice, Quot.sound]
'Verif.Props.c91_positions' does not depend on any axioms
'Verif.Props.c91_shows' depends on axioms: [propext, Classical.choice, Quot.sound]
'Verif.Props.c91_stored' depends on axioms: [propext, Classical.choice, Quot.sound]
'Verif.Props.c92_champ2D' depends on axioms: [propext, Classical.choice, Quot.sound]
'Verif.Props.c92_champ3D' depends on axioms: [propext, Classical.choice, Quot.sound]
'Verif.Props.c92_coefficients_2D' depends on axioms: [propext, Quot.sound]
'Verif.Props.c92_coefficients_3D' depends on axioms: [propext, Classical.choice, Quot.sound]
'Verif.Props.c92_gamma_estimate' depends on axioms: [propext, Classical.choice, Quot.sound]
'Verif.Props.c92_gamma_omega_estimate' depends on axioms: [propext, Classical.choice, Quot.sound]
'Verif.Props.c92_modularity' depends on axioms: [propext, Classical.choice, Quot.sound]
'Verif.Props.c92_multilayer' depends on axioms: [propext, Classical.choice, Quot.sound]
'Verif.Props.c92_multilayer_modularity' depends on axioms: [propext, Classical.choice, Quot.sound]
'Verif.Props.c92_persistence_doubles' depends on axioms: [propext, Classical.choice, Quot.sound]
'Verif.Props.c92_prune' depends on axioms: [propext, Classical.choice, Quot.sound]
'Verif.Props.c92_prune_multilayer' depends on axioms: [propext, Classical.choice, Quot.sound]
'Verif.Props.c92_prune_multilayer_warned' depends on axioms: [propext, Classical.choice, Quot.sound]
'Verif.Props.c92_prune_warned' depends on axioms: [propext, Classical.choice, Quot.sound]
'Verif.Props.c92_single_layer' depends on axioms: [propext, Classical.choice, Quot.sound]
'Verif.Props.c93_gamma_estimate' depends on axioms: [propext, Classical.choice, Quot.sound]
'Verif.Props.c93_gamma_omega_estimate' depends on axioms: [propext, Classical.choice, Quot.sound]
'Verif.Props.c93_modularity' depends on axioms: [propext, Classical.choice, Quot.sound]
'Verif.Props.c93_multilayer' depends on axioms: [propext, Classical.choice, Quot.sound]
'Verif.Props.c93_multilayer_modularity' depends on axioms: [propext, Classical.choice, Quot.sound]
'Verif.Props.c93_prune_exact' depends on axioms: [propext, Classical.choice, Quot.sound]
'Verif.Props.c93_prune_multilayer_sound' depends on axioms: [propext, Classical.choice, Quot.sound]
'Verif.Props.c93_prune_sound' depends on axioms: [propext, Classical.choice, Quot.sound]
'Verif.Props.c93_single_layer' depends on axioms: [propext, Classical.choice, Quot.sound]
'Verif.Props.c93_unit' depends on axioms: [propext, Classical.choice, Quot.sound]
'Verif.Props.c94_complete' depends on axioms: [propext, Classical.choice, Quot.sound]
'Verif.Props.c94_complete_range' depends on axioms: [propext, Classical.choice, Quot.sound]
'Verif.Props.c94_documented' depends on axioms: [propext, Classical.choice, Quot.sound]
'Verif.Props.c94_exact_is_ideal' depends on axioms: [propext, Classical.choice, Quot.sound]
'Verif.Props.c94_exact_is_ideal_multilayer' depends on axioms: [propext, Classical.choice, Quot.sound]
'Verif.Props.c94_gap' depends on axioms: [propext, Classical.choice, Quot.sound]
'Verif.Props.c94_linspace' depends on axioms: [propext, Classical.choice, Quot.sound]
'Verif.Props.c94_multilayer_gap' depends on axioms: [propext, Classical.choice, Quot.sound]
'Verif.Props.c94_multilayer_schedule' depends on axioms: [propext, Classical.choice, Quot.sound]
'Verif.Props.c94_multilayer_sound' depends on axioms: [propext, Classical.choice, Quot.sound]
'Verif.Props.c94_returns' depends on axioms: [propext, Classical.choice, Quot.sound]
'Verif.Props.c94_schedule' depends on axioms: [propext, Classical.choice, Quot.sound]
'Verif.Props.c94_schedule_unweighted' depends on axioms: [propext, Classical.choice, Quot.sound]
'Verif.Props.c94_sound' depends on axioms: [propext, Classical.choice, Quot.sound]
'Verif.Props.c95_aborts' depends on axioms: [propext, Classical.choice, Quot.sound]
'Verif.Props.c95_accepts' depends on axioms: [propext, Classical.choice, Quot.sound]
'Verif.Props.c95_balanced' depends on axioms: [propext, Classical.choice, Quot.sound]
'Verif.Props.c95_benchmark' depends on axioms: [propext, Classical.choice, Quot.sound]
'Verif.Props.c95_coupling' depends on axioms: [propext, Classical.choice, Quot.sound]
'Verif.Props.c95_edges' depends on axioms: [propext, Classical.choice, Quot.sound]
'Verif.Props.c95_empty_layer' depends on axioms: [propext, Classical.choice, Quot.sound]
'Verif.Props.c95_extremes' depends on axioms: [propext, Classical.choice, Quot.sound]
'Verif.Props.c95_full_copying' depends on axioms: [propext, Classical.choice, Quot.sound]
'Verif.Props.c95_full_copying_rejected' depends on axioms: [propext, Classical.choice, Quot.sound]
'Verif.Props.c95_isolated' depends on axioms: [propext, Classical.choice, Quot.sound]
'Verif.Props.c95_label_range' depends on axioms: [propext, Classical.choice, Quot.sound]
'Verif.Props.c95_labels' depends on axioms: [propext, Classical.choice, Quot.sound]
'Verif.Props.c95_layers' depends on axioms: [propext, Classical.choice, Quot.sound]
'Verif.Props.c95_no_copying' depends on axioms: [propext, Classical.choice, Quot.sound]
'Verif.Props.c95_random_partition' depends on axioms: [propext, Classical.choice, Quot.sound]
'Verif.Props.c95_random_partition_returns' depends on axioms: [propext, Quot.sound]
'Verif.Props.c95_rounds' depends on axioms: [propext, Classical.choice, Quot.sound]
'Verif.Props.c95_split' depends on axioms: [propext, Classical.choice, Quot.sound]
'Verif.Props.c95_temporal' depends on axioms: [propext, Classical.choice, Quot.sound]
'Verif.Props.c95_test_model' depends on axioms: [propext, Classical.choice, Quot.sound]
'Verif.Props.c95_test_model_edges' depends on axioms: [propext, Classical.choice, Quot.sound]
'Verif.Props.c95_zero_epsilon' depends on axioms: [propext, Classical.choice, Quot.sound]
'Verif.Props.c96_accepts' depends on axioms: [propext, Classical.choice, Quot.sound]
'Verif.Props.c96_copying' depends on axioms: [propext, Classical.choice, Quot.sound]
'Verif.Props.c96_coupling' depends on axioms: [propext, Classical.choice, Quot.sound]
'Verif.Props.c96_figure' depends on axioms: [propext, Classical.choice, Quot.sound]
'Verif.Props.c96_intralayer' depends on axioms: [propext, Classical.choice, Quot.sound]
'Verif.Props.c96_last_vertex' depends on axioms: [propext, Classical.choice, Quot.sound]
'Verif.Props.c96_long_row' depends on axioms: [propext, Classical.choice, Quot.sound]
'Verif.Props.c96_markers' depends on axioms: [propext, Classical.choice, Quot.sound]
'Verif.Props.c96_persistence' depends on axioms: [propext, Classical.choice, Quot.sound]
'Verif.Props.c96_pipeline' depends on axioms: [propext, Classical.choice, Quot.sound]
'Verif.Props.c96_self_loops' depends on axioms: [propext, Classical.choice, Quot.sound]
'Verif.Props.c96_sort' depends on axioms: [propext, Classical.choice, Quot.sound]
'Verif.Props.c96_spurious_coupling' depends on axioms: [propext, Classical.choice, Quot.sound]
'Verif.Props.c96_square' depends on axioms: [propext, Classical.choice, Quot.sound]
'Verif.Props.c97_all_or_nothing' depends on axioms: [propext, Quot.sound]
'Verif.Props.c97_completes' depends on axioms: [propext, Quot.sound]
'Verif.Props.c97_kept' depends on axioms: [propext, Quot.sound]
'Verif.Props.c97_provenance' depends on axioms: [propext, Quot.sound]
'Verif.Props.c97_rerun' depends on axioms: [propext, Classical.choice, Quot.sound]
'Verif.Props.c97_scripts' depends on axioms: [propext, Classical.choice, Quot.sound]
'Verif.Props.c97_stale' depends on axioms: [propext, Quot.sound]
'Verif.Props.c97_torn_forever' depends on axioms: [propext, Classical.choice, Quot.sound]
'Verif.Props.c97_unused' depends on axioms: [propext]
'Verif.Props.c98_attained' depends on axioms: [propext, Classical.choice, Quot.sound]
'Verif.Props.c98_bounds' depends on axioms: [propext, Classical.choice, Quot.sound]
'Verif.Props.c98_estimates' depends on axioms: [propext, Classical.choice, Quot.sound]
'Verif.Props.c98_maximum' depends on axioms: [propext, Classical.choice, Quot.sound]
'Verif.Props.c98_monotone' depends on axioms: [propext, Classical.choice, Quot.sound]
'Verif.Props.c98_panels' depends on axioms: [propext, Classical.choice, Quot.sound]
'Verif.Props.c98_tangent' depends on axioms: [propext, Classical.choice, Quot.sound]
'Verif.Props.c98_third_panel' depends on axioms: [propext, Classical.choice, Quot.sound]
'Verif.Props.c99_above_one' depends on axioms: [propext, Classical.choice, Quot.sound]
'Verif.Props.c99_abscissas' depends on axioms: [propext, Classical.choice, Quot.sound]
'Verif.Props.c99_assertion' depends on axioms: [propext, Classical.choice, Quot.sound]
'Verif.Props.c99_at_least_share' depends on axioms: [propext, Classical.choice, Quot.sound]
'Verif.Props.c99_bars' depends on axioms: [propext, Classical.choice, Quot.sound]
'Verif.Props.c99_bounds' depends on axioms: [propext, Classical.choice, Quot.sound]
'Verif.Props.c99_counts' depends on axioms: [propext, Classical.choice, Quot.sound]
'Verif.Props.c99_hierarchical_library' depends on axioms: [propext, Classical.choice, Quot.sound]
'Verif.Props.c99_karate_library' depends on axioms: [propext, Classical.choice, Quot.sound]
'Verif.Props.c99_karate_pictures' depends on axioms: [propext, Classical.choice, Quot.sound]
'Verif.Props.c99_one_picture' depends on axioms: [propext, Classical.choice, Quot.sound]
'Verif.Props.c99_pictures' depends on axioms: [propext, Classical.choice, Quot.sound]
'Verif.Props.c99_planted' depends on axioms: [propext, Classical.choice, Quot.sound]
'Verif.Props.c99_probabilities' depends on axioms: [propext, Classical.choice, Quot.sound]
'Verif.Props.c99_search' depends on axioms: [propext, Classical.choice, Quot.sound]
'Verif.Props.c99_skipped' depends on axioms: [propext, Classical.choice, Quot.sound]
'Verif.Props.c99_trial' depends on axioms: [propext, Classical.choice, Quot.sound]
'Verif.Props.c99_trial_returns' depends on axioms: [propext, Classical.choice, Quot.sound]
