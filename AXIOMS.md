# Axioms of the theorems in MANIFEST.json

Output of `#print axioms` for each theorem, grouped (only the three axioms of Lean's core library occur). To repeat it: put
`import Verif` and one `#print axioms <name>` per line in a file outside of the project and run `lake env lean <file>` in `lean/`.

## none (8 theorems)

* `NdArray.C08_degenerate_shapes_ub`
* `XYDataset.C86_empty_root`
* `CatConfig.C103_violated`
* `XYDataset.FitsIO.C109_image_violated`
* `Npy.Mmap.C113_private_puts`
* `Configuration.C116_reading`
* `Configuration.C116_violated`
* `Configuration.C116_clock_violated`

## propext (49 theorems)

* `NdArray.C02_large_shape_violated`
* `NdArray.C05_reshape_of_right_slice_violated`
* `NdArray.C06_size_after_concatenate_violated`
* `NdArray.C06_concatenate_to_slice_violated`
* `NdArray.C06_concatenate_mismatch_throws`
* `NdArray.C07_copy_of_slice_violated`
* `Grid.C19_empty_axis_violated`
* `Grid.C20_chained_slices_violated`
* `Table.faithful_new`
* `Histogram.C22_sqrt_int_violated`
* `Histogram.C22_sqrt_int_zero_step_violated`
* `Configuration.C26_violated`
* `Configuration.C26_blank_line`
* `XYDataset.C28_eq`
* `XYDataset.C28_hashed`
* `XYDataset.C29_transparent`
* `XYDataset.C29_sticky`
* `Table.C48_ascii_partial`
* `Table.C49_same`
* `Table.C49_accepts`
* `Table.C49_float`
* `Catalog.C53_construct`
* `SOM.C55_empty`
* `SOM.C59_archive_distance`
* `SOM.C59_fits_dimension`
* `NdArray.C60_attribute_of_slice_violated`
* `NdArray.C61_equality_after_concatenate_violated`
* `NdArray.C62_sum_all`
* `ThreadPool.C70_violated`
* `ThreadPool.C71_violated`
* `XYDataset.C83_violated`
* `XYDataset.C84_join_partial`
* `XYDataset.C84_join`
* `XYDataset.C86_violated`
* `Table.Fits.C106_started`
* `Table.Fits.C106_retry_violated`
* `Table.Fits.C106_empty_vectors_violated`
* `Table.Fits.C106_bool_vectors_violated`
* `Grid.C111_off_violated`
* `Grid.C111_beyond_violated`
* `FilePool.C115_violated`
* `ThreadPool.C126_no_workers_partial`
* `ThreadPool.C126_block_violated`
* `ThreadPool.C126_no_workers_violated`
* `Paths.C153_violated`
* `Paths.C153_later_violated`
* `Histogram.Vars.C157_half_clipped`
* `ThreadPool.C163_other_order_violated`
* `Grid.C170_equal_any`

## propext, Quot.sound (130 theorems)

* `NdArray.C07_copy_independent`
* `NdArray.C08_unravel_index`
* `FilePool.C11_system`
* `FilePool.C13_violated`
* `FilePool.C14_try_never`
* `FilePool.C14_two_writers`
* `ThreadPool.C15_start_order_violated`
* `Histogram.C23_clip_shrinks`
* `Configuration.C25_result`
* `Configuration.C25_reported_cycle`
* `Configuration.C25_registered`
* `Configuration.C25_violated`
* `Configuration.C25_in_order`
* `Configuration.C25_cleanup_needed`
* `Configuration.C26_thresholds`
* `Configuration.C26_mapping_partial`
* `Configuration.C26_parse`
* `Configuration.C26_mapping_any`
* `XYDataset.C28_belongs`
* `XYDataset.C29_once`
* `XYDataset.C30_list`
* `XYDataset.C30_slashes`
* `XYDataset.C30_belongs`
* `MathUtils.C33_not_finite`
* `MathUtils.C34_repeated`
* `MathUtils.C36_throws`
* `MathUtils.C36_single`
* `MathUtils.C37_interpn_type`
* `MathUtils.C39_throws`
* `MathUtils.C39_single`
* `MathUtils.C41_throws`
* `Table.C45_description`
* `Table.C45_info`
* `Table.C46_tdim_refused`
* `Table.C47_negative`
* `Table.C47_violated`
* `Table.C48_violated`
* `Table.C48_violated_string`
* `Table.C48_violated_bool`
* `Table.C48_violated_array`
* `Table.C49_type`
* `Table.C49_rejects`
* `Table.C49_vector`
* `Table.C49_singleton`
* `Catalog.C52_symmetric`
* `Catalog.C52_transitive_partial`
* `Catalog.C52_equal`
* `Catalog.C52_transitive_iff`
* `SOM.C56_total`
* `SOM.C58_fullSet`
* `SOM.C58_bootstrap`
* `SOM.C58_violated`
* `SOM.C59_archive`
* `NdArray.C62_sum_axis_out_of_range`
* `FilePool.C73_violated`
* `FilePool.C73_excess_partial`
* `FilePool.C73_loop_attained`
* `FilePool.C74_violated`
* `FilePool.C75_one_partial`
* `FilePool.C75_missing_iff`
* `FilePool.C75_two_iff`
* `SOM.C80_project`
* `XYDataset.C83_recursive_partial`
* `XYDataset.C84_line`
* `XYDataset.C85_exact`
* `XYDataset.C85_dataset_partial`
* `XYDataset.C86_end`
* `XYDataset.C86_factory`
* `Configuration.C87_failed_constructor`
* `Configuration.C88_closed`
* `Configuration.C88_final_partial`
* `Configuration.C88_violated`
* `Configuration.C88_not_closed`
* `Configuration.C88_twice`
* `Configuration.C89_specz`
* `MathUtils.C91_throws`
* `MathUtils.C94_throws`
* `Table.C96_comment`
* `Table.C96_start`
* `Catalog.C101_exists`
* `Catalog.C101_no_pdf`
* `Catalog.C101_redshift`
* `MathUtils.C105_refused`
* `NdArray.C110_post_violated`
* `NdArray.C110_same_violated`
* `FilePool.C114_violated`
* `FilePool.C114_dangling_violated`
* `FilePool.C114_registered_violated`
* `FilePool.C114_accessor_violated`
* `FilePool.C115_has_handler_partial`
* `FilePool.C115_live_partial`
* `Configuration.C116_increasing_partial`
* `Configuration.C116_waits`
* `Configuration.C116_threads_violated`
* `SOM.Init.C119_draws`
* `SOM.Init.C119_zero`
* `SOM.Init.C119_constructor`
* `ThreadPool.C125_block_violated`
* `FilePool.Threads.C128_violated`
* `FilePool.Threads.C128_deadlock_violated`
* `FilePool.Threads.C129_violated`
* `NdArray.C132_violated`
* `NdArray.C132_reshape_violated`
* `NdArray.C132_size_violated`
* `NdArray.C132_names_violated`
* `Grid.C140_violated`
* `Grid.C140_iteration_violated`
* `MathUtils.C146_one_point`
* `Table.Fits.C150_fits_refused`
* `Paths.C153_exact`
* `Paths.C153_key_partial`
* `Paths.C153_stable`
* `NotANumber.C154_polynomial`
* `NotANumber.C154_uniform`
* `NotANumber.C154_cumulative`
* `NotANumber.C154_cumulative_first`
* `NotANumber.C154_ratio`
* `NotANumber.C154_distance`
* `NotANumber.C154_kdtree_query`
* `Overflow.C156_slope`
* `Overflow.C156_greatest`
* `Histogram.Vars.C157_values`
* `Histogram.Vars.C157_library`
* `Histogram.Vars.C157_library_uniform`
* `MathUtils.C161_single`
* `Configuration.Instance.C165_same_partial`
* `Configuration.Instance.C165_goes_on`
* `MathUtils.C166_orders`
* `MathUtils.FloatModes.C173_exact`
* `SOM.FloatU.C174_single`

## propext, Classical.choice, Quot.sound (783 theorems)

* `KdTree.C01_machine`
* `KdTree.C01_double`
* `KdTree.C01_query_eq_scan`
* `KdTree.C01_negative_radius_differs`
* `KdTree.C01_leaf_size_zero_throws`
* `NdArray.C02_at_row_major`
* `NdArray.C02_enumeration_complete`
* `NdArray.C02_write_changes_one`
* `NdArray.C02_one_by_one`
* `NdArray.C03_slices_are_views`
* `NdArray.C03_slice_coordinates`
* `NdArray.C03_slice_succeeds_iff`
* `NdArray.C04_iteration_row_major`
* `NdArray.C05_reshape_keeps_order_partial`
* `NdArray.C05_reshape_any`
* `NdArray.C05_keeps_iff`
* `NdArray.C05_one_by_one`
* `NdArray.C06_concatenate_rows_partial`
* `NdArray.C06_concatenate_effect`
* `NdArray.C06_concatenate_chain`
* `NdArray.C06_concatenate_to_part_ub`
* `NdArray.C07_copy_equal_partial`
* `NdArray.C07_copy_any`
* `NdArray.C07_copy_iff`
* `Npy.C09_round_trip_violated`
* `Npy.C09_attribute_called_shape_violated`
* `Npy.C09_single_record_violated`
* `Npy.C09_bracket_in_name_violated`
* `Npy.C09_empty_array_violated`
* `Npy.C09_round_trip_partial`
* `Npy.C09_round_trip_view_partial`
* `Npy.C10_header_alignment`
* `Npy.C10_header_written_iff`
* `FilePool.C11_limit`
* `FilePool.C11_room`
* `FilePool.C11_open_total`
* `FilePool.C11_handlers`
* `FilePool.C11_system_none_iff`
* `FilePool.C12_victim`
* `FilePool.C12_room`
* `FilePool.C12_order`
* `FilePool.C13_exclusive`
* `FilePool.C13_known_partial`
* `FilePool.C13_accounting`
* `FilePool.C13_drops_iff`
* `FilePool.C13_known_iff`
* `FilePool.C14_violated`
* `FilePool.C14_exclusion_partial`
* `ThreadPool.C15_fifo_at_most_once`
* `ThreadPool.C15_single_worker_order`
* `ThreadPool.C15_order_iff`
* `ThreadPool.C16_block_returns`
* `ThreadPool.C16_block_throws`
* `ThreadPool.C16_block_can_finish`
* `Grid.C17_cell_of_coords`
* `Grid.C17_coords_of_cell`
* `Grid.C18_at_exact`
* `Grid.C19_slice_iteration`
* `Grid.C19_iterator_fixings`
* `Grid.C19_empty_grid`
* `Grid.C19_empty_axis`
* `Grid.C20_single_slice_partial`
* `Grid.C20_chained_slices`
* `Table.faithful_slice`
* `Table.C21_rows_partial`
* `Table.C21_violated`
* `Table.C21_violated_empty`
* `Table.C21_faithful_iff`
* `Table.C21_throws`
* `Histogram.C22_edge_vector`
* `Histogram.C22_sqrt`
* `Histogram.C22_scott`
* `Histogram.C22_sqrt_int_exact`
* `Histogram.C23_clip_exact`
* `Histogram.C23_stats_violated`
* `Histogram.C23_stats_partial`
* `Configuration.C24_initialize`
* `Configuration.C25_acyclic_returns`
* `Configuration.C25_cycle_partial`
* `Configuration.C25_endless`
* `Configuration.C25_otherwise`
* `Configuration.C26_throws`
* `Configuration.C26_agree_iff`
* `Configuration.C27_exact`
* `Configuration.C27_names_partial`
* `Configuration.C27_complete`
* `Configuration.C27_violated`
* `XYDataset.C28_accepts`
* `XYDataset.C28_parse_text`
* `XYDataset.C28_text_parse`
* `XYDataset.C28_order`
* `XYDataset.C30_ctor`
* `XYDataset.C30_ctor_valid`
* `MathUtils.C31_eval`
* `MathUtils.C31_product`
* `MathUtils.C31_derivative`
* `MathUtils.C31_antiderivative`
* `MathUtils.C31_integral`
* `MathUtils.C32_constructor`
* `MathUtils.C32_eval`
* `MathUtils.C32_cases`
* `MathUtils.C32_integrate`
* `MathUtils.C32_antisymmetric`
* `MathUtils.C32_additive`
* `MathUtils.C32_integral`
* `MathUtils.C32_single_knot`
* `MathUtils.C32_scheme`
* `MathUtils.C32_scheme_ignored`
* `MathUtils.C33_knots_partial`
* `MathUtils.C33_simple`
* `MathUtils.C33_with_simple`
* `MathUtils.C33_piecewise_partial`
* `MathUtils.C33_violated`
* `MathUtils.C33_jump`
* `MathUtils.C33_touching`
* `MathUtils.C33_knots_exact`
* `MathUtils.C33_apart`
* `MathUtils.C33_at_begin`
* `MathUtils.C34_throws`
* `MathUtils.C34_segments`
* `MathUtils.C34_linear`
* `MathUtils.C34_steps_violated`
* `MathUtils.C34_first_step`
* `MathUtils.C34_single`
* `MathUtils.C35_spline`
* `MathUtils.C35_nodes`
* `MathUtils.C35_derivatives`
* `MathUtils.C35_smooth`
* `MathUtils.C35_step`
* `MathUtils.C36_segments_partial`
* `MathUtils.C36_nodes_partial`
* `MathUtils.C36_violated`
* `MathUtils.C36_exact`
* `MathUtils.C36_last_of_equal`
* `MathUtils.C37_node`
* `MathUtils.C37_returns`
* `MathUtils.C37_affine`
* `MathUtils.C37_outside`
* `MathUtils.C37_throws`
* `MathUtils.C37_decreasing`
* `MathUtils.C37_interpn`
* `MathUtils.C37_unknown`
* `MathUtils.C37_unknown_violated`
* `MathUtils.C37_unsorted_violated`
* `MathUtils.C38_continuous_partial`
* `MathUtils.C38_close`
* `MathUtils.C38_falling`
* `MathUtils.C38_throws`
* `MathUtils.C38_discrete`
* `MathUtils.C38_mass_integral`
* `MathUtils.C38_violated`
* `MathUtils.C38_sizes_violated`
* `MathUtils.C38_plateau_violated`
* `MathUtils.C39_fromPdf`
* `MathUtils.C39_minimal_partial`
* `MathUtils.C39_violated`
* `MathUtils.C39_zero_violated`
* `MathUtils.C40_catchPeak`
* `MathUtils.C40_highest`
* `MathUtils.C40_biggest_partial`
* `MathUtils.C40_biggest_complete`
* `MathUtils.C40_vertex`
* `MathUtils.C40_flat`
* `MathUtils.C40_violated`
* `MathUtils.C40_zero_violated`
* `MathUtils.C40_small_violated`
* `MathUtils.C40_border`
* `MathUtils.C41_rule`
* `MathUtils.C41_refine`
* `MathUtils.C41_cubic`
* `MathUtils.C41_integral`
* `Table.C42_refines_partial`
* `Table.C42_columns_partial`
* `Table.C42_text_partial`
* `Table.C42_chunks_partial`
* `Table.C42_skip_partial`
* `Table.C42_violated`
* `Table.C43_roundtrip_partial`
* `Table.C43_columns_partial`
* `Table.C43_violated`
* `Table.C43_violated_comment`
* `Table.C43_violated_vector`
* `Table.C43_violated_unit`
* `Table.C44_keywords`
* `Table.C44_types`
* `Table.C45_row`
* `Table.C45_table`
* `Table.C45_cells`
* `Table.C45_find`
* `Table.C45_access`
* `Table.C45_equal`
* `Table.C46_tdim_partial`
* `Table.C46_violated`
* `Table.FitsExact.C46_tdim_iff`
* `Table.C47_refines_partial`
* `Table.C47_past`
* `Table.C47_any`
* `Table.C47_iff`
* `Table.C48_binary_partial`
* `Table.C48_accepts`
* `Table.FitsExact.C48_exact`
* `Table.FitsExact.C48_kept_iff`
* `Table.C49_value`
* `Table.C49_numeral_partial`
* `Table.C49_roundtrip_partial`
* `Table.C49_violated`
* `Table.C49_violated_range`
* `Table.C49_violated_empty`
* `Table.C49_violated_float`
* `Table.C49_text_exact`
* `Table.C49_text_iff`
* `Catalog.C50_throws`
* `Catalog.C50_find`
* `Catalog.C51_decision_partial`
* `Catalog.C51_conventions_partial`
* `Catalog.C51_magnitude`
* `Catalog.C51_magnitude_sign`
* `Catalog.C51_photometry_partial`
* `Catalog.C51_violated`
* `Catalog.C51_violated_order`
* `Catalog.C51_violated_kind`
* `Catalog.C51_violated_short`
* `Catalog.C51_decision_exact`
* `Catalog.C51_conventions_iff`
* `Catalog.C51_positions`
* `Catalog.C52_reflexive_partial`
* `Catalog.C52_violated`
* `Catalog.C52_violated_nan`
* `Catalog.C53_find`
* `Catalog.C53_iterate`
* `Catalog.C53_assign`
* `Physics.C54_hubble_zero`
* `Physics.C54_hubble`
* `Physics.C54_zero`
* `Physics.C54_flat`
* `Physics.C54_curved`
* `Physics.C54_luminous_partial`
* `Physics.C54_modulus_zero`
* `Physics.C54_modulus`
* `Physics.C54_scaling`
* `Physics.C54_comoving`
* `Physics.C54_monotone`
* `Physics.C54_derivative`
* `Physics.C54_volume`
* `Physics.C54_deSitter`
* `Physics.C54_empty`
* `Physics.C54_milne`
* `Physics.C54_einstein_deSitter`
* `Physics.C54_violated`
* `Physics.C54_violated_jump`
* `SOM.C55_bmu`
* `SOM.C55_overflow`
* `SOM.C55_l2`
* `SOM.C55_l2_equal_uncertainties`
* `SOM.C56_step`
* `SOM.C56_hull`
* `SOM.C56_shipped`
* `SOM.C56_shipped_exponential`
* `SOM.C57_partial`
* `SOM.C57_beyond`
* `SOM.C57_violated`
* `SOM.C57_iff`
* `SOM.C58_jackknife`
* `SOM.C58_jackknife_all`
* `SOM.C59_fits_layout`
* `SOM.C59_fits`
* `NdArray.C60_attribute_access_partial`
* `NdArray.C60_attribute_of_slices`
* `NdArray.C60_one_by_one`
* `NdArray.C61_equality`
* `NdArray.C61_equality_any`
* `NdArray.C62_sum_axis`
* `NdArray.C62_sum_axis_rank_one`
* `NdArray.C63_argmax`
* `NdArray.C63_argmin`
* `NdArray.C64_trapz`
* `NdArray.C64_trapz_rank_one`
* `Grid.C65_axis_infimum`
* `Grid.C66_views_share_cells`
* `Histogram.C67_violated`
* `Histogram.C67_unclipped_partial`
* `Histogram.C67_clipped`
* `Histogram.C68_violated`
* `Histogram.C68_median_partial`
* `Histogram.C68_median_error`
* `Histogram.C69_mean_sigma`
* `ThreadPool.C70_no_throw_partial`
* `ThreadPool.C70_exact`
* `ThreadPool.C70_no_workers`
* `ThreadPool.C71_bounded_partial`
* `ThreadPool.C71_attained`
* `ThreadPool.C72_destructor`
* `ThreadPool.C72_counters`
* `FilePool.C73_loop`
* `FilePool.C73_loop_available`
* `FilePool.C74_ends_partial`
* `FilePool.C74_iff`
* `FilePool.C75_violated`
* `FilePool.C75_sequential`
* `FilePool.C75_bound_partial`
* `FilePool.C75_unbounded_violated`
* `Npy.C76_truncated_file_violated`
* `Npy.C76_truncated_data_reads_zeros_partial`
* `Npy.C76_cut_anywhere_partial`
* `Npy.C77_numpy_header_partial`
* `Npy.C77_scalar_violated`
* `Npy.C77_unsupported_refused`
* `Npy.C78_create_consistent`
* `Npy.C78_resize_consistent`
* `Npy.C78_refused_resize_violated`
* `SOM.C79_umatrix_partial`
* `SOM.C79_violated`
* `SOM.C79_symmetric`
* `SOM.C80_count`
* `SOM.C81_kohonen`
* `SOM.C81_kohonen_shape`
* `SOM.C81_width`
* `SOM.C81_factor_range`
* `SOM.C82_linear`
* `SOM.C82_exponential`
* `XYDataset.C83_order_partial`
* `XYDataset.C83_endless`
* `XYDataset.C83_ends`
* `XYDataset.C83_dot`
* `XYDataset.C83_dot_violated`
* `XYDataset.C83_order`
* `XYDataset.C83_listed`
* `XYDataset.C83_once_iff`
* `XYDataset.C84_violated`
* `XYDataset.C85_violated`
* `XYDataset.C86_no_begin`
* `XYDataset.C86_begin_partial`
* `XYDataset.C86_file_name`
* `XYDataset.C86_file_name_plain`
* `Configuration.C87_register`
* `Configuration.C87_circular`
* `Configuration.C87_returns`
* `Configuration.C88_handed`
* `Configuration.C88_final_iff`
* `Configuration.C89_id_partial`
* `Configuration.C89_violated`
* `Configuration.C90_detect_partial`
* `Configuration.C90_violated`
* `Configuration.C90_undefined_iff`
* `Configuration.C90_any_memory`
* `Configuration.C90_models_agree`
* `Configuration.C90_stale_memory_violated`
* `MathUtils.C91_findValue`
* `MathUtils.C91_normalize`
* `MathUtils.C92_centered_partial`
* `MathUtils.C92_violated`
* `MathUtils.C92_same_tray`
* `MathUtils.C92_in_order_iff`
* `MathUtils.C93_quadratic`
* `MathUtils.C93_none`
* `MathUtils.C93_linear`
* `MathUtils.C94_adaptive`
* `MathUtils.C94_overflow`
* `MathUtils.C94_cubic`
* `MathUtils.C95_step`
* `MathUtils.C95_exact`
* `MathUtils.C95_derivative`
* `MathUtils.C95_derivative2nd`
* `Table.C96_rows_partial`
* `Table.C96_violated`
* `Table.C96_columns`
* `Table.C96_same_partial`
* `Table.C97_row`
* `Table.C97_throws`
* `Table.C98_names`
* `Table.C98_default`
* `Catalog.C99_create`
* `Catalog.C99_column`
* `Catalog.C100_attribute`
* `Catalog.C101_pdf`
* `CatConfig.C102_catalog_partial`
* `CatConfig.C102_settings`
* `CatConfig.C102_defined_partial`
* `CatConfig.C102_violated`
* `CatConfig.C103_lifetime`
* `CatConfig.C103_guards`
* `CatConfig.C103_getters`
* `CatConfig.C104_columns`
* `CatConfig.C104_densities`
* `MathUtils.C105_draw_partial`
* `MathUtils.C105_returns`
* `MathUtils.C105_grid`
* `MathUtils.C105_cells`
* `MathUtils.C105_indexed`
* `MathUtils.C105_violated`
* `MathUtils.C105_outside_violated`
* `MathUtils.C105_rank_violated`
* `Table.Fits.C106_chunks_partial`
* `Table.Fits.C106_append_partial`
* `Table.Fits.C106_other_columns`
* `Table.Fits.C106_cut_violated`
* `Table.Fits.C106_image_violated`
* `Table.Fits.C106_parts_partial`
* `Grid.FitsIO.C107_round_partial`
* `Grid.FitsIO.C107_whole_partial`
* `Grid.FitsIO.C107_names_violated`
* `Grid.FitsIO.C107_slices_violated`
* `Grid.FitsIO.C107_later_violated`
* `Grid.FitsIO.C107_image_violated`
* `Grid.FitsIO.C107_empty_axis_violated`
* `Grid.FitsIO.C107_blank_violated`
* `Grid.Archive.C108_names`
* `Grid.Archive.C108_whole`
* `Grid.Archive.C108_several`
* `Grid.Archive.C108_slice_partial`
* `Grid.Archive.C108_slices_violated`
* `XYDataset.FitsIO.C109_dataset`
* `XYDataset.FitsIO.C109_columns`
* `XYDataset.FitsIO.C109_no_dataset`
* `XYDataset.FitsIO.C109_name`
* `XYDataset.FitsIO.C109_is_dataset_partial`
* `XYDataset.FitsIO.C109_refused`
* `XYDataset.FitsIO.C109_parameter`
* `XYDataset.FitsIO.C109_image_iff`
* `NdArray.C110_walk_partial`
* `NdArray.C110_write`
* `NdArray.C110_loop`
* `NdArray.C110_post_loop_violated`
* `Grid.C111_fix_partial`
* `Grid.C111_all_partial`
* `Grid.C111_all_missing`
* `Grid.C111_skip_violated`
* `Grid.C111_fix_iff`
* `XYDataset.AsciiIO.C112_points`
* `XYDataset.AsciiIO.C112_dataset_partial`
* `XYDataset.AsciiIO.C112_missing`
* `XYDataset.AsciiIO.C112_header_violated`
* `XYDataset.AsciiIO.C112_line_violated`
* `XYDataset.AsciiIO.C112_converse_violated`
* `XYDataset.AsciiIO.C112_name`
* `XYDataset.AsciiIO.C112_named`
* `Npy.Mmap.C113_mapped_partial`
* `Npy.Mmap.C113_resize`
* `Npy.Mmap.C113_violated`
* `Npy.Mmap.C113_full_writable_violated`
* `Npy.Mmap.C113_readonly_violated`
* `Npy.Mmap.C113_max_size_violated`
* `Npy.Mmap.C113_truncated_violated`
* `Npy.Mmap.C113_private_violated`
* `Npy.Mmap.C113_private_resize_violated`
* `Npy.Mmap.C113_copy_violated`
* `Npy.Mmap.C113_copy_shared_violated`
* `Npy.Mmap.C113_same_partial`
* `Npy.Mmap.C113_only_arrays`
* `Npy.Mmap.C113_refused`
* `Npy.Mmap.C113_copy_slice_violated`
* `FilePool.C114_close_all_partial`
* `FilePool.C114_destructor_partial`
* `FilePool.C115_history`
* `Configuration.C117_same_iff`
* `Configuration.C117_keeps`
* `XYDataset.C118_found`
* `XYDataset.C118_only`
* `XYDataset.C118_order`
* `XYDataset.C118_opens`
* `XYDataset.C118_ascii`
* `XYDataset.C118_slash_violated`
* `XYDataset.C118_violated`
* `SOM.Init.C119_program`
* `SOM.Init.C119_range`
* `SOM.Init.C119_same`
* `SOM.Init.C119_violated`
* `Histogram.C120_sqrt_partial`
* `Histogram.C120_scott_partial`
* `Histogram.C120_edges`
* `Histogram.C120_sqrt_violated`
* `Histogram.C120_scott_violated`
* `Histogram.C120_float_counts_partial`
* `Histogram.C120_float_counts_violated`
* `MathUtils.C121_fromPdf`
* `MathUtils.C121_sum_error`
* `MathUtils.C121_normalize`
* `MathUtils.C121_findValue`
* `MathUtils.C121_centered_partial`
* `MathUtils.C121_minimal_partial`
* `MathUtils.C121_normalize_violated`
* `MathUtils.C122_discrete`
* `MathUtils.C122_continuous_partial`
* `MathUtils.C122_violated`
* `MathUtils.C123_monotone_partial`
* `MathUtils.C123_error`
* `MathUtils.C123_simple_partial`
* `MathUtils.C123_nodes_violated`
* `MathUtils.C123_range_violated`
* `MathUtils.C123_monotone_violated`
* `MathUtils.C123_simple_violated`
* `SOM.C124_bmu`
* `SOM.C124_bmu_uncertain`
* `SOM.C124_towards`
* `SOM.C124_step_partial`
* `SOM.C124_range`
* `SOM.C124_step_violated`
* `SOM.C124_range_violated`
* `ThreadPool.C125_destructor`
* `ThreadPool.C125_block_partial`
* `ThreadPool.C125_block_exception`
* `ThreadPool.C125_tasks`
* `ThreadPool.C126_fifo_at_most_once`
* `ThreadPool.C126_block_partial`
* `FilePool.Threads.C127_exclusive`
* `FilePool.Threads.C127_known`
* `FilePool.Threads.C127_accounted`
* `FilePool.Threads.C127_unlocked`
* `FilePool.Threads.C128_ub_partial`
* `FilePool.Threads.C128_deadlock_partial`
* `FilePool.Threads.C128_room_partial`
* `FilePool.Threads.C129_readers_partial`
* `FilePool.Threads.C129_alone`
* `MathUtils.C130_eval`
* `MathUtils.C130_derivative`
* `MathUtils.C130_integral`
* `MathUtils.C130_product`
* `MathUtils.C130_exact`
* `MathUtils.C131_defined_partial`
* `MathUtils.C131_residual_partial`
* `MathUtils.C131_linear_partial`
* `MathUtils.C131_violated`
* `MathUtils.C131_accurate_violated`
* `Overflow.C131_finite_iff`
* `Overflow.C131_linear_iff`
* `Overflow.C131_no_overflow`
* `Overflow.C131_ordered`
* `Overflow.C131_overflow_violated`
* `Overflow.C131_silent_violated`
* `Overflow.C131_underflow_violated`
* `Overflow.C131_not_finite`
* `NdArray.C132_programs_partial`
* `NdArray.C133_sum`
* `NdArray.C133_sum_ge`
* `NdArray.C133_sum_all`
* `NdArray.C133_trapz`
* `NdArray.C133_trapz_nonneg`
* `MathUtils.C134_direct`
* `MathUtils.C134_refine`
* `MathUtils.C135_simpson`
* `MathUtils.C135_simpson_monotone`
* `MathUtils.C135_smooth_partial`
* `MathUtils.C135_monotone_partial`
* `MathUtils.C135_between`
* `MathUtils.C135_defined`
* `MathUtils.C135_violated`
* `Physics.C136_bounds`
* `Physics.C136_error`
* `Physics.C136_defined`
* `Physics.C136_default`
* `Physics.C136_error_smooth`
* `Physics.C136_modulus`
* `Table.C137_text`
* `Table.C137_read`
* `Table.C137_settled`
* `Table.C137_exact`
* `Table.C137_integers`
* `Table.C137_ok`
* `Table.C137_cast`
* `Table.C137_table`
* `Table.C137_violated`
* `Table.C137_violated_equal`
* `Configuration.C138_options`
* `Configuration.C138_returns`
* `Configuration.C138_distinct`
* `Configuration.C138_one_group`
* `XYDataset.AsciiIO.C139_points`
* `XYDataset.AsciiIO.C139_digits`
* `XYDataset.AsciiIO.C139_file`
* `XYDataset.AsciiIO.C139_sixteen`
* `XYDataset.AsciiIO.C139_eight`
* `XYDataset.AsciiIO.C139_repair`
* `XYDataset.AsciiIO.C139_table`
* `Grid.C140_programs_partial`
* `Histogram.C141_stats_partial`
* `Histogram.C141_assert_violated`
* `Histogram.C141_mean_violated`
* `Histogram.C141_sigma_violated`
* `MathUtils.C142_linear`
* `MathUtils.C142_second`
* `MathUtils.C142_unique`
* `MathUtils.C142_line`
* `MathUtils.C142_superposition`
* `MathUtils.C142_curvature`
* `MathUtils.C142_spline`
* `MathUtils.C143_error`
* `MathUtils.C143_range`
* `MathUtils.C143_lipschitz`
* `MathUtils.C143_multilinear`
* `MathUtils.C143_interpn`
* `Grid.Archive.C144_names`
* `Grid.Archive.C144_import`
* `Grid.Archive.C144_truncated`
* `Grid.FitsIO.C145_import`
* `Grid.FitsIO.C145_safe_partial`
* `Grid.FitsIO.C145_safe_violated`
* `Grid.FitsIO.C145_shape_violated`
* `MathUtils.C146_values_partial`
* `MathUtils.C146_nodes_partial`
* `MathUtils.C146_double_partial`
* `MathUtils.C146_violated`
* `Npy.C147_written_partial`
* `Npy.C147_mapped_partial`
* `Npy.C147_resized_partial`
* `Npy.C147_violated`
* `NdArray.C148_text`
* `NdArray.C148_same_partial`
* `NdArray.C148_violated`
* `NdArray.C148_shown`
* `NdArray.C148_concatenated`
* `MathUtils.C149_error`
* `MathUtils.C149_extrapolated`
* `MathUtils.C149_tabulated`
* `MathUtils.C149_interpn`
* `MathUtils.C149_constant`
* `MathUtils.C149_outside`
* `MathUtils.C149_violated`
* `Table.C150_refused`
* `Table.C150_settings`
* `Table.C150_columns`
* `Table.C150_plain`
* `Table.C150_accepted_partial`
* `Table.C150_violated`
* `Table.C150_header_violated`
* `Table.C150_blank_violated`
* `Table.C150_writer`
* `Table.Fits.C150_fits_columns`
* `Table.Fits.C150_fits_violated`
* `Table.Fits.C150_fits_auto`
* `Table.Fits.C150_fits_started`
* `Table.C150_exact`
* `Table.C150_here`
* `Table.Fits.C150_fits_not_table`
* `Npy.C151_read_partial`
* `Npy.C151_refused`
* `Npy.C151_bytes_refused`
* `Npy.C151_arrays_in_fields`
* `Npy.C151_bytes_violated`
* `Npy.C151_silent_violated`
* `Npy.C151_quote_violated`
* `Npy.C151_unset_violated`
* `Caches.C152_race_iff`
* `Caches.C152_filled`
* `Caches.C152_values`
* `Caches.C152_finishes`
* `Caches.C152_polynomials`
* `Caches.C152_names`
* `Caches.C152_zero_hash`
* `Caches.C152_violated`
* `Paths.C153_handler_partial`
* `NotANumber.C154_piecewise`
* `NotANumber.C154_integrate_from`
* `NotANumber.C154_integrate_to`
* `NotANumber.C154_histogram`
* `NotANumber.C154_min_interval`
* `NotANumber.C154_bmu`
* `NotANumber.C154_bmu_object`
* `NotANumber.C154_train_sample`
* `NotANumber.C154_train_keeps`
* `NotANumber.C154_train_lost`
* `NotANumber.C154_kdtree_order`
* `NotANumber.C154_numbers`
* `NotANumber.C154_violated`
* `KdTree.Overflow.C155_machine_partial`
* `KdTree.Overflow.C155_double_partial`
* `KdTree.Overflow.C155_nothing`
* `KdTree.Overflow.C155_lost`
* `KdTree.Overflow.C155_violated`
* `KdTree.Overflow.C155_radius_underflow`
* `Overflow.C156_sums`
* `Overflow.C156_findValue`
* `Overflow.C156_normalized`
* `Overflow.C156_min_interval`
* `Overflow.C156_cumulative_violated`
* `Overflow.C156_step`
* `Overflow.C156_bins`
* `Overflow.C156_bins_violated`
* `Overflow.C156_range_violated`
* `Overflow.C156_line`
* `Overflow.C156_line_violated`
* `Overflow.C156_distance`
* `Overflow.C156_bmu`
* `Overflow.C156_bmu_zero`
* `Overflow.C156_map_violated`
* `Overflow.C156_l2`
* `Overflow.C156_l2_overflow`
* `Table.C158_shared`
* `Table.C158_rows`
* `Table.C158_here`
* `Table.C158_alone`
* `Table.C158_tables`
* `Table.C158_violated`
* `Table.C158_continue_partial`
* `Table.C158_continue`
* `Table.C159_exact`
* `Table.C159_violated`
* `Table.C159_defined_partial`
* `Npy.C160_exact`
* `Npy.C160_undefined`
* `Npy.C160_mmap`
* `Npy.C160_violated`
* `Npy.C160_fields_unique`
* `Npy.C160_fields`
* `Npy.C160_uniform`
* `MathUtils.C161_vectors`
* `MathUtils.C161_nodes`
* `MathUtils.C161_curve_partial`
* `MathUtils.C161_violated`
* `BandConfig.C162_guards`
* `BandConfig.C162_history`
* `BandConfig.C162_initialised_iff`
* `BandConfig.C162_exact`
* `BandConfig.C162_once_partial`
* `BandConfig.C162_retry_violated`
* `BandConfig.C162_violated`
* `BandConfig.C162_flags`
* `BandConfig.C162_flag_violated`
* `ThreadPool.C163_running`
* `ThreadPool.C163_active`
* `ThreadPool.C163_exception`
* `ThreadPool.C163_poll`
* `ThreadPool.C163_poll_nested`
* `SOM.C164_cell`
* `SOM.C164_winner`
* `SOM.C164_single`
* `SOM.C164_overwrite`
* `SOM.C164_shipped`
* `SOM.C164_learned`
* `Configuration.Instance.C165_violated`
* `Configuration.Instance.C165_race_iff`
* `Configuration.Instance.C165_destroyed_iff`
* `Configuration.Instance.C165_pointer_race_iff`
* `MathUtils.C166_result`
* `MathUtils.C166_ends`
* `Physics.C166_comoving`
* `Physics.C166_default`
* `FilePool.C167_reuses`
* `FilePool.C167_opens`
* `Table.C168_iff`
* `Table.C168_refused`
* `Table.C168_unique`
* `Physics.C169_transverse`
* `Physics.C169_defined`
* `Physics.C169_luminous`
* `Physics.C169_modulus`
* `Physics.C169_modulus_zero`
* `Physics.C169_volume`
* `Grid.C170_corner`
* `Grid.C170_cell_partial`
* `Grid.C170_slices`
* `Grid.C170_slices_violated`
* `Grid.C170_equal`
* `Grid.Archive.C171_exact`
* `Grid.Archive.C171_single_partial`
* `Grid.Archive.C171_reuse_violated`
* `Catalog.C172_rows`
* `Catalog.C172_find`
* `Catalog.C172_others`
* `MathUtils.FloatModes.C173_highest`
* `MathUtils.FloatModes.C173_biggest`
* `MathUtils.FloatModes.C173_nan`
* `MathUtils.FloatModes.C173_area`
* `MathUtils.FloatModes.C173_order`
* `SOM.FloatU.C174_extrema`
* `SOM.FloatU.C174_mean_nan`
* `SOM.FloatU.C174_symmetric`
* `SOM.FloatU.C174_mean`
* `SOM.FloatU.C174_between_partial`
* `SOM.FloatU.C174_between_violated`
* `SOM.C175_linear`
* `SOM.C175_linear_pos`
* `SOM.C175_exponential`
* `SOM.C175_disk`
* `SOM.C175_kohonen_calls`
* `SOM.C175_kohonen`
* `SOM.C175_kohonen_farther`
* `SOM.C175_kohonen_bmu`
* `SOM.C175_training`
* `MathUtils.C176_rows`
* `MathUtils.C176_discrete`
* `MathUtils.C176_outside`
* `MathUtils.C176_violated`
* `MathUtils.C176_first_violated`

