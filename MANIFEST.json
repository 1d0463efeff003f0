{
 "claims": [
  {
   "property": "C01",
   "status": "proved",
   "theorems": [
    "Alexandria.KdTree.C01_machine",
    "Alexandria.KdTree.C01_double",
    "Alexandria.KdTree.C01_query_eq_scan",
    "Alexandria.KdTree.C01_negative_radius_differs",
    "Alexandria.KdTree.C01_leaf_size_zero_throws"
   ],
   "note": "Proved for every monotone, symmetric rounding of the arithmetic (C01_machine), for binary floating point with 53 bits (C01_double; exponents unbounded) and for exact arithmetic (C01_query_eq_scan); std::sort is any sorted permutation. The two extra theorems show that the hypotheses radius >= 0 and leaf size >= 1 are needed."
  },
  {
   "property": "C02",
   "status": "proved",
   "theorems": [
    "Alexandria.NdArray.C02_at_row_major",
    "Alexandria.NdArray.C02_enumeration_complete",
    "Alexandria.NdArray.C02_write_changes_one",
    "Alexandria.NdArray.C02_large_shape_violated",
    "Alexandria.NdArray.C02_one_by_one"
   ],
   "note": "For shapes of fewer than 2^32 elements; the last theorem shows that the 32-bit accumulation of the size breaks the property above that."
  },
  {
   "property": "C03",
   "status": "proved",
   "theorems": [
    "Alexandria.NdArray.C03_slices_are_views",
    "Alexandria.NdArray.C03_slice_coordinates",
    "Alexandria.NdArray.C03_slice_succeeds_iff"
   ],
   "note": ""
  },
  {
   "property": "C04",
   "status": "proved",
   "theorems": [
    "Alexandria.NdArray.C04_iteration_row_major"
   ],
   "note": "For arrays of fewer than 2^31 elements (int accumulation) and rank >= 1."
  },
  {
   "property": "C05",
   "status": "partial",
   "theorems": [
    "Alexandria.NdArray.C05_reshape_keeps_order_partial",
    "Alexandria.NdArray.C05_reshape_of_right_slice_violated",
    "Alexandria.NdArray.C05_reshape_any",
    "Alexandria.NdArray.C05_keeps_iff",
    "Alexandria.NdArray.C05_one_by_one"
   ],
   "note": "Code violates the property for right slices (negation proved); proved for whole arrays and left slices. C05_reshape_any: for every chain of slices, the reshaped array shows consecutive elements of the whole array from the first element of the slice on. C05_keeps_iff: for arrays of distinct elements, the reshape of a slice keeps the elements exactly if the slice has one element or all axes cut off at the right have size 1."
  },
  {
   "property": "C06",
   "status": "partial",
   "theorems": [
    "Alexandria.NdArray.C06_concatenate_rows_partial",
    "Alexandria.NdArray.C06_size_after_concatenate_violated",
    "Alexandria.NdArray.C06_concatenate_to_slice_violated",
    "Alexandria.NdArray.C06_concatenate_mismatch_throws",
    "Alexandria.NdArray.C06_concatenate_effect",
    "Alexandria.NdArray.C06_concatenate_chain",
    "Alexandria.NdArray.C06_concatenate_to_part_ub"
   ],
   "note": "Code violates the property: size() and iteration are stale after concatenate (negation proved). Proved: access by coordinates, also after any number of calls (C06_concatenate_chain, with what size and iteration report); the exact effect of a call for any source, also of the same container or concatenated to before (C06_concatenate_effect); undefined for every target that is a proper part of an array (C06_concatenate_to_part_ub)."
  },
  {
   "property": "C07",
   "status": "partial",
   "theorems": [
    "Alexandria.NdArray.C07_copy_equal_partial",
    "Alexandria.NdArray.C07_copy_independent",
    "Alexandria.NdArray.C07_copy_of_slice_violated",
    "Alexandria.NdArray.C07_copy_any",
    "Alexandria.NdArray.C07_copy_iff"
   ],
   "note": "Code violates equality for copies of slices (negation proved); C07_copy_any: the copy of every slice shows the first elements of the whole array. C07_copy_iff: for arrays of distinct elements, the copy of a slice equals it exactly if every slice is taken at index 0 and the slice has one element or all axes cut off at the right have size 1. Independence proved for all views."
  },
  {
   "property": "C08",
   "status": "proved",
   "theorems": [
    "Alexandria.NdArray.C08_unravel_index",
    "Alexandria.NdArray.C08_degenerate_shapes_ub"
   ],
   "note": ""
  },
  {
   "property": "C09",
   "status": "partial",
   "theorems": [
    "Alexandria.Npy.C09_round_trip_violated",
    "Alexandria.Npy.C09_attribute_called_shape_violated",
    "Alexandria.Npy.C09_single_record_violated",
    "Alexandria.Npy.C09_bracket_in_name_violated",
    "Alexandria.Npy.C09_empty_array_violated",
    "Alexandria.Npy.C09_round_trip_partial",
    "Alexandria.Npy.C09_round_trip_view_partial"
   ],
   "note": "Round trip proved for every shape, content and list of safe attribute names; violated for names with keywords or brackets, single records and empty arrays."
  },
  {
   "property": "C10",
   "status": "proved",
   "theorems": [
    "Alexandria.Npy.C10_header_alignment",
    "Alexandria.Npy.C10_header_written_iff"
   ],
   "note": "Alignment for every header, length field when the header fits in 32 bits."
  },
  {
   "property": "C11",
   "status": "proved",
   "theorems": [
    "Alexandria.FilePool.C11_limit",
    "Alexandria.FilePool.C11_room",
    "Alexandria.FilePool.C11_open_total",
    "Alexandria.FilePool.C11_handlers",
    "Alexandria.FilePool.C11_system",
    "Alexandria.FilePool.C11_system_none_iff"
   ],
   "note": "All histories of whole calls, on the manager alone with arbitrary answers of the callbacks and with handlers and accessors. Several threads inside open(): C73. A limit taken from the process is kept in 32 bits: it is that of the process minus 3 if this fits (C11_system); for limits of 3 modulo 2^32 the pool can open no file (C11_system_none_iff)."
  },
  {
   "property": "C12",
   "status": "proved",
   "theorems": [
    "Alexandria.FilePool.C12_victim",
    "Alexandria.FilePool.C12_room",
    "Alexandria.FilePool.C12_order"
   ],
   "note": "The age of a file is defined from the log of opens and uses, not from the list of the manager."
  },
  {
   "property": "C13",
   "status": "partial",
   "theorems": [
    "Alexandria.FilePool.C13_violated",
    "Alexandria.FilePool.C13_exclusive",
    "Alexandria.FilePool.C13_known_partial",
    "Alexandria.FilePool.C13_accounting",
    "Alexandria.FilePool.C13_drops_iff",
    "Alexandria.FilePool.C13_known_iff"
   ],
   "note": "Violated: a write request for another stream type drops the idle descriptor without closing it. Proved without such requests (C13_known_partial); exclusiveness in all histories. C13_drops_iff: these are exactly the calls that drop a descriptor; C13_known_iff: the open files are all known after a history exactly if it has no such call."
  },
  {
   "property": "C14",
   "status": "partial",
   "theorems": [
    "Alexandria.FilePool.C14_violated",
    "Alexandria.FilePool.C14_try_never",
    "Alexandria.FilePool.C14_two_writers",
    "Alexandria.FilePool.C14_exclusion_partial"
   ],
   "note": "Exclusion proved while handlers outlive their accessors; non-blocking requests on a free file throw."
  },
  {
   "property": "C15",
   "status": "partial",
   "theorems": [
    "Alexandria.ThreadPool.C15_fifo_at_most_once",
    "Alexandria.ThreadPool.C15_start_order_violated",
    "Alexandria.ThreadPool.C15_single_worker_order",
    "Alexandria.ThreadPool.C15_order_iff"
   ],
   "note": "Tasks are handed to workers in order and at most once (all interleavings). The tasks may begin in another order when there are several workers: violated; C15_order_iff: they begin in order in every execution exactly if the pool has at most one worker."
  },
  {
   "property": "C16",
   "status": "proved",
   "theorems": [
    "Alexandria.ThreadPool.C16_block_returns",
    "Alexandria.ThreadPool.C16_block_throws",
    "Alexandria.ThreadPool.C16_block_can_finish"
   ],
   "note": "Sequentially consistent memory; see C70 for the data race."
  },
  {
   "property": "C17",
   "status": "proved",
   "theorems": [
    "Alexandria.Grid.C17_cell_of_coords",
    "Alexandria.Grid.C17_coords_of_cell"
   ],
   "note": ""
  },
  {
   "property": "C18",
   "status": "proved",
   "theorems": [
    "Alexandria.Grid.C18_at_exact"
   ],
   "note": ""
  },
  {
   "property": "C19",
   "status": "partial",
   "theorems": [
    "Alexandria.Grid.C19_slice_iteration",
    "Alexandria.Grid.C19_iterator_fixings",
    "Alexandria.Grid.C19_empty_grid",
    "Alexandria.Grid.C19_empty_axis_violated",
    "Alexandria.Grid.C19_empty_axis"
   ],
   "note": "Proved for all grids without empty axes (and unsliced empty grids); for slices of grids with an empty axis the code violates the property (witness). C19_empty_axis says for every such slice whether begin() is undefined, the loop is empty, or starts behind its end."
  },
  {
   "property": "C20",
   "status": "partial",
   "theorems": [
    "Alexandria.Grid.C20_chained_slices_violated",
    "Alexandria.Grid.C20_single_slice_partial",
    "Alexandria.Grid.C20_chained_slices"
   ],
   "note": "Code violates the property for chained slices (negation proved). C20_chained_slices: what every chain of slices reports, and exactly when its size is right."
  },
  {
   "property": "C21",
   "status": "partial",
   "theorems": [
    "Alexandria.Table.faithful_new",
    "Alexandria.Table.faithful_slice",
    "Alexandria.Table.C21_rows_partial",
    "Alexandria.Table.C21_violated",
    "Alexandria.Table.C21_violated_empty",
    "Alexandria.Table.C21_faithful_iff",
    "Alexandria.Table.C21_throws"
   ],
   "note": "Proved for grids and for slices that report the right axes (C21_rows_partial), with arbitrary traits for knots and cells whose cells fit the columns. C21_faithful_iff: these are the slices all of whose axes but the one fixed last are free or have one knot; C21_throws: for all others the conversion throws. Grids with an empty axis are undefined behaviour (C21_violated_empty)."
  },
  {
   "property": "C22",
   "status": "partial",
   "theorems": [
    "Alexandria.Histogram.C22_edge_vector",
    "Alexandria.Histogram.C22_sqrt",
    "Alexandria.Histogram.C22_scott",
    "Alexandria.Histogram.C22_sqrt_int_violated",
    "Alexandria.Histogram.C22_sqrt_int_zero_step_violated",
    "Alexandria.Histogram.C22_sqrt_int_exact"
   ],
   "note": "Holds for explicit edges over any linear order and for Sqrt/Scott bins over any ordered floor field (no rounding). Integer Sqrt bins lose values or divide by zero: violated; C22_sqrt_int_exact says exactly when, and what each bin holds."
  },
  {
   "property": "C23",
   "status": "partial",
   "theorems": [
    "Alexandria.Histogram.C23_clip_shrinks",
    "Alexandria.Histogram.C23_clip_exact",
    "Alexandria.Histogram.C23_stats_violated",
    "Alexandria.Histogram.C23_stats_partial"
   ],
   "note": "Clip bookkeeping proved for all sequences of clips; the median after a clip reads a bin outside it: violated."
  },
  {
   "property": "C24",
   "status": "proved",
   "theorems": [
    "Alexandria.Configuration.C24_initialize"
   ],
   "note": "For managers after a successful closeRegistration, hooks that do not throw. All orders of type_index."
  },
  {
   "property": "C25",
   "status": "partial",
   "theorems": [
    "Alexandria.Configuration.C25_result",
    "Alexandria.Configuration.C25_acyclic_returns",
    "Alexandria.Configuration.C25_cycle_partial",
    "Alexandria.Configuration.C25_reported_cycle",
    "Alexandria.Configuration.C25_registered",
    "Alexandria.Configuration.C25_violated",
    "Alexandria.Configuration.C25_endless",
    "Alexandria.Configuration.C25_otherwise",
    "Alexandria.Configuration.C25_in_order",
    "Alexandria.Configuration.C25_cleanup_needed"
   ],
   "note": "Acyclic graphs are accepted; a result is always right; what is printed is a cycle. When a cycle is reachable only from a node outside it, the search may recurse for ever (C25_violated). C25_endless says exactly when it does, for all managers that registrations can make (C25_in_order); otherwise the statement holds (C25_otherwise)."
  },
  {
   "property": "C26",
   "status": "partial",
   "theorems": [
    "Alexandria.Configuration.C26_throws",
    "Alexandria.Configuration.C26_thresholds",
    "Alexandria.Configuration.C26_mapping_partial",
    "Alexandria.Configuration.C26_violated",
    "Alexandria.Configuration.C26_parse",
    "Alexandria.Configuration.C26_blank_line",
    "Alexandria.Configuration.C26_mapping_any",
    "Alexandria.Configuration.C26_agree_iff"
   ],
   "note": "Exact throwing condition and exact thresholds, conversions and mapping for every file; the mapping agrees with the others exactly if no excluded filter occurs twice in the file (C26_agree_iff, C26_violated). C26_parse: which lines are accepted; std::stof and std::stoi are parameters."
  },
  {
   "property": "C27",
   "status": "partial",
   "theorems": [
    "Alexandria.Configuration.C27_exact",
    "Alexandria.Configuration.C27_names_partial",
    "Alexandria.Configuration.C27_complete",
    "Alexandria.Configuration.C27_violated"
   ],
   "note": "C27_exact describes the result for all inputs. It is the claimed one when options that begin with a prefix continue with a hyphen."
  },
  {
   "property": "C28",
   "status": "proved",
   "theorems": [
    "Alexandria.XYDataset.C28_accepts",
    "Alexandria.XYDataset.C28_parse_text",
    "Alexandria.XYDataset.C28_text_parse",
    "Alexandria.XYDataset.C28_eq",
    "Alexandria.XYDataset.C28_hashed",
    "Alexandria.XYDataset.C28_order",
    "Alexandria.XYDataset.C28_belongs"
   ],
   "note": "Names built by either constructor (QName.Valid), with or without the cached hash. The hash function is a parameter; equality first compares hashes, so it never depends on collisions. The order is the order of the bytes of the text."
  },
  {
   "property": "C29",
   "status": "proved",
   "theorems": [
    "Alexandria.XYDataset.C29_transparent",
    "Alexandria.XYDataset.C29_once",
    "Alexandria.XYDataset.C29_sticky"
   ],
   "note": "C29_once assumes the provider answers without throwing (a failed request is not remembered); C29_transparent needs no such assumption. C29_sticky: the first answer is kept even if the provider changes."
  },
  {
   "property": "C30",
   "status": "proved",
   "theorems": [
    "Alexandria.XYDataset.C30_list",
    "Alexandria.XYDataset.C30_slashes",
    "Alexandria.XYDataset.C30_belongs",
    "Alexandria.XYDataset.C30_ctor",
    "Alexandria.XYDataset.C30_ctor_valid"
   ],
   "note": "Names as the constructor builds them (C30_ctor_valid). The file system is a parameter. Boost file system calls and symbolic links not modelled."
  },
  {
   "property": "C31",
   "status": "proved",
   "theorems": [
    "Alexandria.MathUtils.C31_eval",
    "Alexandria.MathUtils.C31_product",
    "Alexandria.MathUtils.C31_derivative",
    "Alexandria.MathUtils.C31_antiderivative",
    "Alexandria.MathUtils.C31_integral"
   ],
   "note": "Exact arithmetic: any field for values and products, the reals for derivative and integral. C31_product: polynomials that both have no coefficients throw."
  },
  {
   "property": "C32",
   "status": "proved",
   "theorems": [
    "Alexandria.MathUtils.C32_constructor",
    "Alexandria.MathUtils.C32_eval",
    "Alexandria.MathUtils.C32_cases",
    "Alexandria.MathUtils.C32_integrate",
    "Alexandria.MathUtils.C32_antisymmetric",
    "Alexandria.MathUtils.C32_additive",
    "Alexandria.MathUtils.C32_integral",
    "Alexandria.MathUtils.C32_single_knot",
    "Alexandria.MathUtils.C32_scheme",
    "Alexandria.MathUtils.C32_scheme_ignored"
   ],
   "note": "Exact arithmetic, all knot lists the constructor accepts with at least one piece. A function with one knot and no piece is undefined at the knot (C32_single_knot)."
  },
  {
   "property": "C33",
   "status": "partial",
   "theorems": [
    "Alexandria.MathUtils.C33_knots_partial",
    "Alexandria.MathUtils.C33_simple",
    "Alexandria.MathUtils.C33_with_simple",
    "Alexandria.MathUtils.C33_piecewise_partial",
    "Alexandria.MathUtils.C33_violated",
    "Alexandria.MathUtils.C33_jump",
    "Alexandria.MathUtils.C33_touching",
    "Alexandria.MathUtils.C33_knots_exact",
    "Alexandria.MathUtils.C33_apart",
    "Alexandria.MathUtils.C33_at_begin",
    "Alexandria.MathUtils.C33_not_finite"
   ],
   "note": "For pieces that are not piecewise themselves there is a theorem for every pair of functions: right wherever the overlap has a positive length (C33_piecewise_partial) except that where it begins the pieces to the right are multiplied (C33_at_begin); without such an overlap the call is undefined, or returns a function that is undefined at its only knot (C33_apart, C33_knots_exact). The last two refute the full statement (C33_violated, C33_jump, C33_touching)."
  },
  {
   "property": "C34",
   "status": "proved",
   "theorems": [
    "Alexandria.MathUtils.C34_throws",
    "Alexandria.MathUtils.C34_segments",
    "Alexandria.MathUtils.C34_linear",
    "Alexandria.MathUtils.C34_repeated",
    "Alexandria.MathUtils.C34_steps_violated",
    "Alexandria.MathUtils.C34_first_step",
    "Alexandria.MathUtils.C34_single"
   ],
   "note": "Exact arithmetic, any ordered field. The claim of the header that step functions are refused is violated and stated separately (C34_steps_violated); a single point is C34_single."
  },
  {
   "property": "C35",
   "status": "proved",
   "theorems": [
    "Alexandria.MathUtils.C35_spline",
    "Alexandria.MathUtils.C35_nodes",
    "Alexandria.MathUtils.C35_derivatives",
    "Alexandria.MathUtils.C35_smooth",
    "Alexandria.MathUtils.C35_step"
   ],
   "note": "Exact arithmetic; C35_smooth over the reals. Strictly increasing abscissae, at least two of them; equal neighbours are C35_step."
  },
  {
   "property": "C36",
   "status": "partial",
   "theorems": [
    "Alexandria.MathUtils.C36_throws",
    "Alexandria.MathUtils.C36_single",
    "Alexandria.MathUtils.C36_segments_partial",
    "Alexandria.MathUtils.C36_nodes_partial",
    "Alexandria.MathUtils.C36_violated",
    "Alexandria.MathUtils.C36_exact",
    "Alexandria.MathUtils.C36_last_of_equal"
   ],
   "note": "Exact arithmetic. C36_exact: the value for every table of increasing abscissae and every argument; with two points of the same abscissa at an end of the table the code averages an abscissa and an ordinate (C36_violated)."
  },
  {
   "property": "C37",
   "status": "proved",
   "theorems": [
    "Alexandria.MathUtils.C37_node",
    "Alexandria.MathUtils.C37_returns",
    "Alexandria.MathUtils.C37_affine",
    "Alexandria.MathUtils.C37_outside",
    "Alexandria.MathUtils.C37_throws",
    "Alexandria.MathUtils.C37_decreasing",
    "Alexandria.MathUtils.C37_interpn",
    "Alexandria.MathUtils.C37_interpn_type",
    "Alexandria.MathUtils.C37_unknown",
    "Alexandria.MathUtils.C37_unknown_violated",
    "Alexandria.MathUtils.C37_unsorted_violated"
   ],
   "note": "Exact arithmetic; any number of continuous and discrete axes, strictly increasing or distinct knots, fewer than 2^31 values. An unknown discrete argument is undefined behaviour instead of 0, and the order of the last axis is not checked (stated separately)."
  },
  {
   "property": "C38",
   "status": "partial",
   "theorems": [
    "Alexandria.MathUtils.C38_continuous_partial",
    "Alexandria.MathUtils.C38_close",
    "Alexandria.MathUtils.C38_falling",
    "Alexandria.MathUtils.C38_throws",
    "Alexandria.MathUtils.C38_discrete",
    "Alexandria.MathUtils.C38_mass_integral",
    "Alexandria.MathUtils.C38_violated",
    "Alexandria.MathUtils.C38_sizes_violated",
    "Alexandria.MathUtils.C38_plateau_violated"
   ],
   "note": "Exact wherever the density does not rise; on a rising segment the result can be wrong within 1e-8 of its beginning, by at most 2e-8 (C38_close), so the exact statement is violated (C38_violated). Unequal sizes reach memory out of bounds (C38_sizes_violated), and at a plateau the result is its end (C38_plateau_violated)."
  },
  {
   "property": "C39",
   "status": "partial",
   "theorems": [
    "Alexandria.MathUtils.C39_fromPdf",
    "Alexandria.MathUtils.C39_minimal_partial",
    "Alexandria.MathUtils.C39_throws",
    "Alexandria.MathUtils.C39_single",
    "Alexandria.MathUtils.C39_violated",
    "Alexandria.MathUtils.C39_zero_violated"
   ],
   "note": "The weight of the first sample of a candidate is counted only if it is the first of all, so the interval is minimal for what is counted (C39_minimal_partial) but not for the closed weight (C39_violated). Without any weight the ends are exchanged (C39_zero_violated)."
  },
  {
   "property": "C40",
   "status": "partial",
   "theorems": [
    "Alexandria.MathUtils.C40_catchPeak",
    "Alexandria.MathUtils.C40_highest",
    "Alexandria.MathUtils.C40_biggest_partial",
    "Alexandria.MathUtils.C40_biggest_complete",
    "Alexandria.MathUtils.C40_vertex",
    "Alexandria.MathUtils.C40_flat",
    "Alexandria.MathUtils.C40_violated",
    "Alexandria.MathUtils.C40_zero_violated",
    "Alexandria.MathUtils.C40_small_violated",
    "Alexandria.MathUtils.C40_border"
   ],
   "note": "extractNHighestModes: full for three or more samples. extractNBigestModes: termination, order, safety and that nothing bigger is missed are proved for n >= 1; \"at most n\" is violated (C40_violated), n = 0 is undefined behaviour (C40_zero_violated), and so are fewer than three samples (C40_small_violated)."
  },
  {
   "property": "C41",
   "status": "proved",
   "theorems": [
    "Alexandria.MathUtils.C41_rule",
    "Alexandria.MathUtils.C41_refine",
    "Alexandria.MathUtils.C41_cubic",
    "Alexandria.MathUtils.C41_integral",
    "Alexandria.MathUtils.C41_throws"
   ],
   "note": "Exact arithmetic; orders below 31, beyond which the number of steps overflows int."
  },
  {
   "property": "C42",
   "status": "partial",
   "theorems": [
    "Alexandria.Table.C42_refines_partial",
    "Alexandria.Table.C42_columns_partial",
    "Alexandria.Table.C42_text_partial",
    "Alexandria.Table.C42_chunks_partial",
    "Alexandria.Table.C42_skip_partial",
    "Alexandria.Table.C42_violated"
   ],
   "note": "For texts shorter than 2^31 bytes; beyond, the position of the stream does not fit the int it is kept in and rows are lost (C42_violated). read(0) throws, as there is no empty table."
  },
  {
   "property": "C43",
   "status": "partial",
   "theorems": [
    "Alexandria.Table.C43_roundtrip_partial",
    "Alexandria.Table.C43_columns_partial",
    "Alexandria.Table.C43_violated",
    "Alexandria.Table.C43_violated_comment",
    "Alexandria.Table.C43_violated_vector",
    "Alexandria.Table.C43_violated_unit"
   ],
   "note": "Proved for all tables, in any number of addData calls and with any comments before them, except: strings with whitespace or quotes in the first column, the first character of the comment indicator in names, units, descriptions or cells, empty vectors, units beginning with whitespace or with line breaks, a first column named Column:…. For the first four the claim is refuted by concrete tables. Floating point columns are covered under the hypothesis that the printed text is read back."
  },
  {
   "property": "C44",
   "status": "proved",
   "theorems": [
    "Alexandria.Table.C44_keywords",
    "Alexandria.Table.C44_types"
   ],
   "note": ""
  },
  {
   "property": "C45",
   "status": "proved",
   "theorems": [
    "Alexandria.Table.C45_description",
    "Alexandria.Table.C45_info",
    "Alexandria.Table.C45_row",
    "Alexandria.Table.C45_table",
    "Alexandria.Table.C45_cells",
    "Alexandria.Table.C45_find",
    "Alexandria.Table.C45_access",
    "Alexandria.Table.C45_equal"
   ],
   "note": "Constructors, lookups and equality of rows, tables and column infos."
  },
  {
   "property": "C46",
   "status": "partial",
   "theorems": [
    "Alexandria.Table.C46_tdim_partial",
    "Alexandria.Table.C46_violated",
    "Alexandria.Table.FitsExact.C46_tdim_iff",
    "Alexandria.Table.C46_tdim_refused"
   ],
   "note": "Proved for every shape with dimensions below 2^64: C46_tdim_iff says that the shape is read back exactly if there are no axes or the product of the dimensions is not 1 (modulo 2^64); for all other arrays no dimensions are written, and the claim is refuted (C46_violated)."
  },
  {
   "property": "C47",
   "status": "partial",
   "theorems": [
    "Alexandria.Table.C47_refines_partial",
    "Alexandria.Table.C47_past",
    "Alexandria.Table.C47_negative",
    "Alexandria.Table.C47_violated",
    "Alexandria.Table.C47_any",
    "Alexandria.Table.C47_iff"
   ],
   "note": "Proved for all sequences of calls with read(n), n ≥ -1, and skip(n) within the rows left. After skipping past the end hasMoreRows() is false and read throws, but rowsLeft() wraps around (refuted): C47_any says what all sequences of calls give, however many rows are skipped, and C47_iff exactly which of them behave as the list of the rows left. Negative numbers other than -1 make read throw."
  },
  {
   "property": "C48",
   "status": "partial",
   "theorems": [
    "Alexandria.Table.C48_binary_partial",
    "Alexandria.Table.C48_accepts",
    "Alexandria.Table.C48_ascii_partial",
    "Alexandria.Table.C48_violated",
    "Alexandria.Table.C48_violated_string",
    "Alexandria.Table.C48_violated_bool",
    "Alexandria.Table.C48_violated_array",
    "Alexandria.Table.FitsExact.C48_exact",
    "Alexandria.Table.FitsExact.C48_kept_iff"
   ],
   "note": "C48_exact says what the type of every column of a binary table is read as, and C48_kept_iff exactly when it is the type that was written: not for vectors or arrays of one element, columns whose widest string has one character, vectors of booleans and sizes beyond int, for which the claim is refuted. ASCII columns are read as the widest type of their kind."
  },
  {
   "property": "C49",
   "status": "partial",
   "theorems": [
    "Alexandria.Table.C49_same",
    "Alexandria.Table.C49_type",
    "Alexandria.Table.C49_accepts",
    "Alexandria.Table.C49_value",
    "Alexandria.Table.C49_float",
    "Alexandria.Table.C49_numeral_partial",
    "Alexandria.Table.C49_rejects",
    "Alexandria.Table.C49_vector",
    "Alexandria.Table.C49_singleton",
    "Alexandria.Table.C49_roundtrip_partial",
    "Alexandria.Table.C49_violated",
    "Alexandria.Table.C49_violated_range",
    "Alexandria.Table.C49_violated_empty",
    "Alexandria.Table.C49_violated_float",
    "Alexandria.Table.C49_text_exact",
    "Alexandria.Table.C49_text_iff"
   ],
   "note": "Proved for conversions between numbers and vectors of numbers of boolean and integer types, and for texts that are numerals in the range of the type. Refuted for texts with trailing characters or out of the range of int64_t, for lists with empty elements, and for int64_t to float. Floating point conversions and strtod are parameters."
  },
  {
   "property": "C50",
   "status": "proved",
   "theorems": [
    "Alexandria.Catalog.C50_throws",
    "Alexandria.Catalog.C50_find"
   ],
   "note": "The std::map with the order of boost::variant is modelled, keys are compared by this order."
  },
  {
   "property": "C51",
   "status": "partial",
   "theorems": [
    "Alexandria.Catalog.C51_decision_partial",
    "Alexandria.Catalog.C51_conventions_partial",
    "Alexandria.Catalog.C51_magnitude",
    "Alexandria.Catalog.C51_magnitude_sign",
    "Alexandria.Catalog.C51_photometry_partial",
    "Alexandria.Catalog.C51_violated",
    "Alexandria.Catalog.C51_violated_order",
    "Alexandria.Catalog.C51_violated_kind",
    "Alexandria.Catalog.C51_violated_short",
    "Alexandria.Catalog.C51_decision_exact",
    "Alexandria.Catalog.C51_conventions_iff",
    "Alexandria.Catalog.C51_positions"
   ],
   "note": "Proved for errors that are not NaN, finite thresholds, and thresholds and kinds listed in the order of the filters. Refuted otherwise: NaN errors are accepted, thresholds and kinds are taken by position, fewer thresholds than filters is undefined behaviour. C51_decision_exact and C51_positions: what is returned for all errors, thresholds and orders; C51_conventions_iff: exactly which values obey the conventions. Elements::isEqual, pow and log are parameters; finite numbers are those of an ordered field."
  },
  {
   "property": "C52",
   "status": "partial",
   "theorems": [
    "Alexandria.Catalog.C52_symmetric",
    "Alexandria.Catalog.C52_reflexive_partial",
    "Alexandria.Catalog.C52_transitive_partial",
    "Alexandria.Catalog.C52_equal",
    "Alexandria.Catalog.C52_violated",
    "Alexandria.Catalog.C52_violated_nan",
    "Alexandria.Catalog.C52_transitive_iff"
   ],
   "note": "Symmetric; reflexive exactly without NaN; transitive except for one combination of missing flags (C52_transitive_iff: exactly which triples). Refuted in general."
  },
  {
   "property": "C53",
   "status": "proved",
   "theorems": [
    "Alexandria.Catalog.C53_construct",
    "Alexandria.Catalog.C53_find",
    "Alexandria.Catalog.C53_iterate",
    "Alexandria.Catalog.C53_assign"
   ],
   "note": ""
  },
  {
   "property": "C54",
   "status": "partial",
   "theorems": [
    "Alexandria.Physics.C54_hubble_zero",
    "Alexandria.Physics.C54_hubble",
    "Alexandria.Physics.C54_zero",
    "Alexandria.Physics.C54_flat",
    "Alexandria.Physics.C54_curved",
    "Alexandria.Physics.C54_luminous_partial",
    "Alexandria.Physics.C54_modulus_zero",
    "Alexandria.Physics.C54_modulus",
    "Alexandria.Physics.C54_scaling",
    "Alexandria.Physics.C54_comoving",
    "Alexandria.Physics.C54_monotone",
    "Alexandria.Physics.C54_derivative",
    "Alexandria.Physics.C54_volume",
    "Alexandria.Physics.C54_deSitter",
    "Alexandria.Physics.C54_empty",
    "Alexandria.Physics.C54_milne",
    "Alexandria.Physics.C54_einstein_deSitter",
    "Alexandria.Physics.C54_violated",
    "Alexandria.Physics.C54_violated_jump"
   ],
   "note": "All parts hold over the reals, for every integration scheme where no integral is mentioned; only the luminosity distance at redshift 0 is not (1+z) times the transverse one but 10, as the header documents, which is refuted as C54_full. Rounding is not modelled, the error of the adaptive integration neither; the test for equality with 0 is a parameter."
  },
  {
   "property": "C55",
   "status": "proved",
   "theorems": [
    "Alexandria.SOM.C55_bmu",
    "Alexandria.SOM.C55_overflow",
    "Alexandria.SOM.C55_empty",
    "Alexandria.SOM.C55_l2",
    "Alexandria.SOM.C55_l2_equal_uncertainties"
   ],
   "note": "For every map with cells and every distance whose values do not exceed the largest double. An empty map is undefined behaviour (C55_empty); distances above the largest double: C55_overflow. Rounding, NaN not modelled."
  },
  {
   "property": "C56",
   "status": "proved",
   "theorems": [
    "Alexandria.SOM.C56_step",
    "Alexandria.SOM.C56_hull",
    "Alexandria.SOM.C56_total",
    "Alexandria.SOM.C56_shipped",
    "Alexandria.SOM.C56_shipped_exponential"
   ],
   "note": "Exact arithmetic in any ordered field; the samples of each iteration are arbitrary lists, which covers all sampling policies. C81_factor_range covers the Kohonen neighbourhood."
  },
  {
   "property": "C57",
   "status": "partial",
   "theorems": [
    "Alexandria.SOM.C57_partial",
    "Alexandria.SOM.C57_beyond",
    "Alexandria.SOM.C57_violated",
    "Alexandria.SOM.C57_iff"
   ],
   "note": "The code violates the full statement: coordinates are subtracted in size_t, cells beyond the best matching unit are never inside the disk (C57_violated, C57_beyond). C57_partial covers the cells not beyond it. C57_iff: for radii and coordinates up to 2^63, the weight is right exactly if the cell is beyond the unit in neither direction or outside the disk."
  },
  {
   "property": "C58",
   "status": "partial",
   "theorems": [
    "Alexandria.SOM.C58_fullSet",
    "Alexandria.SOM.C58_bootstrap",
    "Alexandria.SOM.C58_jackknife",
    "Alexandria.SOM.C58_jackknife_all",
    "Alexandria.SOM.C58_violated"
   ],
   "note": "Undefined behaviour of Bootstrap and Jackknife on an empty input (C58_violated); everything else proved for all outcomes of the random numbers. The distribution of the random numbers is not modelled."
  },
  {
   "property": "C59",
   "status": "proved",
   "theorems": [
    "Alexandria.SOM.C59_archive",
    "Alexandria.SOM.C59_archive_distance",
    "Alexandria.SOM.C59_fits_layout",
    "Alexandria.SOM.C59_fits",
    "Alexandria.SOM.C59_fits_dimension"
   ],
   "note": "Archives are token streams, FITS files an axis list with data; boost and CCfits are trusted to return what was stored. Sizes below 2^31 in the FITS case (running index is an int)."
  },
  {
   "property": "C60",
   "status": "partial",
   "theorems": [
    "Alexandria.NdArray.C60_attribute_access_partial",
    "Alexandria.NdArray.C60_attribute_of_slice_violated",
    "Alexandria.NdArray.C60_attribute_of_slices",
    "Alexandria.NdArray.C60_one_by_one"
   ],
   "note": "Code violates the property for slices (negation proved). C60_attribute_of_slices: what each name stands for in slices from either side."
  },
  {
   "property": "C61",
   "status": "partial",
   "theorems": [
    "Alexandria.NdArray.C61_equality",
    "Alexandria.NdArray.C61_equality_after_concatenate_violated",
    "Alexandria.NdArray.C61_equality_any"
   ],
   "note": "Proved for well-formed views; violated after concatenate. C61_equality_any: for all arrays, equality of shapes and of the sequences up to the shorter one."
  },
  {
   "property": "C62",
   "status": "proved",
   "theorems": [
    "Alexandria.NdArray.C62_sum_axis",
    "Alexandria.NdArray.C62_sum_axis_rank_one",
    "Alexandria.NdArray.C62_sum_all",
    "Alexandria.NdArray.C62_sum_axis_out_of_range"
   ],
   "note": ""
  },
  {
   "property": "C63",
   "status": "proved",
   "theorems": [
    "Alexandria.NdArray.C63_argmax",
    "Alexandria.NdArray.C63_argmin"
   ],
   "note": ""
  },
  {
   "property": "C64",
   "status": "proved",
   "theorems": [
    "Alexandria.NdArray.C64_trapz",
    "Alexandria.NdArray.C64_trapz_rank_one"
   ],
   "note": ""
  },
  {
   "property": "C65",
   "status": "proved",
   "theorems": [
    "Alexandria.Grid.C65_axis_infimum"
   ],
   "note": ""
  },
  {
   "property": "C66",
   "status": "proved",
   "theorems": [
    "Alexandria.Grid.C66_views_share_cells"
   ],
   "note": ""
  },
  {
   "property": "C67",
   "status": "partial",
   "theorems": [
    "Alexandria.Histogram.C67_violated",
    "Alexandria.Histogram.C67_unclipped_partial",
    "Alexandria.Histogram.C67_clipped"
   ],
   "note": "getEdges and getBins ignore the clip: violated; proved for unclipped histograms. C67_clipped: what they return after any clips, and when there is one edge more than counts."
  },
  {
   "property": "C68",
   "status": "partial",
   "theorems": [
    "Alexandria.Histogram.C68_violated",
    "Alexandria.Histogram.C68_median_partial",
    "Alexandria.Histogram.C68_median_error"
   ],
   "note": "The shift is divided by the larger of two neighbouring counts: violated; proved that the median exists and is within half a bin of a balanced boundary. C68_median_error: the exact error, and exactly when there is none, for bins of equal width."
  },
  {
   "property": "C69",
   "status": "proved",
   "theorems": [
    "Alexandria.Histogram.C69_mean_sigma"
   ],
   "note": "sqrt is a parameter; rounding not modelled."
  },
  {
   "property": "C70",
   "status": "partial",
   "theorems": [
    "Alexandria.ThreadPool.C70_violated",
    "Alexandria.ThreadPool.C70_no_throw_partial",
    "Alexandria.ThreadPool.C70_exact",
    "Alexandria.ThreadPool.C70_no_workers"
   ],
   "note": "Race between a worker recording an exception and another worker or block() reading the pointer. C70_exact: in a pool with workers, one is enough, some execution has such a race exactly if some task throws (C70_no_throw_partial, C70_violated); without workers there is none (C70_no_workers)."
  },
  {
   "property": "C71",
   "status": "partial",
   "theorems": [
    "Alexandria.ThreadPool.C71_violated",
    "Alexandria.ThreadPool.C71_bounded_partial",
    "Alexandria.ThreadPool.C71_attained"
   ],
   "note": "A worker that has passed the check still begins a task: violated. At most n-1 tasks begin after the exception is stored (C71_bounded_partial), and for every n that many may (C71_attained)."
  },
  {
   "property": "C72",
   "status": "proved",
   "theorems": [
    "Alexandria.ThreadPool.C72_destructor",
    "Alexandria.ThreadPool.C72_counters"
   ],
   "note": "Counters read as a snapshot."
  },
  {
   "property": "C73",
   "status": "partial",
   "theorems": [
    "Alexandria.FilePool.C73_violated",
    "Alexandria.FilePool.C73_excess_partial",
    "Alexandria.FilePool.C73_loop",
    "Alexandria.FilePool.C73_loop_attained",
    "Alexandria.FilePool.C73_loop_available"
   ],
   "note": "Violated: the check and the registration are not one critical section. n threads that open and close files again and again never have more than limit - 1 + n open (C73_loop; for one open call each, C73_excess_partial), and for every limit and n that many may be (C73_loop_attained); getUsed + getAvailable is the limit exactly if no more than the limit are in use (C73_loop_available)."
  },
  {
   "property": "C74",
   "status": "partial",
   "theorems": [
    "Alexandria.FilePool.C74_violated",
    "Alexandria.FilePool.C74_ends_partial",
    "Alexandria.FilePool.C74_iff"
   ],
   "note": "Violated: with the manager full, a handler that asks for a descriptor may be asked to close one while it holds its own mutex. C74_ends_partial: never if there is room or no open file belongs to the handler. C74_iff: exactly if a request to read, which waits, finds the file open for reading, no idle descriptor of its type, the manager full, and all files used longer ago than some file of the handler held by accessors of other handlers; requests to write never."
  },
  {
   "property": "C75",
   "status": "partial",
   "theorems": [
    "Alexandria.FilePool.C75_violated",
    "Alexandria.FilePool.C75_one_partial",
    "Alexandria.FilePool.C75_sequential",
    "Alexandria.FilePool.C75_bound_partial",
    "Alexandria.FilePool.C75_unbounded_violated",
    "Alexandria.FilePool.C75_missing_iff",
    "Alexandria.FilePool.C75_two_iff"
   ],
   "note": "Violated with threads: the deleter of an expired handler erases the entry of its successor. Proved for whole calls and for runs without that overlap. C75_missing_iff and C75_two_iff: exactly which handlers in use are missing in the table after any history, and exactly when two handlers of a path are in use."
  },
  {
   "property": "C76",
   "status": "partial",
   "theorems": [
    "Alexandria.Npy.C76_truncated_file_violated",
    "Alexandria.Npy.C76_truncated_data_reads_zeros_partial",
    "Alexandria.Npy.C76_cut_anywhere_partial"
   ],
   "note": "Violated: the reads are not checked. C76_cut_anywhere_partial: what is read from a file cut at any byte before the dictionary or behind it. For cuts inside the dictionary and arrays whose names are not safe C160_exact says what is read from the bytes that are left."
  },
  {
   "property": "C77",
   "status": "partial",
   "theorems": [
    "Alexandria.Npy.C77_numpy_header_partial",
    "Alexandria.Npy.C77_scalar_violated",
    "Alexandria.Npy.C77_unsupported_refused"
   ],
   "note": "All shapes with at least one axis; the empty tuple of a 0-dimensional array is undefined behaviour."
  },
  {
   "property": "C78",
   "status": "partial",
   "theorems": [
    "Alexandria.Npy.C78_create_consistent",
    "Alexandria.Npy.C78_resize_consistent",
    "Alexandria.Npy.C78_refused_resize_violated"
   ],
   "note": "Proved for successful calls; a refused resize changes size()."
  },
  {
   "property": "C79",
   "status": "partial",
   "theorems": [
    "Alexandria.SOM.C79_umatrix_partial",
    "Alexandria.SOM.C79_violated",
    "Alexandria.SOM.C79_symmetric"
   ],
   "note": "For maps with at least two cells. A map with one cell dereferences the end of an empty vector (C79_violated)."
  },
  {
   "property": "C80",
   "status": "proved",
   "theorems": [
    "Alexandria.SOM.C80_project",
    "Alexandria.SOM.C80_count"
   ],
   "note": "Best matching units inside the map, which C55_bmu shows."
  },
  {
   "property": "C81",
   "status": "proved",
   "theorems": [
    "Alexandria.SOM.C81_kohonen",
    "Alexandria.SOM.C81_kohonen_shape",
    "Alexandria.SOM.C81_width",
    "Alexandria.SOM.C81_factor_range"
   ],
   "note": "Over the reals; total_iterations positive as in every training; the statement on the width for maps with a side of at least 2 (for 1x1 it grows)."
  },
  {
   "property": "C82",
   "status": "proved",
   "theorems": [
    "Alexandria.SOM.C82_linear",
    "Alexandria.SOM.C82_exponential"
   ],
   "note": "Iterations below the total, as in the training; exact arithmetic."
  },
  {
   "property": "C83",
   "status": "partial",
   "theorems": [
    "Alexandria.XYDataset.C83_order_partial",
    "Alexandria.XYDataset.C83_recursive_partial",
    "Alexandria.XYDataset.C83_violated",
    "Alexandria.XYDataset.C83_endless",
    "Alexandria.XYDataset.C83_ends",
    "Alexandria.XYDataset.C83_dot",
    "Alexandria.XYDataset.C83_dot_violated",
    "Alexandria.XYDataset.C83_order",
    "Alexandria.XYDataset.C83_listed",
    "Alexandria.XYDataset.C83_once_iff"
   ],
   "note": "C83_order: for any order.txt, the names in it that exist come first, as often as they are in it, then the other entries alphabetically. C83_listed: for any order.txt files the listing has exactly the files reached by entries and existing names. C83_once_iff: if they name entries of their directories, each file is listed once exactly if no order.txt of a directory that is listed names an entry twice that is a file or has files below it. So the full statement fails: a repeated name is listed twice (C83_violated), after which the provider constructor throws. C83_endless says exactly when the recursion does not end: if directories name each other, in order.txt or by links, without end; a line with a dot in order.txt is enough (C83_dot, C83_dot_violated). Otherwise there is one listing (C83_ends)."
  },
  {
   "property": "C84",
   "status": "partial",
   "theorems": [
    "Alexandria.XYDataset.C84_line",
    "Alexandria.XYDataset.C84_join_partial",
    "Alexandria.XYDataset.C84_violated",
    "Alexandria.XYDataset.C84_join"
   ],
   "note": "Exact description of one line (C84_line) and of the joined values (C84_join: those from the first one on that is not empty). An empty value before all others is lost (C84_violated). Keys without special characters of regular expressions."
  },
  {
   "property": "C85",
   "status": "partial",
   "theorems": [
    "Alexandria.XYDataset.C85_exact",
    "Alexandria.XYDataset.C85_dataset_partial",
    "Alexandria.XYDataset.C85_violated"
   ],
   "note": "C85_exact is the exact behaviour; it differs from the statement for a file whose first data line is its last and lacks a newline (C85_violated). The number test is a parameter."
  },
  {
   "property": "C86",
   "status": "partial",
   "theorems": [
    "Alexandria.XYDataset.C86_end",
    "Alexandria.XYDataset.C86_empty_root",
    "Alexandria.XYDataset.C86_no_begin",
    "Alexandria.XYDataset.C86_begin_partial",
    "Alexandria.XYDataset.C86_violated",
    "Alexandria.XYDataset.C86_file_name",
    "Alexandria.XYDataset.C86_file_name_plain",
    "Alexandria.XYDataset.C86_factory"
   ],
   "note": "checkBeginSlashes adds a slash to a string of slashes (C86_violated); checkNoBeginSlashes throws on it (C86_no_begin). Strings shorter than 2^64 - 1."
  },
  {
   "property": "C87",
   "status": "proved",
   "theorems": [
    "Alexandria.Configuration.C87_register",
    "Alexandria.Configuration.C87_circular",
    "Alexandria.Configuration.C87_returns",
    "Alexandria.Configuration.C87_failed_constructor"
   ],
   "note": "C87_register for a call that returns; C87_returns when declarations are acyclic and constructors do not throw; with a cycle the call does not return (C87_circular: unbounded recursion). A constructor that throws leaves a null entry (C87_failed_constructor)."
  },
  {
   "property": "C88",
   "status": "partial",
   "theorems": [
    "Alexandria.Configuration.C88_closed",
    "Alexandria.Configuration.C88_final_partial",
    "Alexandria.Configuration.C88_violated",
    "Alexandria.Configuration.C88_not_closed",
    "Alexandria.Configuration.C88_twice",
    "Alexandria.Configuration.C88_handed",
    "Alexandria.Configuration.C88_final_iff"
   ],
   "note": "C88_closed for every call. The second sentence is violated: after initialize has thrown, configurations are handed out that are not fully initialised. C88_handed and C88_final_iff say for all sequences of calls exactly in which state: that of the last hook of the configuration that has returned, so fully initialised exactly if this is postInitialize. In all call sequences in which initialize never throws they are."
  },
  {
   "property": "C89",
   "status": "partial",
   "theorems": [
    "Alexandria.Configuration.C89_id_partial",
    "Alexandria.Configuration.C89_violated",
    "Alexandria.Configuration.C89_specz"
   ],
   "note": "Name and index given by options; the default name ID is not checked (C89_violated). Fewer than 2^64 columns, indices in the range of int."
  },
  {
   "property": "C90",
   "status": "partial",
   "theorems": [
    "Alexandria.Configuration.C90_detect_partial",
    "Alexandria.Configuration.C90_violated",
    "Alexandria.Configuration.C90_undefined_iff",
    "Alexandria.Configuration.C90_any_memory",
    "Alexandria.Configuration.C90_models_agree",
    "Alexandria.Configuration.C90_stale_memory_violated"
   ],
   "note": "The unterminated buffer is read past its end unless one of the first 80 bytes is null (C90_violated, C90_undefined_iff). C90_any_memory: with any memory content around the buffer the answer is right for files of nine bytes or more; a shorter file can be taken for FITS (C90_stale_memory_violated)."
  },
  {
   "property": "C91",
   "status": "proved",
   "theorems": [
    "Alexandria.MathUtils.C91_findValue",
    "Alexandria.MathUtils.C91_throws",
    "Alexandria.MathUtils.C91_normalize"
   ],
   "note": ""
  },
  {
   "property": "C92",
   "status": "partial",
   "theorems": [
    "Alexandria.MathUtils.C92_centered_partial",
    "Alexandria.MathUtils.C92_violated",
    "Alexandria.MathUtils.C92_same_tray",
    "Alexandria.MathUtils.C92_in_order_iff"
   ],
   "note": "The ends are in order if some sample has a value between the bounds; violated otherwise. C92_same_tray: then both bounds are on one tray and the interval runs from its end to its begin; C92_in_order_iff: exactly when the ends are in order."
  },
  {
   "property": "C93",
   "status": "proved",
   "theorems": [
    "Alexandria.MathUtils.C93_quadratic",
    "Alexandria.MathUtils.C93_none",
    "Alexandria.MathUtils.C93_linear"
   ],
   "note": "Exact arithmetic over any ordered field with a square root."
  },
  {
   "property": "C94",
   "status": "proved",
   "theorems": [
    "Alexandria.MathUtils.C94_adaptive",
    "Alexandria.MathUtils.C94_overflow",
    "Alexandria.MathUtils.C94_cubic",
    "Alexandria.MathUtils.C94_throws"
   ],
   "note": "Exact arithmetic."
  },
  {
   "property": "C95",
   "status": "proved",
   "theorems": [
    "Alexandria.MathUtils.C95_step",
    "Alexandria.MathUtils.C95_exact",
    "Alexandria.MathUtils.C95_derivative",
    "Alexandria.MathUtils.C95_derivative2nd"
   ],
   "note": "The choice of the step is modelled with an arbitrary monotone rounding; the quotients are exact."
  },
  {
   "property": "C96",
   "status": "partial",
   "theorems": [
    "Alexandria.Table.C96_comment",
    "Alexandria.Table.C96_start",
    "Alexandria.Table.C96_rows_partial",
    "Alexandria.Table.C96_violated",
    "Alexandria.Table.C96_columns",
    "Alexandria.Table.C96_same_partial"
   ],
   "note": "Violated for the columns: if getComment is called first, the descriptions and names in the comment are consumed and the columns are different (C96_violated). C96_columns says exactly which columns are found afterwards, for every text, place in the stream and settings; they are the same if the text does not begin with a comment (C96_same_partial). The rows are the same in any case (C96_rows_partial)."
  },
  {
   "property": "C97",
   "status": "proved",
   "theorems": [
    "Alexandria.Table.C97_row",
    "Alexandria.Table.C97_throws"
   ],
   "note": ""
  },
  {
   "property": "C98",
   "status": "proved",
   "theorems": [
    "Alexandria.Table.C98_names",
    "Alexandria.Table.C98_default"
   ],
   "note": ""
  },
  {
   "property": "C99",
   "status": "proved",
   "theorems": [
    "Alexandria.Catalog.C99_create",
    "Alexandria.Catalog.C99_column"
   ],
   "note": "The makers of attributes are arbitrary functions of the row."
  },
  {
   "property": "C100",
   "status": "proved",
   "theorems": [
    "Alexandria.Catalog.C100_attribute"
   ],
   "note": "The dynamic cast is an arbitrary partial function."
  },
  {
   "property": "C101",
   "status": "proved",
   "theorems": [
    "Alexandria.Catalog.C101_pdf",
    "Alexandria.Catalog.C101_exists",
    "Alexandria.Catalog.C101_no_pdf",
    "Alexandria.Catalog.C101_redshift"
   ],
   "note": "The grid with one axis is represented by its knots and values."
  },
  {
   "property": "C102",
   "status": "partial",
   "theorems": [
    "Alexandria.CatConfig.C102_catalog_partial",
    "Alexandria.CatConfig.C102_settings",
    "Alexandria.CatConfig.C102_defined_partial",
    "Alexandria.CatConfig.C102_violated"
   ],
   "note": "Proved for every run that returns a catalogue, with the identifications and the number and order of the sources; the photometric attributes need distinct filters in the mapping file, finite thresholds and errors that are not NaN. Undefined behaviour is excluded for distinct filters and a given format; C102_violated: a filter listed twice and excluded makes readAsCatalog use iterators past the end. Not modelled: the internals of CCfits."
  },
  {
   "property": "C103",
   "status": "partial",
   "theorems": [
    "Alexandria.CatConfig.C103_lifetime",
    "Alexandria.CatConfig.C103_guards",
    "Alexandria.CatConfig.C103_violated",
    "Alexandria.CatConfig.C103_getters"
   ],
   "note": "Proved for all sequences of calls. C103_violated: getFilename does not throw on an object that is only initialised, although its documentation says so."
  },
  {
   "property": "C104",
   "status": "proved",
   "theorems": [
    "Alexandria.CatConfig.C104_columns",
    "Alexandria.CatConfig.C104_densities"
   ],
   "note": "All sequences of additions."
  },
  {
   "property": "C105",
   "status": "partial",
   "theorems": [
    "Alexandria.MathUtils.C105_draw_partial",
    "Alexandria.MathUtils.C105_returns",
    "Alexandria.MathUtils.C105_refused",
    "Alexandria.MathUtils.C105_grid",
    "Alexandria.MathUtils.C105_cells",
    "Alexandria.MathUtils.C105_indexed",
    "Alexandria.MathUtils.C105_violated",
    "Alexandria.MathUtils.C105_outside_violated",
    "Alexandria.MathUtils.C105_rank_violated"
   ],
   "note": "Exact arithmetic. Proved with the tolerance of 2e-8 of InverseCumulative. C105_violated: an element can be below the first knot, where the density is 0, so that the next axis always gives its first knot (C105_outside_violated). C105_rank_violated: with one axis the rank is checked too late. A vanishing density along a discrete axis gives NaN in the code and is an outcome of its own in the theorem."
  },
  {
   "property": "C106",
   "status": "partial",
   "theorems": [
    "Alexandria.Table.Fits.C106_chunks_partial",
    "Alexandria.Table.Fits.C106_append_partial",
    "Alexandria.Table.Fits.C106_started",
    "Alexandria.Table.Fits.C106_other_columns",
    "Alexandria.Table.Fits.C106_cut_violated",
    "Alexandria.Table.Fits.C106_image_violated",
    "Alexandria.Table.Fits.C106_retry_violated",
    "Alexandria.Table.Fits.C106_empty_vectors_violated",
    "Alexandria.Table.Fits.C106_bool_vectors_violated",
    "Alexandria.Table.Fits.C106_parts_partial"
   ],
   "note": "Binary tables; CCfits/cfitsio are modelled as described in FitsFileModel.lean (columns with fixed formats, texts cut at the width). Without the restrictions the statement is violated: texts longer than those of the first chunk are cut (C106_cut_violated); the other violations are outcomes of single calls."
  },
  {
   "property": "C107",
   "status": "partial",
   "theorems": [
    "Alexandria.Grid.FitsIO.C107_round_partial",
    "Alexandria.Grid.FitsIO.C107_whole_partial",
    "Alexandria.Grid.FitsIO.C107_names_violated",
    "Alexandria.Grid.FitsIO.C107_slices_violated",
    "Alexandria.Grid.FitsIO.C107_later_violated",
    "Alexandria.Grid.FitsIO.C107_image_violated",
    "Alexandria.Grid.FitsIO.C107_empty_axis_violated",
    "Alexandria.Grid.FitsIO.C107_blank_violated"
   ],
   "note": "The file library is modelled as in C106; the pixels are kept as they are. Without the restrictions the statement is violated: axes of one name, slices of slices, names of tables that collide with those of other grids or images, axes without knots, strings with blanks at the end."
  },
  {
   "property": "C108",
   "status": "partial",
   "theorems": [
    "Alexandria.Grid.Archive.C108_names",
    "Alexandria.Grid.Archive.C108_whole",
    "Alexandria.Grid.Archive.C108_several",
    "Alexandria.Grid.Archive.C108_slice_partial",
    "Alexandria.Grid.Archive.C108_slices_violated"
   ],
   "note": "Whole grids are proved without restrictions. For slices of slices the statement is violated (C108_slices_violated, a consequence of C20). The archives of boost are modelled as lists of values."
  },
  {
   "property": "C109",
   "status": "partial",
   "theorems": [
    "Alexandria.XYDataset.FitsIO.C109_dataset",
    "Alexandria.XYDataset.FitsIO.C109_columns",
    "Alexandria.XYDataset.FitsIO.C109_no_dataset",
    "Alexandria.XYDataset.FitsIO.C109_name",
    "Alexandria.XYDataset.FitsIO.C109_is_dataset_partial",
    "Alexandria.XYDataset.FitsIO.C109_image_violated",
    "Alexandria.XYDataset.FitsIO.C109_refused",
    "Alexandria.XYDataset.FitsIO.C109_parameter",
    "Alexandria.XYDataset.FitsIO.C109_image_iff"
   ],
   "note": "Proved for getDataset and getName. isDatasetFile does not answer for files whose first extension is an image (C109_image_violated): std::bad_cast escapes. Keywords of other types than strings are not modelled."
  },
  {
   "property": "C110",
   "status": "partial",
   "theorems": [
    "Alexandria.NdArray.C110_walk_partial",
    "Alexandria.NdArray.C110_write",
    "Alexandria.NdArray.C110_loop",
    "Alexandria.NdArray.C110_post_violated",
    "Alexandria.NdArray.C110_post_loop_violated",
    "Alexandria.NdArray.C110_same_violated"
   ],
   "note": "Proved except for the post-increment, which returns the advanced iterator and leaves the iterator where it is (C110_post_violated), so that loops with it never end (C110_post_loop_violated). Iterators of an array and of its slice are never equal, although the documentation says that those at the same position of the same data are (C110_same_violated)."
  },
  {
   "property": "C111",
   "status": "partial",
   "theorems": [
    "Alexandria.Grid.C111_fix_partial",
    "Alexandria.Grid.C111_all_partial",
    "Alexandria.Grid.C111_all_missing",
    "Alexandria.Grid.C111_skip_violated",
    "Alexandria.Grid.C111_off_violated",
    "Alexandria.Grid.C111_beyond_violated",
    "Alexandria.Grid.C111_fix_iff"
   ],
   "note": "The statement is violated in the middle of an iteration: cells are skipped (C111_skip_violated), axes fixed before are left (C111_off_violated), and the iterator goes beyond the end, which it then never meets (C111_beyond_violated). Proved: C111_fix_iff says for every cell and index exactly when the first fixing of an axis goes to the right cell; moves to a higher index change only this coordinate, whatever is fixed; fixAllAxes from a cell that is not behind on any axis."
  },
  {
   "property": "C112",
   "status": "partial",
   "theorems": [
    "Alexandria.XYDataset.AsciiIO.C112_points",
    "Alexandria.XYDataset.AsciiIO.C112_dataset_partial",
    "Alexandria.XYDataset.AsciiIO.C112_missing",
    "Alexandria.XYDataset.AsciiIO.C112_header_violated",
    "Alexandria.XYDataset.AsciiIO.C112_line_violated",
    "Alexandria.XYDataset.AsciiIO.C112_converse_violated",
    "Alexandria.XYDataset.AsciiIO.C112_name",
    "Alexandria.XYDataset.AsciiIO.C112_named"
   ],
   "note": "Violated: files that are accepted cannot be read if the last comment before the data is two equal words, which are taken for column names (C112_header_violated), or if a line after the first is malformed (C112_line_violated). Proved: whatever is returned has the points of the text (C112_points); with a header without such comments the dataset is returned exactly if every data line is a point; the rules of the name. Only the default regular expression of the name is modelled; the text form of numbers is a parameter."
  },
  {
   "property": "C113",
   "status": "partial",
   "theorems": [
    "Alexandria.Npy.Mmap.C113_mapped_partial",
    "Alexandria.Npy.Mmap.C113_resize",
    "Alexandria.Npy.Mmap.C113_private_puts",
    "Alexandria.Npy.Mmap.C113_violated",
    "Alexandria.Npy.Mmap.C113_full_writable_violated",
    "Alexandria.Npy.Mmap.C113_readonly_violated",
    "Alexandria.Npy.Mmap.C113_max_size_violated",
    "Alexandria.Npy.Mmap.C113_truncated_violated",
    "Alexandria.Npy.Mmap.C113_private_violated",
    "Alexandria.Npy.Mmap.C113_private_resize_violated",
    "Alexandria.Npy.Mmap.C113_copy_violated",
    "Alexandria.Npy.Mmap.C113_copy_shared_violated",
    "Alexandria.Npy.Mmap.C113_same_partial",
    "Alexandria.Npy.Mmap.C113_only_arrays",
    "Alexandria.Npy.Mmap.C113_refused",
    "Alexandria.Npy.Mmap.C113_copy_slice_violated"
   ],
   "note": "Proved: a refinement, for every sequence of assignments, between the mapped array and the array in memory, with the content of the file (C113_mapped_partial: files written by this library, writable modes, maximum size 0 or not below the size of the data); resize through a shared mapping is the one of C78. Violated, with negations proved: read-only mode, maximum size below the size of the data, truncated files, resize in the private mode, and copies. The mapping itself (boost, operating system) is modelled as an array of bytes with an overlay; page granularity is ignored. C113_same_partial: every file that readNpy reads completely (any version, any writer) maps to the same array; C113_only_arrays: nothing else can be mapped."
  },
  {
   "property": "C114",
   "status": "partial",
   "theorems": [
    "Alexandria.FilePool.C114_close_all_partial",
    "Alexandria.FilePool.C114_destructor_partial",
    "Alexandria.FilePool.C114_violated",
    "Alexandria.FilePool.C114_dangling_violated",
    "Alexandria.FilePool.C114_registered_violated",
    "Alexandria.FilePool.C114_accessor_violated"
   ],
   "note": "Violated: a descriptor dropped for one of another type stays registered, with a callback to a handler that may be gone (C114_dangling_violated, C114_registered_violated); a handler destroyed before its accessor (C114_accessor_violated). Proved for histories without these two (the same conditions as C13, C14)."
  },
  {
   "property": "C115",
   "status": "partial",
   "theorems": [
    "Alexandria.FilePool.C115_has_handler_partial",
    "Alexandria.FilePool.C115_live_partial",
    "Alexandria.FilePool.C115_violated",
    "Alexandria.FilePool.C115_history"
   ],
   "note": "Violated in both directions (C115_violated). Proved for runs in which nobody asks for the handler while a deleter is pending, in the states in which none is pending (the conditions of C75). C115_history: exactly when hasHandler says true, after any history."
  },
  {
   "property": "C116",
   "status": "partial",
   "theorems": [
    "Alexandria.Configuration.C116_increasing_partial",
    "Alexandria.Configuration.C116_reading",
    "Alexandria.Configuration.C116_waits",
    "Alexandria.Configuration.C116_violated",
    "Alexandria.Configuration.C116_clock_violated",
    "Alexandria.Configuration.C116_threads_violated"
   ],
   "note": "Violated: the id is the time of the system clock and only the last id is remembered, so ids repeat when the clock is set back (C116_clock_violated); without a lock two threads get the same id (C116_threads_violated). Proved: with a clock that never goes back the ids of one thread strictly increase; what a call returns and when it waits, for every clock."
  },
  {
   "property": "C117",
   "status": "proved",
   "theorems": [
    "Alexandria.Configuration.C117_same_iff",
    "Alexandria.Configuration.C117_keeps"
   ],
   "note": "Calls are made one after the other; the static map has no lock."
  },
  {
   "property": "C118",
   "status": "partial",
   "theorems": [
    "Alexandria.XYDataset.C118_found",
    "Alexandria.XYDataset.C118_only",
    "Alexandria.XYDataset.C118_order",
    "Alexandria.XYDataset.C118_opens",
    "Alexandria.XYDataset.C118_ascii",
    "Alexandria.XYDataset.C118_slash_violated",
    "Alexandria.XYDataset.C118_violated"
   ],
   "note": "Violated: one file whose NAME has a slash (or two files of a directory with the same name) make the constructor throw, so that no dataset of the directory is accessible (C118_slash_violated); a listed dataset may not be readable (C118_violated). Proved: exactly when the constructor succeeds (C118_opens), and all the rest of the statement for a provider that was made. Directories with links in a circle are outside of the model."
  },
  {
   "property": "C119",
   "status": "partial",
   "theorems": [
    "Alexandria.SOM.Init.C119_draws",
    "Alexandria.SOM.Init.C119_program",
    "Alexandria.SOM.Init.C119_range",
    "Alexandria.SOM.Init.C119_zero",
    "Alexandria.SOM.Init.C119_same",
    "Alexandria.SOM.Init.C119_violated",
    "Alexandria.SOM.Init.C119_constructor"
   ],
   "note": "Violated: the function is copied into the constructor, and uniformRandom always starts from the same engine, so maps of one size from one function (or from two functions of uniformRandom with the same bounds) are always equal (C119_same, C119_violated). Everything else is proved."
  },
  {
   "property": "C120",
   "status": "partial",
   "theorems": [
    "Alexandria.Histogram.C120_sqrt_partial",
    "Alexandria.Histogram.C120_scott_partial",
    "Alexandria.Histogram.C120_edges",
    "Alexandria.Histogram.C120_sqrt_violated",
    "Alexandria.Histogram.C120_scott_violated",
    "Alexandria.Histogram.C120_float_counts_partial",
    "Alexandria.Histogram.C120_float_counts_violated"
   ],
   "note": "Proved with every operation rounded to nearest (exponents unbounded). That nothing is lost is refuted for double: of 0, 0, 0, 1-2^-53, 1 the fourth value is dropped (C120_sqrt_violated); constant data of 2^53 or more get no bin from Scott (C120_scott_violated); float counts stop at 2^24 (C120_float_counts_violated, the closed form min(n, 2^24) is C120_float_counts_partial)."
  },
  {
   "property": "C121",
   "status": "partial",
   "theorems": [
    "Alexandria.MathUtils.C121_fromPdf",
    "Alexandria.MathUtils.C121_sum_error",
    "Alexandria.MathUtils.C121_normalize",
    "Alexandria.MathUtils.C121_findValue",
    "Alexandria.MathUtils.C121_centered_partial",
    "Alexandria.MathUtils.C121_minimal_partial",
    "Alexandria.MathUtils.C121_normalize_violated"
   ],
   "note": "Every operation is rounded (exponents unbounded). The last sentence is refuted for double: with the sums 7 and 25 findValue(0.28) is the second sample before and the first one after normalize (C121_normalize_violated). As for C92 the ends of the centred interval are in order only if there is a sample between the two bounds; findMinInterval counts as in C39."
  },
  {
   "property": "C122",
   "status": "partial",
   "theorems": [
    "Alexandria.MathUtils.C122_discrete",
    "Alexandria.MathUtils.C122_continuous_partial",
    "Alexandria.MathUtils.C122_violated"
   ],
   "note": "Every operation is rounded (exponents unbounded). The discrete part is proved; for continuous densities everything but the range of the result, and the range for segments of constant density. The range is refuted for double: for the density rising from 1 to 2 between 100000000 and 100000001, p = 1/4 gives 99999999 (C122_violated), because the terms of the quadratic equation cancel; the assertion of line 119 would fail in a debug build."
  },
  {
   "property": "C123",
   "status": "partial",
   "theorems": [
    "Alexandria.MathUtils.C123_monotone_partial",
    "Alexandria.MathUtils.C123_error",
    "Alexandria.MathUtils.C123_simple_partial",
    "Alexandria.MathUtils.C123_nodes_violated",
    "Alexandria.MathUtils.C123_range_violated",
    "Alexandria.MathUtils.C123_monotone_violated",
    "Alexandria.MathUtils.C123_simple_violated"
   ],
   "note": "Every operation is rounded (exponents unbounded). Proved: monotone on each piece, exact between equal ordinates, zero outside, error at most 2^-p (3|y0| + |slope| (10|x0| + 8|x|)), agreement with simple_interpolation except at inner abscissae. Refuted for double: from (1,4), (4,3) the value at 1 is not 4; from (1,1), (6,0) the value at 6 is negative; from (1,0), (6,1), (7,1) the value at 6 is greater than at 7, and simple_interpolation gives another one."
  },
  {
   "property": "C124",
   "status": "partial",
   "theorems": [
    "Alexandria.SOM.C124_bmu",
    "Alexandria.SOM.C124_bmu_uncertain",
    "Alexandria.SOM.C124_towards",
    "Alexandria.SOM.C124_step_partial",
    "Alexandria.SOM.C124_range",
    "Alexandria.SOM.C124_step_violated",
    "Alexandria.SOM.C124_range_violated"
   ],
   "note": "Every operation is rounded (exponents unbounded). Proved: the unit is the nearest up to nd + 5 (nd + 8 with uncertainties) relative errors of the square; no weight moves away from the object; it does not pass the object if the product of the factors times (1 + 2^-p)^3 is at most 1; all weights stay in [-2^k, 2^k] when the initial weights and the objects are, and the training completes. Refuted for double: with factors of 1 the weight 1.5 passes the object 4503599627370499, and so leaves the range of weights and objects."
  },
  {
   "property": "C125",
   "status": "partial",
   "theorems": [
    "Alexandria.ThreadPool.C125_destructor",
    "Alexandria.ThreadPool.C125_block_partial",
    "Alexandria.ThreadPool.C125_block_exception",
    "Alexandria.ThreadPool.C125_tasks",
    "Alexandria.ThreadPool.C125_block_violated"
   ],
   "note": "Proved for infinite executions: the destructor ends and (no exceptions, no destructor) each task is finished under fairness alone; block() ends under fairness if a task has thrown, otherwise if the client, which polls, looks at each flag again and again at a moment at which it is set. Refuted under fairness alone: client and worker may stay out of step for ever."
  },
  {
   "property": "C126",
   "status": "partial",
   "theorems": [
    "Alexandria.ThreadPool.C126_fifo_at_most_once",
    "Alexandria.ThreadPool.C126_block_partial",
    "Alexandria.ThreadPool.C126_no_workers_partial",
    "Alexandria.ThreadPool.C126_block_violated",
    "Alexandria.ThreadPool.C126_no_workers_violated"
   ],
   "note": "Order and uniqueness hold for all executions. block() may return while a task submitted by another task runs (the documentation forbids submissions inside block()); without such submissions it does not. In a pool without workers submit() holds the mutex while it calls the task: one that calls submit(), queued() or running() locks it twice, which is undefined behaviour; all others run at once."
  },
  {
   "property": "C127",
   "status": "proved",
   "theorems": [
    "Alexandria.FilePool.Threads.C127_exclusive",
    "Alexandria.FilePool.Threads.C127_known",
    "Alexandria.FilePool.Threads.C127_accounted",
    "Alexandria.FilePool.Threads.C127_unlocked"
   ],
   "note": "Small steps between lock operations (`FilePool/Threads.lean`); one type of stream, handlers and manager live on, no `kTry`. Executions up to undefined behaviour, see C128."
  },
  {
   "property": "C128",
   "status": "partial",
   "theorems": [
    "Alexandria.FilePool.Threads.C128_ub_partial",
    "Alexandria.FilePool.Threads.C128_deadlock_partial",
    "Alexandria.FilePool.Threads.C128_room_partial",
    "Alexandria.FilePool.Threads.C128_violated",
    "Alexandria.FilePool.Threads.C128_deadlock_violated"
   ],
   "note": "Refuted twice: an iterator of m_sorted_ids is advanced after its element was erased by another thread (two threads, limit 1), and two handlers wait for the mutex of each other (limit 2). Proved: these two (and a handler that asks itself, C74) are the only failures, each needs a request that has found the manager full; with no more requests than files may be open nothing is undefined, no deadlock, and some request can always move."
  },
  {
   "property": "C129",
   "status": "partial",
   "theorems": [
    "Alexandria.FilePool.Threads.C129_readers_partial",
    "Alexandria.FilePool.Threads.C129_alone",
    "Alexandria.FilePool.Threads.C129_violated"
   ],
   "note": "Refuted: closeAll uses pointers to blocks that another thread (a writer that changes the mode, or a second closeAll) has deleted since they were collected. Proved: one closeAll beside readers, no more than files may be open, is never undefined and in no deadlock; an undisturbed closeAll returns and closes exactly the streams that no request has. That streams of accessors are never closed, also beside closeAll, is C127_known."
  },
  {
   "property": "C130",
   "status": "proved",
   "theorems": [
    "Alexandria.MathUtils.C130_eval",
    "Alexandria.MathUtils.C130_derivative",
    "Alexandria.MathUtils.C130_integral",
    "Alexandria.MathUtils.C130_product",
    "Alexandria.MathUtils.C130_exact"
   ],
   "note": "Every operation rounded; `Close` (Common/Close.lean) carries bounds of the form ((1+u)^k-1)*A through the loops. The integer indices are assumed exact in the format (holds below 2^53). Overflow and underflow are not modelled."
  },
  {
   "property": "C131",
   "status": "partial",
   "theorems": [
    "Alexandria.MathUtils.C131_defined_partial",
    "Alexandria.MathUtils.C131_residual_partial",
    "Alexandria.MathUtils.C131_linear_partial",
    "Alexandria.MathUtils.C131_violated",
    "Alexandria.MathUtils.C131_accurate_violated",
    "Alexandria.Overflow.C131_finite_iff",
    "Alexandria.Overflow.C131_linear_iff",
    "Alexandria.Overflow.C131_no_overflow",
    "Alexandria.Overflow.C131_ordered",
    "Alexandria.Overflow.C131_overflow_violated",
    "Alexandria.Overflow.C131_silent_violated",
    "Alexandria.Overflow.C131_underflow_violated",
    "Alexandria.Overflow.C131_not_finite"
   ],
   "note": "Refuted: 361x^2+38x+1=0 gives NaN although -1/19 solves it, and the smaller solution may be lost altogether. Proved: numbers in order where the discriminant does not cancel beyond rounding, a residual of at most 13((1+u)^6-1)(|y-c|+b^2/(4|a|)) for whatever is returned, and the linear cases. With overflow and underflow (Overflow/SolveModel.lean): exactly when the results are finite and which ones (C131_finite_iff, C131_linear_iff), that these are the results without limits (C131_no_overflow) and that the second is never less than the first (C131_ordered); three refutations by doubles with double solutions."
  },
  {
   "property": "C132",
   "status": "partial",
   "theorems": [
    "Alexandria.NdArray.C132_programs_partial",
    "Alexandria.NdArray.C132_violated",
    "Alexandria.NdArray.C132_reshape_violated",
    "Alexandria.NdArray.C132_size_violated",
    "Alexandria.NdArray.C132_names_violated"
   ],
   "note": "Refuted for programs that copy a slice (C07), reshape an array whose last axis has been fixed (C05), look at the size or the iteration of an array something has been concatenated to (C06), or use the names of a slice of an array with attributes (C60): each is shown with a program. Proved for all other programs over both constructors, share, assign, slice, rslice, reshape, copy, concatenate to a whole array, at by coordinates and by name (read and write), iteration, ==, size, shape and attributes, for non-empty shapes of less than 2^31 elements. After a concatenation all arrays of the same elements show what they have shown before."
  },
  {
   "property": "C133",
   "status": "proved",
   "theorems": [
    "Alexandria.NdArray.C133_sum",
    "Alexandria.NdArray.C133_sum_ge",
    "Alexandria.NdArray.C133_sum_all",
    "Alexandria.NdArray.C133_trapz",
    "Alexandria.NdArray.C133_trapz_nonneg"
   ],
   "note": "The model of C62 and C64 with rounded operations. Overflow, underflow and contraction to fused operations are not modelled."
  },
  {
   "property": "C134",
   "status": "proved",
   "theorems": [
    "Alexandria.MathUtils.C134_direct",
    "Alexandria.MathUtils.C134_refine"
   ],
   "note": "The function is any map of numbers to numbers. Overflow, underflow and contraction to fused operations are not modelled."
  },
  {
   "property": "C135",
   "status": "partial",
   "theorems": [
    "Alexandria.MathUtils.C135_simpson",
    "Alexandria.MathUtils.C135_simpson_monotone",
    "Alexandria.MathUtils.C135_smooth_partial",
    "Alexandria.MathUtils.C135_monotone_partial",
    "Alexandria.MathUtils.C135_between",
    "Alexandria.MathUtils.C135_defined",
    "Alexandria.MathUtils.C135_violated"
   ],
   "note": "The full statement is false: all samples of sin²(16 π x) on [0, 1] at the first two orders are 0, so its integral is taken for 0 (C135_violated). Proved instead are error bounds from the fourth derivative and for monotone functions. Exact arithmetic; for rounding see C134."
  },
  {
   "property": "C136",
   "status": "proved",
   "theorems": [
    "Alexandria.Physics.C136_bounds",
    "Alexandria.Physics.C136_error",
    "Alexandria.Physics.C136_defined",
    "Alexandria.Physics.C136_default",
    "Alexandria.Physics.C136_error_smooth",
    "Alexandria.Physics.C136_modulus"
   ],
   "note": "The model of C54 with the model of C94 as integration. Exact arithmetic."
  },
  {
   "property": "C137",
   "status": "partial",
   "theorems": [
    "Alexandria.Table.C137_text",
    "Alexandria.Table.C137_read",
    "Alexandria.Table.C137_settled",
    "Alexandria.Table.C137_exact",
    "Alexandria.Table.C137_integers",
    "Alexandria.Table.C137_ok",
    "Alexandria.Table.C137_cast",
    "Alexandria.Table.C137_table",
    "Alexandria.Table.C137_violated",
    "Alexandria.Table.C137_violated_equal"
   ],
   "note": "The full statement is false: 1234567 is written as 1.23457e+06 and read as 1234570, and so is 1234568 (C137_violated, C137_violated_equal). Proved instead is what is read back, for single numbers, casts to strings and back, and whole tables. Infinities, NaN, overflow and subnormal numbers are not modelled."
  },
  {
   "property": "C138",
   "status": "proved",
   "theorems": [
    "Alexandria.Configuration.C138_options",
    "Alexandria.Configuration.C138_returns",
    "Alexandria.Configuration.C138_distinct",
    "Alexandria.Configuration.C138_one_group"
   ],
   "note": "Option descriptions are values; the help texts and the parsing by boost are not modelled."
  },
  {
   "property": "C139",
   "status": "proved",
   "theorems": [
    "Alexandria.XYDataset.AsciiIO.C139_points",
    "Alexandria.XYDataset.AsciiIO.C139_digits",
    "Alexandria.XYDataset.AsciiIO.C139_file",
    "Alexandria.XYDataset.AsciiIO.C139_sixteen",
    "Alexandria.XYDataset.AsciiIO.C139_eight",
    "Alexandria.XYDataset.AsciiIO.C139_repair",
    "Alexandria.XYDataset.AsciiIO.C139_table"
   ],
   "note": "Infinities, NaN, overflow, subnormal numbers and hexadecimal texts are not modelled. C139_repair and C139_table are about a change of the code (the precision of the writer)."
  },
  {
   "property": "C140",
   "status": "partial",
   "theorems": [
    "Alexandria.Grid.C140_programs_partial",
    "Alexandria.Grid.C140_violated",
    "Alexandria.Grid.C140_iteration_violated"
   ],
   "note": "Proved for programs that do not ask for the size or an axis of a slice with two or more fixed axes and do not iterate a slice of a grid that has an empty axis; for these the code errs (C140_violated, C140_iteration_violated). Cells are a std::vector; assignment of a grid to itself is left out."
  },
  {
   "property": "C141",
   "status": "partial",
   "theorems": [
    "Alexandria.Histogram.C141_stats_partial",
    "Alexandria.Histogram.C141_assert_violated",
    "Alexandria.Histogram.C141_mean_violated",
    "Alexandria.Histogram.C141_sigma_violated"
   ],
   "note": "Proved with error bounds for whole counts whose total fits the mantissa of the weight type: mean n+7 roundings relative to the mean magnitude, variance 2n+16 roundings relative to the second moment, median 4 roundings, assertion true. Violated: the assertion for float weights beyond 2^24, the mean of one bin (one unit in the last place off), the deviation of bins far from zero (cancellation gives 0). Exponents are unbounded."
  },
  {
   "property": "C142",
   "status": "proved",
   "theorems": [
    "Alexandria.MathUtils.C142_linear",
    "Alexandria.MathUtils.C142_second",
    "Alexandria.MathUtils.C142_unique",
    "Alexandria.MathUtils.C142_line",
    "Alexandria.MathUtils.C142_superposition",
    "Alexandria.MathUtils.C142_curvature",
    "Alexandria.MathUtils.C142_spline"
   ],
   "note": "Over an ordered field, the statements with derivatives and integrals over the real numbers. Exact arithmetic; C123 bounds the rounding of the linear interpolation."
  },
  {
   "property": "C143",
   "status": "proved",
   "theorems": [
    "Alexandria.MathUtils.C143_error",
    "Alexandria.MathUtils.C143_range",
    "Alexandria.MathUtils.C143_lipschitz",
    "Alexandria.MathUtils.C143_multilinear",
    "Alexandria.MathUtils.C143_interpn"
   ],
   "note": "Exact arithmetic over an ordered field; the function may depend on the discrete arguments in any way."
  },
  {
   "property": "C144",
   "status": "proved",
   "theorems": [
    "Alexandria.Grid.Archive.C144_names",
    "Alexandria.Grid.Archive.C144_import",
    "Alexandria.Grid.Archive.C144_truncated"
   ],
   "note": "Streams are lists of values as in C108; that the archives of boost themselves notice a value of another kind or the end of the stream is part of the model."
  },
  {
   "property": "C145",
   "status": "partial",
   "theorems": [
    "Alexandria.Grid.FitsIO.C145_import",
    "Alexandria.Grid.FitsIO.C145_safe_partial",
    "Alexandria.Grid.FitsIO.C145_safe_violated",
    "Alexandria.Grid.FitsIO.C145_shape_violated"
   ],
   "note": "C145_import says for every file what happens; missing from the full statement: the number of pixels and the shape of the image are not compared with the axes, so that an image with fewer pixels than the grid has cells is read beyond its end (C145_safe_violated) and an image of another shape is accepted (C145_shape_violated)."
  },
  {
   "property": "C146",
   "status": "partial",
   "theorems": [
    "Alexandria.MathUtils.C146_values_partial",
    "Alexandria.MathUtils.C146_nodes_partial",
    "Alexandria.MathUtils.C146_double_partial",
    "Alexandria.MathUtils.C146_violated",
    "Alexandria.MathUtils.C146_one_point"
   ],
   "note": "Proved: the error is at most 4200 u Y (X/h)^3, where Y is the largest ordinate, X the largest abscissa, h the smallest distance of two abscissae and u the relative error of an operation. Missing from the full statement: a bound without the factor (X/h)^3, which does not hold (C146_violated: at a million with distances of one and ordinates 0 and 1 the function is 256 at a point where the ordinate is 0). Overflow, underflow and fused operations are not modelled."
  },
  {
   "property": "C147",
   "status": "partial",
   "theorems": [
    "Alexandria.Npy.C147_written_partial",
    "Alexandria.Npy.C147_mapped_partial",
    "Alexandria.Npy.C147_resized_partial",
    "Alexandria.Npy.C147_violated"
   ],
   "note": "Proved against an independent reader of npy files (Spec.npyFile), if the names are printable ASCII without quote and backslash, not empty and distinct, and the header is shorter than 4 GiB. Missing from the full statement: other names, for which it does not hold (C147_violated: a quote in a name ends the string; two attributes of the same name give a type that numpy refuses). Of Python only string literals without escapes, decimal numbers, tuples and lists of pairs are specified."
  },
  {
   "property": "C148",
   "status": "partial",
   "theorems": [
    "Alexandria.NdArray.C148_text",
    "Alexandria.NdArray.C148_same_partial",
    "Alexandria.NdArray.C148_violated",
    "Alexandria.NdArray.C148_shown",
    "Alexandria.NdArray.C148_concatenated"
   ],
   "note": "C148_text: for every well-formed array or view the loop ends and writes exactly the text of the specification. C148_same_partial: different arrays with elements have different texts. Missing from the full statement: arrays without elements, for which nothing is written whatever their shape (C148_violated), and arrays after concatenate, whose text has the new shape with the elements before the first call (C148_concatenated, a consequence of C06). C148_shown: whatever the size of the array says, the text is that of the elements iteration shows."
  },
  {
   "property": "C149",
   "status": "partial",
   "theorems": [
    "Alexandria.MathUtils.C149_error",
    "Alexandria.MathUtils.C149_extrapolated",
    "Alexandria.MathUtils.C149_tabulated",
    "Alexandria.MathUtils.C149_interpn",
    "Alexandria.MathUtils.C149_constant",
    "Alexandria.MathUtils.C149_outside",
    "Alexandria.MathUtils.C149_violated"
   ],
   "note": "Proved by a simulation between the exact and the rounded calls. Elements at nodes and the range of the elements are not kept (C149_violated): the value at a node is calculated from the slope and the ordinate at zero. Overflow, underflow and fused operations are not modelled."
  },
  {
   "property": "C150",
   "status": "partial",
   "theorems": [
    "Alexandria.Table.C150_refused",
    "Alexandria.Table.C150_settings",
    "Alexandria.Table.C150_columns",
    "Alexandria.Table.C150_plain",
    "Alexandria.Table.C150_accepted_partial",
    "Alexandria.Table.C150_violated",
    "Alexandria.Table.C150_header_violated",
    "Alexandria.Table.C150_blank_violated",
    "Alexandria.Table.C150_writer",
    "Alexandria.Table.Fits.C150_fits_refused",
    "Alexandria.Table.Fits.C150_fits_columns",
    "Alexandria.Table.Fits.C150_fits_violated",
    "Alexandria.Table.Fits.C150_fits_auto",
    "Alexandria.Table.Fits.C150_fits_started",
    "Alexandria.Table.C150_exact",
    "Alexandria.Table.C150_here",
    "Alexandria.Table.Fits.C150_fits_not_table"
   ],
   "note": "Proved: when calls are refused, what is set after any sequence of calls, the columns, and the order of calls of the writer. Missing from the full statement: refused names and types are kept (C150_violated, C150_fits_violated; proved if they are refused only after reading has begun), a name that occurs twice in the header makes the reader throw although names were fixed (C150_header_violated), and blanks in names are accepted by AsciiReader (C150_blank_violated)."
  },
  {
   "property": "C151",
   "status": "partial",
   "theorems": [
    "Alexandria.Npy.C151_read_partial",
    "Alexandria.Npy.C151_refused",
    "Alexandria.Npy.C151_bytes_refused",
    "Alexandria.Npy.C151_arrays_in_fields",
    "Alexandria.Npy.C151_bytes_violated",
    "Alexandria.Npy.C151_silent_violated",
    "Alexandria.Npy.C151_quote_violated",
    "Alexandria.Npy.C151_unset_violated"
   ],
   "note": "Proved for all types of more than one byte (C151_read_partial) and the refusals for all files (C151_refused; records all of whose fields are arrays are excepted). Missing from the full statement: numbers of one byte, which numpy calls |i1 and |u1, are always refused (C151_bytes_refused, C151_bytes_violated). Beyond it: fields that are arrays (C151_arrays_in_fields, C151_silent_violated) or whose names contain a quote (C151_quote_violated) are passed over without an exception, and the numbers of other fields are wrong; if all fields are arrays, the byte order is used without having been set (C151_unset_violated)."
  },
  {
   "property": "C152",
   "status": "partial",
   "theorems": [
    "Alexandria.Caches.C152_race_iff",
    "Alexandria.Caches.C152_filled",
    "Alexandria.Caches.C152_values",
    "Alexandria.Caches.C152_finishes",
    "Alexandria.Caches.C152_polynomials",
    "Alexandria.Caches.C152_names",
    "Alexandria.Caches.C152_zero_hash",
    "Alexandria.Caches.C152_violated"
   ],
   "note": "The values are right and no call waits (C152_values, C152_finishes), in any order of accesses. The full statement is false (C152_violated): C152_race_iff says that there is a race exactly if a member that is empty at the start is used by one thread and used or copied by another; C152_filled and C152_names say what avoids it, and C152_zero_hash that names with hash zero always race."
  },
  {
   "property": "C153",
   "status": "partial",
   "theorems": [
    "Alexandria.Paths.C153_exact",
    "Alexandria.Paths.C153_key_partial",
    "Alexandria.Paths.C153_handler_partial",
    "Alexandria.Paths.C153_stable",
    "Alexandria.Paths.C153_violated",
    "Alexandria.Paths.C153_later_violated"
   ],
   "note": "Proved if the last element of the path is not a symbolic link to something that does not exist (C153_key_partial, C153_handler_partial), and for later creations if what is missing of the path are plain names (C153_stable). Otherwise violated: such a link has a key of its own, so that there are two handlers for one file (C153_violated); double dots after a missing directory stay in the key (C153_later_violated). The model is the function of this library, which is used with boost before 1.60; hard links are left out."
  },
  {
   "property": "C154",
   "status": "partial",
   "theorems": [
    "Alexandria.NotANumber.C154_polynomial",
    "Alexandria.NotANumber.C154_piecewise",
    "Alexandria.NotANumber.C154_integrate_from",
    "Alexandria.NotANumber.C154_integrate_to",
    "Alexandria.NotANumber.C154_histogram",
    "Alexandria.NotANumber.C154_uniform",
    "Alexandria.NotANumber.C154_cumulative",
    "Alexandria.NotANumber.C154_cumulative_first",
    "Alexandria.NotANumber.C154_ratio",
    "Alexandria.NotANumber.C154_min_interval",
    "Alexandria.NotANumber.C154_bmu",
    "Alexandria.NotANumber.C154_distance",
    "Alexandria.NotANumber.C154_bmu_object",
    "Alexandria.NotANumber.C154_train_sample",
    "Alexandria.NotANumber.C154_train_keeps",
    "Alexandria.NotANumber.C154_train_lost",
    "Alexandria.NotANumber.C154_kdtree_order",
    "Alexandria.NotANumber.C154_kdtree_query",
    "Alexandria.NotANumber.C154_numbers",
    "Alexandria.NotANumber.C154_violated"
   ],
   "note": "Violated in most places (C154_violated). Proved is what happens for every input: NaN is propagated by polynomials and distances and passed over by the search of the nearest cell and of the tree; a piecewise function at NaN and equal bins are undefined behaviour; integrals give zero or the integral to the last knot; edges count NaN in the last bin; cumulatives give the first sample, an inverted interval, or read before the vector; one NaN in a training object loses the map; the tree sorts by a comparison that is no strict weak order unless the numbers are all equal. C154_numbers: without NaN the models are those of the other properties."
  },
  {
   "property": "C155",
   "status": "partial",
   "theorems": [
    "Alexandria.KdTree.Overflow.C155_machine_partial",
    "Alexandria.KdTree.Overflow.C155_double_partial",
    "Alexandria.KdTree.Overflow.C155_nothing",
    "Alexandria.KdTree.Overflow.C155_lost",
    "Alexandria.KdTree.Overflow.C155_violated",
    "Alexandria.KdTree.Overflow.C155_radius_underflow"
   ],
   "note": "Violated (C155_violated): when the sum of the two coordinates in the middle overflows, the split value is infinite and points are lost; when the square of the radius is rounded to zero (C155_radius_underflow), nothing is found. Proved: when no sum of two coordinates overflows (for double: coordinates up to 2^1022) the query is the scan for all centres and radii, with every overflow and underflow in the distances. NaN among the coordinates of the objects is in C154."
  },
  {
   "property": "C156",
   "status": "partial",
   "theorems": [
    "Alexandria.Overflow.C156_sums",
    "Alexandria.Overflow.C156_findValue",
    "Alexandria.Overflow.C156_normalized",
    "Alexandria.Overflow.C156_min_interval",
    "Alexandria.Overflow.C156_cumulative_violated",
    "Alexandria.Overflow.C156_step",
    "Alexandria.Overflow.C156_bins",
    "Alexandria.Overflow.C156_bins_violated",
    "Alexandria.Overflow.C156_range_violated",
    "Alexandria.Overflow.C156_slope",
    "Alexandria.Overflow.C156_line",
    "Alexandria.Overflow.C156_line_violated",
    "Alexandria.Overflow.C156_distance",
    "Alexandria.Overflow.C156_bmu",
    "Alexandria.Overflow.C156_bmu_zero",
    "Alexandria.Overflow.C156_map_violated",
    "Alexandria.Overflow.C156_l2",
    "Alexandria.Overflow.C156_l2_overflow",
    "Alexandria.Overflow.C156_greatest"
   ],
   "note": "All four are violated by finite doubles. Proved instead, for all inputs: once a sum overflows, every positive ratio gives the first infinite sample, normalising gives zeros and NaN, and the minimal interval goes from the last sample back to the first infinite one; a bin index is undefined exactly when the step is rounded to zero or both the range and the distance to the least value overflow, and is otherwise at most twice the number of bins; the interpolation is nowhere finite on a piece whose slope overflows and is the value of C123 if nothing overflows; distances of finite weights are never NaN, the cell found is the first of least computed distance (or the first cell if all are beyond the greatest number), and the distance is zero if a cell equals the input."
  },
  {
   "property": "C157",
   "status": "proved",
   "theorems": [
    "Alexandria.Histogram.Vars.C157_values",
    "Alexandria.Histogram.Vars.C157_library",
    "Alexandria.Histogram.Vars.C157_library_uniform",
    "Alexandria.Histogram.Vars.C157_half_clipped"
   ],
   "note": "Refinement of a heap with shared vectors of counts and unique objects by a store of values, for programs of any length. C157_half_clipped: with a binning of the user that throws in the second search, the first half of the clip stays."
  },
  {
   "property": "C158",
   "status": "partial",
   "theorems": [
    "Alexandria.Table.C158_shared",
    "Alexandria.Table.C158_rows",
    "Alexandria.Table.C158_here",
    "Alexandria.Table.C158_alone",
    "Alexandria.Table.C158_tables",
    "Alexandria.Table.C158_violated",
    "Alexandria.Table.C158_continue_partial",
    "Alexandria.Table.C158_continue"
   ],
   "note": "The last sentence is violated: the types of the columns are in the header that the first reader has read (C158_violated). C158_continue says exactly what a new reader with names and types given reads: its table, if its columns are found, has the cells of the rows the first reader would have read; otherwise there is no table. C158_continue_partial: if the comments before the next row describe no column, the columns are found."
  },
  {
   "property": "C159",
   "status": "partial",
   "theorems": [
    "Alexandria.Table.C159_exact",
    "Alexandria.Table.C159_violated",
    "Alexandria.Table.C159_defined_partial"
   ],
   "note": "Violated by the header \"# Column: a (\" (C159_violated). C159_exact: a call is undefined exactly if it looks for the columns and a description of a new name with a lone opening parenthesis for the unit comes before anything that makes the reader throw. C159_defined_partial: without such a word no call is undefined."
  },
  {
   "property": "C160",
   "status": "partial",
   "theorems": [
    "Alexandria.Npy.C160_exact",
    "Alexandria.Npy.C160_undefined",
    "Alexandria.Npy.C160_mmap",
    "Alexandria.Npy.C160_violated",
    "Alexandria.Npy.C160_fields_unique",
    "Alexandria.Npy.C160_fields",
    "Alexandria.Npy.C160_uniform"
   ],
   "note": "C160_exact and C160_mmap say for every sequence of bytes what is read or mapped; C160_undefined says exactly when reading is undefined; C160_fields says which fields are found in the text of a record (every text has exactly one list of fields, C160_fields_unique) and C160_uniform which are accepted together. The statement itself is violated for the files of C160_undefined (C160_violated)."
  },
  {
   "property": "C161",
   "status": "partial",
   "theorems": [
    "Alexandria.MathUtils.C161_vectors",
    "Alexandria.MathUtils.C161_nodes",
    "Alexandria.MathUtils.C161_curve_partial",
    "Alexandria.MathUtils.C161_single",
    "Alexandria.MathUtils.C161_violated"
   ],
   "note": "Proved for files of at least two data lines with a header that cannot be taken for a description of columns (as in C112). A file with one data line gives a function that is undefined at its point (C161_single, C161_violated). Exact arithmetic; the text form of numbers is a parameter."
  },
  {
   "property": "C162",
   "status": "partial",
   "theorems": [
    "Alexandria.BandConfig.C162_guards",
    "Alexandria.BandConfig.C162_history",
    "Alexandria.BandConfig.C162_initialised_iff",
    "Alexandria.BandConfig.C162_exact",
    "Alexandria.BandConfig.C162_once_partial",
    "Alexandria.BandConfig.C162_retry_violated",
    "Alexandria.BandConfig.C162_violated",
    "Alexandria.BandConfig.C162_flags",
    "Alexandria.BandConfig.C162_flag_violated"
   ],
   "note": "The calls are allowed as stated (C162_guards), and the contents after ANY sequence of calls are described (C162_history): all the files read so far one after the other, also those refused for a wrong excluded filter. So they are right if the object is initialised once (C162_once_partial), and exactly if nothing was in it before (C162_exact); not after a retry or a second initialisation of the manager (C162_violated, C162_retry_violated). The flag for missing photometry is never taken back (C162_flags, C162_flag_violated)."
  },
  {
   "property": "C163",
   "status": "proved",
   "theorems": [
    "Alexandria.ThreadPool.C163_running",
    "Alexandria.ThreadPool.C163_active",
    "Alexandria.ThreadPool.C163_exception",
    "Alexandria.ThreadPool.C163_poll",
    "Alexandria.ThreadPool.C163_poll_nested",
    "Alexandria.ThreadPool.C163_other_order_violated"
   ],
   "note": "The model of C126 with one more thread, which reads the flags one by one and holds the mutex in running(). C163_other_order_violated: to ask running() before queued() proves nothing, a worker takes the task between the calls."
  },
  {
   "property": "C164",
   "status": "proved",
   "theorems": [
    "Alexandria.SOM.C164_cell",
    "Alexandria.SOM.C164_winner",
    "Alexandria.SOM.C164_single",
    "Alexandria.SOM.C164_overwrite",
    "Alexandria.SOM.C164_shipped",
    "Alexandria.SOM.C164_learned"
   ],
   "note": "In exact arithmetic, with the L2 distance (the only one shipped). For the Kohonen neighbourhood the function object is the Gaussian by C81_kohonen."
  },
  {
   "property": "C165",
   "status": "partial",
   "theorems": [
    "Alexandria.Configuration.Instance.C165_violated",
    "Alexandria.Configuration.Instance.C165_race_iff",
    "Alexandria.Configuration.Instance.C165_destroyed_iff",
    "Alexandria.Configuration.Instance.C165_same_partial",
    "Alexandria.Configuration.Instance.C165_goes_on",
    "Alexandria.Configuration.Instance.C165_pointer_race_iff"
   ],
   "note": "The full statement is false (C165_violated). C165_race_iff: there is a data race exactly if a thread uses an id without a manager at the start and another thread calls the function at all. C165_destroyed_iff: even with every step taking effect at once, a manager that a thread has got may be destroyed exactly if two threads use the same such id. C165_same_partial: otherwise (steps taking effect at once) equal ids give equal managers and none is destroyed. C165_goes_on: no call waits."
  },
  {
   "property": "C166",
   "status": "proved",
   "theorems": [
    "Alexandria.MathUtils.C166_result",
    "Alexandria.MathUtils.C166_ends",
    "Alexandria.MathUtils.C166_orders",
    "Alexandria.Physics.C166_comoving",
    "Alexandria.Physics.C166_default"
   ],
   "note": "C166_result, C166_ends: with samples f at nodes displaced by at most four roundings within eps of a function g that is at most G, every result of order k + 1 is within (b-a) 5/4 (eps + 2 ((1+u)^(2^k+5) - 1)(G + eps)) of the exact rule for g. C166_orders: which orders are refused. C166_comoving, C166_default: the same for the inverse Hubble parameter as computed (square root and all operations rounded with relative error at most 2^-53), compared to the integral. Overflow and subnormal numbers are not modelled."
  },
  {
   "property": "C167",
   "status": "proved",
   "theorems": [
    "Alexandria.FilePool.C167_reuses",
    "Alexandria.FilePool.C167_opens"
   ],
   "note": "An invariant of all histories: the idle descriptors are in the order of their addresses."
  },
  {
   "property": "C168",
   "status": "proved",
   "theorems": [
    "Alexandria.Table.C168_iff",
    "Alexandria.Table.C168_refused",
    "Alexandria.Table.C168_unique"
   ],
   "note": "The texts of floating point numbers are a parameter here (see C137)."
  },
  {
   "property": "C169",
   "status": "proved",
   "theorems": [
    "Alexandria.Physics.C169_transverse",
    "Alexandria.Physics.C169_defined",
    "Alexandria.Physics.C169_luminous",
    "Alexandria.Physics.C169_modulus",
    "Alexandria.Physics.C169_modulus_zero",
    "Alexandria.Physics.C169_volume"
   ],
   "note": "Overflow and subnormal numbers are not modelled; the accuracy of the C library is a hypothesis."
  },
  {
   "property": "C170",
   "status": "partial",
   "theorems": [
    "Alexandria.Grid.C170_corner",
    "Alexandria.Grid.C170_cell_partial",
    "Alexandria.Grid.C170_slices",
    "Alexandria.Grid.C170_slices_violated",
    "Alexandria.Grid.C170_equal",
    "Alexandria.Grid.C170_equal_any"
   ],
   "note": "at(infimum(...)) is proved for whole grids, and exactly characterised for slices, where the code violates the property (C170_slices_violated)."
  },
  {
   "property": "C171",
   "status": "partial",
   "theorems": [
    "Alexandria.Grid.Archive.C171_exact",
    "Alexandria.Grid.Archive.C171_single_partial",
    "Alexandria.Grid.Archive.C171_reuse_violated"
   ],
   "note": "Exact: the grids come back if and only if no address of an axis in a local tuple is used twice in the archive, otherwise loading is undefined; the code does not ensure this for several grids in one archive (C171_reuse_violated). The numbering of objects by boost is modelled from its documentation of object tracking."
  },
  {
   "property": "C172",
   "status": "proved",
   "theorems": [
    "Alexandria.Catalog.C172_rows",
    "Alexandria.Catalog.C172_find",
    "Alexandria.Catalog.C172_others"
   ],
   "note": ""
  },
  {
   "property": "C173",
   "status": "proved",
   "theorems": [
    "Alexandria.MathUtils.FloatModes.C173_highest",
    "Alexandria.MathUtils.FloatModes.C173_biggest",
    "Alexandria.MathUtils.FloatModes.C173_nan",
    "Alexandria.MathUtils.FloatModes.C173_area",
    "Alexandria.MathUtils.FloatModes.C173_order",
    "Alexandria.MathUtils.FloatModes.C173_exact"
   ],
   "note": "Operations are rounded one by one (no fused operations). Overflow is part of C173_highest, C173_biggest and C173_nan, not of C173_area and C173_order."
  },
  {
   "property": "C174",
   "status": "partial",
   "theorems": [
    "Alexandria.SOM.FloatU.C174_extrema",
    "Alexandria.SOM.FloatU.C174_mean_nan",
    "Alexandria.SOM.FloatU.C174_symmetric",
    "Alexandria.SOM.FloatU.C174_single",
    "Alexandria.SOM.FloatU.C174_mean",
    "Alexandria.SOM.FloatU.C174_between_partial",
    "Alexandria.SOM.FloatU.C174_between_violated"
   ],
   "note": "Everything is proved for the model except that the mean is between minimum and maximum: the code violates this by rounding (C174_between_violated), C174_between_partial has the bound that holds."
  },
  {
   "property": "C175",
   "status": "proved",
   "theorems": [
    "Alexandria.SOM.C175_linear",
    "Alexandria.SOM.C175_linear_pos",
    "Alexandria.SOM.C175_exponential",
    "Alexandria.SOM.C175_disk",
    "Alexandria.SOM.C175_kohonen_calls",
    "Alexandria.SOM.C175_kohonen",
    "Alexandria.SOM.C175_kohonen_farther",
    "Alexandria.SOM.C175_kohonen_bmu",
    "Alexandria.SOM.C175_training"
   ],
   "note": "exp and log of the library are arbitrary functions of which only what the hypotheses say is assumed; overflow and underflow are not modelled. That the disk misses the cells with greater coordinates (differences in size_t) is part of the model, see C57."
  },
  {
   "property": "C176",
   "status": "partial",
   "theorems": [
    "Alexandria.MathUtils.C176_rows",
    "Alexandria.MathUtils.C176_discrete",
    "Alexandria.MathUtils.C176_outside",
    "Alexandria.MathUtils.C176_violated",
    "Alexandria.MathUtils.C176_first_violated"
   ],
   "note": "The bounds of the elements of continuous axes do not hold (C176_violated, any square root with sqrt(0) = 0). Overflow is not modelled; a discrete inverse for densities with the sum 0, a vector of NaN, is an outcome of its own."
  }
 ]
}
