{
 "claims": [
  {
   "property": "C01",
   "status": "proved",
   "theorems": [
    "Votess.C01_sort_permutes"
   ],
   "note": ""
  },
  {
   "property": "C02",
   "status": "proved",
   "theorems": [
    "Votess.C02_ids_right",
    "Votess.C02_ascending",
    "Votess.C02_negative_id"
   ],
   "note": ""
  },
  {
   "property": "C03",
   "status": "proved",
   "theorems": [
    "Votess.C03_offset_table"
   ],
   "note": ""
  },
  {
   "property": "C04",
   "status": "proved",
   "theorems": [
    "Votess.C04_stable",
    "Votess.C04_idempotent"
   ],
   "note": ""
  },
  {
   "property": "C05",
   "status": "proved",
   "theorems": [
    "Votess.C05_sort_safe_iff",
    "Votess.C05_unit_box_safe",
    "Votess.C05_validation_too_late"
   ],
   "note": ""
  },
  {
   "property": "C06",
   "status": "proved",
   "theorems": [
    "Votess.C06_heap_update",
    "Votess.C06_heap_safe",
    "Votess.C06_root_max"
   ],
   "note": ""
  },
  {
   "property": "C07",
   "status": "proved",
   "theorems": [
    "Votess.C07_heap_sort",
    "Votess.C07_heap_sort_safe"
   ],
   "note": ""
  },
  {
   "property": "C08",
   "status": "proved",
   "theorems": [
    "Votess.C08_shells",
    "Votess.C08_cell_numbers"
   ],
   "note": ""
  },
  {
   "property": "C09",
   "status": "proved",
   "theorems": [
    "Votess.C09_knn_exact"
   ],
   "note": ""
  },
  {
   "property": "C10",
   "status": "proved",
   "theorems": [
    "Votess.C10_grid_independent"
   ],
   "note": ""
  },
  {
   "property": "C11",
   "status": "proved",
   "theorems": [
    "Votess.C11_any_arithmetic",
    "Votess.C11_distinct"
   ],
   "note": ""
  },
  {
   "property": "C12",
   "status": "proved",
   "theorems": [
    "Votess.C12_padding_harmless",
    "Votess.C12_padding"
   ],
   "note": "C12_padding: the search; C12_padding_harmless: the cell, in exact arithmetic."
  },
  {
   "property": "C13",
   "status": "proved",
   "theorems": [
    "Votess.C13_bisect_zero",
    "Votess.C13_bisect_pos",
    "Votess.C13_bisect_neg",
    "Votess.C13_dot_eval"
   ],
   "note": ""
  },
  {
   "property": "C14",
   "status": "proved",
   "theorems": [
    "Votess.C14_intersect_on",
    "Votess.C14_intersect_unique",
    "Votess.C14_intersect_singular",
    "Votess.C14_intersect_order"
   ],
   "note": ""
  },
  {
   "property": "C15",
   "status": "proved",
   "theorems": [
    "Votess.C15_security_radius",
    "Votess.C15_radius_bounds"
   ],
   "note": ""
  },
  {
   "property": "C16",
   "status": "proved",
   "theorems": [
    "Votess.C16_boundary_loop",
    "Votess.C16_boundary_edges"
   ],
   "note": ""
  },
  {
   "property": "C17",
   "status": "proved",
   "theorems": [
    "Votess.C17_boundary_safe"
   ],
   "note": ""
  },
  {
   "property": "C18",
   "status": "proved",
   "theorems": [
    "Votess.C18_wide_limit"
   ],
   "note": ""
  },
  {
   "property": "C19",
   "status": "proved",
   "theorems": [
    "Votess.C19_order_independent"
   ],
   "note": ""
  },
  {
   "property": "C20",
   "status": "proved",
   "theorems": [
    "Votess.C20_closed_surface",
    "Votess.C20_exact"
   ],
   "note": "C20_closed_surface holds for any arithmetic as long as no bisector removes all vertices; C20_exact shows that this never happens in exact arithmetic."
  },
  {
   "property": "C21",
   "status": "proved",
   "theorems": [
    "Votess.C21_cell_safe",
    "Votess.C21_cell_too_small"
   ],
   "note": ""
  },
  {
   "property": "C22",
   "status": "proved",
   "theorems": [
    "Votess.C22_vertices_in_cell"
   ],
   "note": ""
  },
  {
   "property": "C23",
   "status": "proved",
   "theorems": [
    "Votess.C23_span_affine",
    "Votess.C23_span_distance"
   ],
   "note": ""
  },
  {
   "property": "C24",
   "status": "proved",
   "theorems": [
    "Votess.C24_complete_cell",
    "Votess.C24_vertices",
    "Votess.C24_row",
    "Votess.C24_tessellation"
   ],
   "note": "Exact arithmetic, points in the half open unit box, CPU driver without recompute (with recompute: C37_tessellation). The success condition uses only the reported counters."
  },
  {
   "property": "C25",
   "status": "proved",
   "theorems": [
    "Votess.C25_returned_touch",
    "Votess.C25_missing_irrelevant",
    "Votess.C25_tessellation"
   ],
   "note": "Exact arithmetic, points in the half open unit box, CPU driver without recompute (with recompute: C37_tessellation). The success condition uses only the reported counters."
  },
  {
   "property": "C26",
   "status": "proved",
   "theorems": [
    "Votess.C26_exact_neighbours",
    "Votess.C26_symmetric",
    "Votess.C26_row",
    "Votess.C26_tessellation_symmetric"
   ],
   "note": "Exact arithmetic; general position of the point is assumed where the row is said to be exact."
  },
  {
   "property": "C27",
   "status": "proved",
   "theorems": [
    "Votess.C27_no_infinite_boundary",
    "Votess.C27_only_overflow",
    "Votess.C27_any_order",
    "Votess.C27_states",
    "Votess.C27_counter",
    "Votess.C27_success"
   ],
   "note": "Exact arithmetic. C27_no_infinite_boundary for single cells with any candidate list, C27_any_order for any memory order and any cutting plane, C27_states and C27_counter for whole calls. Proof: the vertex triples form a connected surface on which every mod 2 cycle bounds; the kept and the removed vertices of a convex cell are each connected; a stuck loop would have a chord cutting off a pocket of waiting triangles that is stuck as well, so there is none by induction on the number of waiting triangles."
  },
  {
   "property": "C28",
   "status": "proved",
   "theorems": [
    "Votess.C28_vertex_bound",
    "Votess.C28_no_vertex_overflow"
   ],
   "note": ""
  },
  {
   "property": "C29",
   "status": "proved",
   "theorems": [
    "Votess.C29_flags"
   ],
   "note": ""
  },
  {
   "property": "C30",
   "status": "proved",
   "theorems": [
    "Votess.C30_failed_row"
   ],
   "note": ""
  },
  {
   "property": "C31",
   "status": "proved",
   "theorems": [
    "Votess.C31_sublist"
   ],
   "note": ""
  },
  {
   "property": "C32",
   "status": "proved",
   "theorems": [
    "Votess.C32_chunks_partition",
    "Votess.C32_rows",
    "Votess.C32_chunking_irrelevant"
   ],
   "note": ""
  },
  {
   "property": "C33",
   "status": "proved",
   "theorems": [
    "Votess.C33_thread_ranges",
    "Votess.C33_threads_irrelevant"
   ],
   "note": ""
  },
  {
   "property": "C34",
   "status": "proved",
   "theorems": [
    "Votess.C34_region",
    "Votess.C34_runs",
    "Votess.C34_call",
    "Votess.C34_round",
    "Votess.C34_recompute",
    "Votess.C34_recompute_start",
    "Votess.C34_deterministic",
    "Votess.C34_terminates"
   ],
   "note": "Sequentially consistent interleavings of single accesses; race freedom is proved, so the C++ memory model allows nothing else. C34_call covers every chunk run of a call that does not run into undefined behaviour (C32/C33 show when), C34_recompute every round of recompute."
  },
  {
   "property": "C35",
   "status": "proved",
   "theorems": [
    "Votess.C35_rounds",
    "Votess.C35_terminates",
    "Votess.C35_recompute_terminates"
   ],
   "note": ""
  },
  {
   "property": "C36",
   "status": "proved",
   "theorems": [
    "Votess.C36_completed_before",
    "Votess.C36_completed_during"
   ],
   "note": ""
  },
  {
   "property": "C37",
   "status": "proved",
   "theorems": [
    "Votess.C37_rows",
    "Votess.C37_only_overflow",
    "Votess.C37_readme_false",
    "Votess.C37_tessellation"
   ],
   "note": "The guarantee in the README is false (C37_readme_false); proved is what does hold. With recompute the sizes must stay in range: at most 65536 points and no cell with more than 128 planes (PlanesBounded, automatic for at most 122 points)."
  },
  {
   "property": "C38",
   "status": "proved",
   "theorems": [
    "Votess.C38_no_candidates",
    "Votess.C38_single_point",
    "Votess.C38_single_point_exact"
   ],
   "note": "The behaviour is a defect: an out of bounds read."
  },
  {
   "property": "C39",
   "status": "proved",
   "theorems": [
    "Votess.C39_flags_lost",
    "Votess.C39_counters",
    "Votess.C39_recompute_counters"
   ],
   "note": ""
  },
  {
   "property": "C40",
   "status": "proved",
   "theorems": [
    "Votess.C40_size",
    "Votess.C40_row_size",
    "Votess.C40_at",
    "Votess.C40_offsets",
    "Votess.C40_assign"
   ],
   "note": ""
  },
  {
   "property": "C41",
   "status": "proved",
   "theorems": [
    "Votess.C41_lines",
    "Votess.C41_empty_row_merges",
    "Votess.C41_unrestricted_false"
   ],
   "note": "False without the restriction that no row is empty and no value is a separator: C41_unrestricted_false is the counterexample; proved under the restriction."
  },
  {
   "property": "C42",
   "status": "proved",
   "theorems": [
    "Votess.C42_map",
    "Votess.C42_keys_fixed",
    "Votess.C42_last_assignment",
    "Votess.C42_unassigned",
    "Votess.C42_unknown_key_throws",
    "Votess.C42_default"
   ],
   "note": ""
  },
  {
   "property": "C43",
   "status": "proved",
   "theorems": [
    "Votess.C43_int_roundtrip",
    "Votess.C43_bool_roundtrip",
    "Votess.C43_int_as_bool",
    "Votess.C43_text_as_int",
    "Votess.C43_truncation",
    "Votess.C43_negative_nthreads",
    "Votess.C43_nthreads"
   ],
   "note": "Floating point values are the subject of C90; negative values read as unsigned wrap (C43_negative_nthreads)."
  },
  {
   "property": "C44",
   "status": "proved",
   "theorems": [
    "Votess.C44_unchanged",
    "Votess.C44_call",
    "Votess.C44_result",
    "Votess.C44_twice",
    "Votess.C44_bad_value"
   ],
   "note": "C44_unchanged has no hypotheses. C44_call is for fewer than 2^31 points (the model keeps the number of points unbounded there)."
  },
  {
   "property": "C45",
   "status": "proved",
   "theorems": [
    "Votess.C45_tables",
    "Votess.C45_spellings",
    "Votess.C45_abbreviation",
    "Votess.C45_ambiguous",
    "Votess.C45_double_dash",
    "Votess.C45_help_text",
    "Votess.C45_gridres",
    "Votess.C45_parse_iff",
    "Votess.C45_parse_error",
    "Votess.C45_settings",
    "Votess.C45_params",
    "Votess.C45_points",
    "Votess.C45_failure",
    "Votess.C45_run",
    "Votess.C45_device_ignored",
    "Votess.C45_lines"
   ],
   "note": "getopt_long is a model of the documented glibc behaviour (trusted). C45_help_text and C45_gridres record that --gridres of the help text is not accepted."
  },
  {
   "property": "C46",
   "status": "proved",
   "theorems": [
    "Votess.C46_status_ops",
    "Votess.C46_status_init",
    "Votess.C46_bits_injective"
   ],
   "note": ""
  },
  {
   "property": "C47",
   "status": "proved",
   "theorems": [
    "Votess.C47_same_neighbours",
    "Votess.C47_grid_256"
   ],
   "note": "Exact arithmetic, points in the half open unit box. C47_grid_256 shows the limit on the grid resolution is needed."
  },
  {
   "property": "C48",
   "status": "proved",
   "theorems": [
    "Votess.C48_same_cell",
    "Votess.C48_small_tables"
   ],
   "note": "Any arithmetic."
  },
  {
   "property": "C49",
   "status": "proved",
   "theorems": [
    "Votess.C49_location",
    "Votess.C49_reads",
    "Votess.C49_unchunked",
    "Votess.C49_chunk_wrong"
   ],
   "note": "The behaviour with chunking is a defect; C49_chunk_wrong has a concrete execution with a wrong neighbour."
  },
  {
   "property": "C50",
   "status": "proved",
   "theorems": [
    "Votess.C50_bmax",
    "Votess.C50_bmin",
    "Votess.C50_bmax3",
    "Votess.C50_bmin3",
    "Votess.C50_select"
   ],
   "note": ""
  },
  {
   "property": "C51",
   "status": "proved",
   "theorems": [
    "Votess.C51_alloc",
    "Votess.C51_plane_index",
    "Votess.C51_vertex_index",
    "Votess.C51_row_index",
    "Votess.C51_device_plane_index",
    "Votess.C51_flat",
    "Votess.C51_whole",
    "Votess.C51_default_limit",
    "Votess.C51_chunked",
    "Votess.C51_run_start",
    "Votess.C51_grid",
    "Votess.C51_cell_number",
    "Votess.C51_sort_loop",
    "Votess.C51_next_k",
    "Votess.C51_recompute_limit",
    "Votess.C51_result",
    "Votess.C51_result_fits"
   ],
   "note": "C51_default_limit and C51_recompute_limit give the sizes from which the program has undefined behaviour."
  },
  {
   "property": "C52",
   "status": "proved",
   "theorems": [
    "Votess.C52_restored",
    "Votess.C52_program",
    "Votess.C52_call",
    "Votess.C52_default",
    "Votess.C52_throw",
    "Votess.C52_overlap_dangling"
   ],
   "note": "Holds for calls that do not overlap in time; C52_overlap_dangling proves it fails for two overlapping calls."
  },
  {
   "property": "C53",
   "status": "proved",
   "theorems": [
    "Votess.C53_parameter_independent",
    "Votess.C53_tessellation"
   ],
   "note": "Exact arithmetic; both calls report success and the point is in general position."
  },
  {
   "property": "C54",
   "status": "proved",
   "theorems": [
    "Votess.C54_never_emptied"
   ],
   "note": ""
  },
  {
   "property": "C55",
   "status": "proved",
   "theorems": [
    "Votess.C55_validate_xyzset",
    "Votess.C55_validate_sort_iff",
    "Votess.C55_validate_sort",
    "Votess.C55_warnings"
   ],
   "note": ""
  },
  {
   "property": "C56",
   "status": "proved",
   "theorems": [
    "Votess.C56_launch_settles",
    "Votess.C56_same_table",
    "Votess.C56_possible"
   ],
   "note": "Exact arithmetic; cc_t_maxsize at most 254, grid resolution at most 255. Work items interleave single accesses."
  },
  {
   "property": "C57",
   "status": "proved",
   "theorems": [
    "Votess.C57_flags",
    "Votess.C57_report_meaningless",
    "Votess.C57_recompute_skipped"
   ],
   "note": "The behaviour is a defect."
  },
  {
   "property": "C58",
   "status": "proved",
   "theorems": [
    "Votess.C58_divisible",
    "Votess.C58_sufficient"
   ],
   "note": ""
  },
  {
   "property": "C59",
   "status": "proved",
   "theorems": [
    "Votess.C59_fallback"
   ],
   "note": ""
  },
  {
   "property": "C60",
   "status": "proved",
   "theorems": [
    "Votess.C60_ordered_input",
    "Votess.C60_printed_lines",
    "Votess.C60_file_order_wrong"
   ],
   "note": "C60_file_order_wrong is a concrete file for which the printed numbers are wrong with respect to the file order."
  },
  {
   "property": "C61",
   "status": "proved",
   "theorems": [
    "Votess.C61_float_small",
    "Votess.C61_float_large",
    "Votess.C61_python_set",
    "Votess.C61_python_reject"
   ],
   "note": "Whole numbers; C90 has all values."
  },
  {
   "property": "C62",
   "status": "proved",
   "theorems": [
    "Votess.C62_python_item",
    "Votess.C62_python_negative",
    "Votess.C62_python_for"
   ],
   "note": "The pybind11 conversions are a model of their documented behaviour (trusted)."
  },
  {
   "property": "C63",
   "status": "proved",
   "theorems": [
    "Votess.C63_ordered",
    "Votess.C63_order_wrong"
   ],
   "note": "C63_order_wrong is a concrete point list for which the rows are wrong in the caller's order."
  },
  {
   "property": "C64",
   "status": "proved",
   "theorems": [
    "Votess.C64_enough_room",
    "Votess.C64_recompute"
   ],
   "note": "Exact arithmetic. C64_enough_room (without recompute) and C64_recompute. The plane bound is k+6 because a cell stores at most one plane per candidate besides the box; the vertex bound is C28."
  },
  {
   "property": "C65",
   "status": "proved",
   "theorems": [
    "Votess.C65_cell",
    "Votess.C65_cell_unit",
    "Votess.C65_cell_good",
    "Votess.C65_cell_small",
    "Votess.C65_power_of_two",
    "Votess.C65_call",
    "Votess.C65_call_recompute",
    "Votess.C65_outside",
    "Votess.C65_witness",
    "Votess.C65_misplaced"
   ],
   "note": "IEEE-754 binary32, round to nearest even, modelled on rationals; no fused multiply-add. C65_witness and C65_misplaced show what happens at 1-2^-24; the table of affected resolutions is checked for all of 1..1290."
  },
  {
   "property": "C66",
   "status": "proved",
   "theorems": [
    "Votess.C66_bad_grid",
    "Votess.C66_knn",
    "Votess.C66_no_padding",
    "Votess.C66_not_exact"
   ],
   "note": "IEEE-754 binary32. Absolute tolerance 2^-19 on the distance; C66_not_exact shows that some tolerance is needed, C66_bad_grid that the condition on the coordinates is needed."
  },
  {
   "property": "C67",
   "status": "proved",
   "theorems": [
    "Votess.C67_no_infinite",
    "Votess.C67_row",
    "Votess.C67_tessellation",
    "Votess.C67_enough_room",
    "Votess.C67_recompute"
   ],
   "note": "IEEE-754 binary32 without fused multiply-add. Margins are a condition on the true points, stated in Spec/Margin.lean without reference to the program; they concern only the points that matter for a cell; they hold for most sets of a few points and, point by point (C67_row, C78), for many points of larger sets. Every set with margins is in general position (Margins.general). IeeeExample.lean has a test for margins with soundness proof and a set of four points that passes."
  },
  {
   "property": "C68",
   "status": "proved",
   "theorems": [
    "Votess.C68_repeated",
    "Votess.C68_padding_infinite",
    "Votess.C68_infinite",
    "Votess.C68_missing"
   ],
   "note": "Negative results with concrete witnesses, each a whole call of the model in IEEE-754 binary32, evaluated in the kernel. They are what goes wrong outside the conditions of C67; the positive statement is C67."
  },
  {
   "property": "C69",
   "status": "proved",
   "theorems": [
    "Votess.C69_neighbours",
    "Votess.C69_same_table",
    "Votess.C69_possible",
    "Votess.C69_tessellation"
   ],
   "note": "IEEE-754 binary32 without fused multiply-add. The search equivalence is proved once for any arithmetic (gpuKnn_gen) from three conditions on priorities; C47/C56 are its exact and C69 its binary32 instance. Chunking and recompute on the GPU are wrong already in exact arithmetic (C49, C57)."
  },
  {
   "property": "C70",
   "status": "proved",
   "theorems": [
    "Votess.C70_symmetric",
    "Votess.C70_parameters",
    "Votess.C70_same_as_exact"
   ],
   "note": "Corollaries of C67 and C64 (exact side). Roomy = all other points are candidates, room for their planes and vertices, no recompute."
  },
  {
   "property": "C71",
   "status": "proved",
   "theorems": [
    "Votess.C71_tessellation",
    "Votess.C71_enough_room",
    "Votess.C71_recompute",
    "Votess.C71_gpu",
    "Votess.C71_same_as_exact"
   ],
   "note": "Error analysis of C67 with a factor for the error of the stored coordinates; storePt = round to nearest even; InputOK = coordinates in [0, 1 - 2^-22]."
  },
  {
   "property": "C72",
   "status": "proved",
   "theorems": [
    "Votess.C72_read_is_numeral",
    "Votess.C72_numeral_is_read",
    "Votess.C72_nearest",
    "Votess.C72_fails_iff",
    "Votess.C72_line"
   ],
   "note": "scanDec/scanF32 model operator>>(float) of libstdc++; the specification is Spec/Numeral (grammar with value). scanF32 instantiates the reader parameter of Model/Cli."
  },
  {
   "property": "C73",
   "status": "proved",
   "theorems": [
    "Votess.C73_print_layout",
    "Votess.C73_print",
    "Votess.C73_savetxt",
    "Votess.C73_savetxt_readable"
   ],
   "note": "printText/saveText give the characters; rows must be non-empty (C41 shows what happens otherwise)."
  },
  {
   "property": "C74",
   "status": "proved",
   "theorems": [
    "Votess.C74_program",
    "Votess.C74_program_ordered",
    "Votess.C74_auto_k_wrong"
   ],
   "note": "C45 + C72 + C71 + C73. C74_auto_k_wrong: with -k 0 and two points the printed text is {1, } {0, 0, }."
  },
  {
   "property": "C75",
   "status": "proved",
   "theorems": [
    "Votess.C75_tessellation",
    "Votess.C75_enough_room",
    "Votess.C75_recompute",
    "Votess.C75_gpu",
    "Votess.C75_gpu_possible",
    "Votess.C75_two_builds",
    "Votess.C75_depends"
   ],
   "note": "Fm ch is binary32 in which ch, a function of the two operand expressions, decides for every addition or subtraction whether a product operand is used unrounded. Everything is proved once for the class Sgl of such arithmetics; F32 is an instance. ch also chooses every quotient whose divisor is a computed expression (1.0f / triple_product) within 5*2^-24 relative before a final rounding, i.e. 2.5 units in the last place; quotients by stored values, fmod, floor and comparisons are IEEE. 1.0f / gr on the device is assumed correctly rounded; denormals are not flushed."
  },
  {
   "property": "C76",
   "status": "proved",
   "theorems": [
    "Votess.C76_cell",
    "Votess.C76_grid_iff",
    "Votess.C76_call",
    "Votess.C76_outside",
    "Votess.C76_grids",
    "Votess.C76_witness",
    "Votess.C76_misplaced",
    "Votess.C76_early_exit",
    "Votess.C76_no_early_exit"
   ],
   "note": "Dbl: values that carry their C++ type (float, integer constant, double); operations are done in the type given by the usual arithmetic conversions. F64 is double throughout, as in the GPU search. C76_outside, C76_witness, C76_misplaced, C76_early_exit are negative results with witnesses."
  },
  {
   "property": "C77",
   "status": "proved",
   "theorems": [
    "Votess.C77_tessellation",
    "Votess.C77_enough_room",
    "Votess.C77_recompute",
    "Votess.C77_doubles",
    "Votess.C77_doubles_room",
    "Votess.C77_gpu",
    "Votess.C77_gpu_possible",
    "Votess.C77_same_as_float",
    "Votess.C77_better"
   ],
   "note": "Dbl on the CPU (operation by operation, without fused multiply-add), Fm ch over binary64 on the GPU. Margins: Spec/Margin (MarginsBy, CutBy). C76_early_exit shows why the CPU needs CutBy with the precision of float when not all points are candidates. C77_better is a concrete set that float gets wrong and double right."
  },
  {
   "property": "C78",
   "status": "proved",
   "theorems": [
    "Votess.C78_enough_room",
    "Votess.C78_report",
    "Votess.C78_recompute",
    "Votess.C78_fused",
    "Votess.C78_gpu",
    "Votess.C78_double",
    "Votess.C78_elsewhere"
   ],
   "note": "GoodRows: every point of the input with margins has a correct and exact row. The example has a point with margins in a set with two coinciding points (spoilt_not_all: not all points have margins). C78_elsewhere compares the runs for two sets that agree near the point."
  },
  {
   "property": "C79",
   "status": "proved",
   "theorems": [
    "Votess.C79_cpu",
    "Votess.C79_any_device",
    "Votess.C79_gpu_possible",
    "Votess.C79_one_cell"
   ],
   "note": "pyLit is the double nearest to a decimal number, pyStore its conversion to float; PyResult models the call on either device as a relation. Recompute only on the CPU (see C57)."
  },
  {
   "property": "C80",
   "status": "proved",
   "theorems": [
    "Votess.C80_python",
    "Votess.C80_cpp"
   ],
   "note": "Instances of C79 and C75 for the points as written in README.md; their margins are checked by the integer test IntM.allMarginsI, whose soundness is proved."
  },
  {
   "property": "C81",
   "status": "proved",
   "theorems": [
    "Votess.C81_radius_iff",
    "Votess.C81_exact",
    "Votess.C81_report",
    "Votess.C81_float",
    "Votess.C81_float_report",
    "Votess.C81_fused",
    "Votess.C81_gpu",
    "Votess.C81_double",
    "Votess.C81_double_report",
    "Votess.C81_fused_report",
    "Votess.C81_gpu_double"
   ],
   "note": "Enough and NoTies are in Spec/Enough. C81_report is for exact arithmetic; C81_float_report for F32 with two-fold margins (which exclude ties). IntM.enoughI is a sound integer test for Enough, used in the example with 15 points and 11 candidates. Props/EnoughDouble: double coordinates (margins of C77; on the CPU also a clear k-th candidate, CutBy, because the bound of the search is float), GPU with double, and the report of contracted builds."
  },
  {
   "property": "C82",
   "status": "proved",
   "theorems": [
    "Votess.C82_pair",
    "Votess.C82_wide",
    "Votess.C82_not_wide",
    "Votess.C82_cluster"
   ],
   "note": "The margins are Spec/Margin.MarginsBy, used by all single and double precision theorems. C82_wide: the earlier, simpler condition WideMarginsBy implies them; C82_not_wide: not conversely. marginS is a sound test for MarginsBy."
  },
  {
   "property": "C83",
   "status": "proved",
   "theorems": [
    "Votess.C83_tessellation",
    "Votess.C83_enough_room",
    "Votess.C83_recompute",
    "Votess.C83_served",
    "Votess.C83_gpu",
    "Votess.C83_gpu_possible",
    "Votess.C83_gpu_double",
    "Votess.C83_same_rows",
    "Votess.C83_same_sort",
    "Votess.C83_matters"
   ],
   "note": "Formats b32z and b64z: as b32 and b64, but a rounded result or a stored coordinate below the smallest normal number is zero (Model/Ieee: flush). The rounding errors in Proofs/Wide and Proofs/Sgl* are proved for both kinds of formats. C83_matters is a negative result with a concrete witness."
  },
  {
   "property": "C84",
   "status": "proved",
   "theorems": [
    "Votess.C84_navigable",
    "Votess.C84_exact",
    "Votess.C84_exact_room",
    "Votess.C84_exact_recompute",
    "Votess.C84_ordered",
    "Votess.C84_first",
    "Votess.C84_float",
    "Votess.C84_float_report",
    "Votess.C84_float_recompute",
    "Votess.C84_fused",
    "Votess.C84_flush",
    "Votess.C84_gpu",
    "Votess.C84_double",
    "Votess.C84_few_disconnected"
   ],
   "note": "Spec/Walk defines the walk through rowSize and at of the returned table. The theorems for calls follow from CorrectRow by C84_navigable. C84_few_disconnected is a negative result with a concrete witness."
  },
  {
   "property": "C85",
   "status": "proved",
   "theorems": [
    "Votess.C85_rows",
    "Votess.C85_exact_rows",
    "Votess.C85_exact",
    "Votess.C85_exact_room",
    "Votess.C85_exact_recompute",
    "Votess.C85_float",
    "Votess.C85_float_report",
    "Votess.C85_flush",
    "Votess.C85_gpu",
    "Votess.C85_double",
    "Votess.C85_outside"
   ],
   "note": "Spec/Delaunay defines empty balls without reference to cells. C85_outside is a negative result with a concrete witness: the triangulation of the whole space has edges that are not listed."
  },
  {
   "property": "C86",
   "status": "proved",
   "theorems": [
    "Votess.C86_exact",
    "Votess.C86_margins",
    "Votess.C86_general",
    "Votess.C86_float",
    "Votess.C86_flush",
    "Votess.C86_gpu",
    "Votess.C86_double"
   ],
   "note": "The symmetries are generated by two exchanges of axes and one reflection (Spec/Symmetry). C86_margins and C86_general show that margins and general position are invariant; that the reflected coordinates are still below 1 - 2^-22 has to be assumed."
  },
  {
   "property": "C87",
   "status": "proved",
   "theorems": [
    "Votess.C87_cell",
    "Votess.C87_rows",
    "Votess.C87_exact",
    "Votess.C87_float"
   ],
   "note": "C87_cell and C87_rows hold for any arithmetic; C87_exact and C87_float combine them with C24 and C71. Calls with recompute, which raise k themselves, are not concerned."
  },
  {
   "property": "C88",
   "status": "proved",
   "theorems": [
    "Votess.C88_exact",
    "Votess.C88_float",
    "Votess.C88_flush",
    "Votess.C88_gpu",
    "Votess.C88_double",
    "Votess.C88_changed"
   ],
   "note": "The added points are put in front; C70 shows that the order does not matter. C88_changed is a concrete pair of runs in single precision, one row unchanged and one changed."
  },
  {
   "property": "C89",
   "status": "proved",
   "theorems": [
    "Votess.C89_exact",
    "Votess.C89_agree",
    "Votess.C89_same_order"
   ],
   "note": "Computed lists eight ways (Props/Agreement). Calls on a GPU have all other points as candidates and are not chunked, as in C75."
  },
  {
   "property": "C90",
   "status": "proved",
   "theorems": [
    "Votess.C90_numeral",
    "Votess.C90_fixed",
    "Votess.C90_whole",
    "Votess.C90_digit",
    "Votess.C90_bool",
    "Votess.C90_special",
    "Votess.C90_python"
   ],
   "note": "Model/FloatText models the default ostream format (%g, six digits, ties to even); readings are compared with the value itself. C90_digit is a negative result for all large and tiny values."
  },
  {
   "property": "C91",
   "status": "proved",
   "theorems": [
    "Votess.C91_exact",
    "Votess.C91_exact_recompute",
    "Votess.C91_computed"
   ],
   "note": "Spec/Linking. The points have to be different; margins imply it. Minimum spanning trees are mentioned for motivation, the theorem is about the groups for every linking length."
  },
  {
   "property": "C92",
   "status": "proved",
   "theorems": [
    "Votess.C92_next",
    "Votess.C92_exact",
    "Votess.C92_computed"
   ],
   "note": "NearToFar and NextIsListed in Spec/Linking. The set of points found so far is arbitrary."
  },
  {
   "property": "C93",
   "status": "proved",
   "theorems": [
    "Votess.C93_halo",
    "Votess.C93_exact",
    "Votess.C93_computed",
    "Votess.C93_parts"
   ],
   "note": "RowOfAll speaks of all points, those left out included. The distance condition is stated with the returned row only, so it can be checked by a user. C93_parts: two calls."
  },
  {
   "property": "C94",
   "status": "proved",
   "theorems": [
    "Votess.C94_follow",
    "Votess.C94_exact",
    "Votess.C94_computed"
   ],
   "note": "RayPath, FirstHit and Traversable are in Spec/Ray. Only the cells that the rows cut out are used, so no general position is needed in exact arithmetic. The times of crossing are exact numbers; how a user computes them is not modelled."
  }
 ]
}