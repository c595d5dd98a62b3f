{"claims": [
 {"property": "C01", "status": "proved", "theorems": ["Blasted.csr_apply_correct", "Blasted.csr_apply_interleaved"], "note": ""},
 {"property": "C02", "status": "proved", "theorems": ["Blasted.bsr_apply_correct"], "note": ""},
 {"property": "C03", "status": "proved", "theorems": ["Blasted.csr_gemv3_correct", "Blasted.csr_gemv3_interleaved", "Blasted.bsr_gemv3_correct"], "note": ""},
 {"property": "C04", "status": "proved", "theorems": ["Blasted.bcsc_gemv3_correct", "Blasted.bcsc_gemv3_eq_bsr_gemv3"], "note": ""},
 {"property": "C05", "status": "proved", "theorems": ["Blasted.convert_BSR_to_BSC_correct", "Blasted.convert_BSR_to_BSC_same_matrix"], "note": ""},
 {"property": "C06", "status": "proved", "theorems": ["Blasted.convert_BSR_to_BSC_1based_correct"], "note": ""},
 {"property": "C07", "status": "proved", "theorems": ["Blasted.column_adjacency_correct"], "note": ""},
 {"property": "C08", "status": "proved", "theorems": ["Blasted.sort_block_inner_correct", "Blasted.sort_block_inner_strict"], "note": ""},
 {"property": "C09", "status": "proved", "theorems": ["Blasted.inclusive_scan_correct"], "note": ""},
 {"property": "C10", "status": "partial", "theorems": ["Blasted.prefix_sum_correct_partial", "Blasted.prefix_sum_small", "Blasted.prefix_sum_ub", "Blasted.prefix_sum_wrong", "Blasted.prefix_sum_levels_ok"], "note": "the code violates the full statement: out-of-bounds access for short arrays and wrong sums when 2^ceil(ln T) < T; both negations are proved"},
 {"property": "C100", "status": "proved", "theorems": ["Blasted.async_ilu_iteration_converges", "Blasted.ilu_near_iteration_converges", "Blasted.exists_execIteration"], "note": "Combines C98 and C99: factors left by few sweeps (NearFac) still contract (FewFac.perturb), and the iteration with few sweeps of everything converges with any factor above the ratio of dominance. The hypotheses on the guess are those of C99. Exact arithmetic."},
 {"property": "C101", "status": "proved", "theorems": ["Blasted.async_sgs_iteration_converges", "Blasted.async_sgs_iteration_converges_lag", "Blasted.async_block_sgs_iteration_converges", "Blasted.torn_sgs_contracts", "Blasted.torn_sgs_iteration_converges", "Blasted.exists_sgsExecResult", "Blasted.exists_sgsTornResult", "Blasted.exists_corrIteration"], "note": "Initialisation none keeps the old output, about which nothing is assumed, and is excluded. Exact arithmetic."},
 {"property": "C102", "status": "proved", "theorems": ["Blasted.block_ilu_few_sweeps", "Blasted.block_ilu_few_sweeps_exec", "Blasted.block_ilu_few_iteration_converges", "Blasted.exists_asyncBlockIluApply"], "note": "Reads see whole segments; the initialisation none is excluded. Exact factors (after C85/C87). Exact arithmetic."},
 {"property": "C103", "status": "proved", "theorems": ["Blasted.torn_block_ilu_few_sweeps", "Blasted.torn_block_ilu_few_sweeps_exec", "Blasted.torn_block_ilu_few_iteration_converges", "Blasted.exists_tornIluExec"], "note": "Dominance by scalar rows; the initialisation none is excluded. Exact factors (after C85/C87). Exact arithmetic."},
 {"property": "C104", "status": "proved", "theorems": ["Blasted.comparison_passes_iff", "Blasted.comparison_needs_type", "Blasted.comparison_without_runs", "Blasted.comparison_rounds_mean", "Blasted.set_sweeps_sound", "Blasted.set_sweeps_returns", "Blasted.block_size_correct"], "note": "Exact arithmetic; the solves and times are parameters. Assertions are on."},
 {"property": "C105", "status": "proved", "theorems": ["Blasted.perf_line_correct", "Blasted.perf_line_failed", "Blasted.perf_first_fails", "Blasted.perf_threads_ignored", "Blasted.perf_program_same_lines", "Blasted.perf_params_iff", "Blasted.perf_average_above_maximum"], "note": "Solves are a function of the options, the threads in use and the number of the repetition; exact arithmetic; the square root is a parameter."},
 {"property": "C106", "status": "proved", "theorems": ["Blasted.sweep_setting_correct", "Blasted.sweep_setting_limit", "Blasted.sweep_setting_failed", "Blasted.sweep_setting_without_runs", "Blasted.sweep_table_correct", "Blasted.sweep_table_returns", "Blasted.comparison_c_passes_iff", "Blasted.comparison_c_unreadable"], "note": "Solves are a function of the options and the number of the run; exact arithmetic; square root and rounding are parameters."},
 {"property": "C107", "status": "proved", "theorems": ["Blasted.control_file_read", "Blasted.control_file_truncated", "Blasted.control_file_bad_points", "Blasted.control_file_bad_corner", "Blasted.control_file_long_heading"], "note": "The conversion of real numbers is a parameter and applied to whole words."},
 {"property": "C108", "status": "proved", "theorems": ["Blasted.single_correct", "Blasted.single_failed", "Blasted.single_message_iff", "Blasted.single_without_runs", "Blasted.single_negative_runs", "Blasted.single_unreadable", "Blasted.problem_choice_correct", "Blasted.problem_choice_first", "Blasted.problem_choice_second", "Blasted.problem_choice_beyond", "Blasted.problem_choice_missing"], "note": "Solves are a function of the number of the run; exact arithmetic; the square root is a parameter."},
 {"property": "C109", "status": "proved", "theorems": ["Blasted.conv_driver_correct", "Blasted.conv_driver_ignores_code", "Blasted.conv_driver_cleanup", "Blasted.conv_driver_refuses", "Blasted.conv_driver_help_refused", "Blasted.conv_driver_few_arguments", "Blasted.conv_driver_option_missing"], "note": "The tests and setting up the problem are parameters."},
 {"property": "C11", "status": "proved", "theorems": ["Blasted.invert_permutation_correct", "Blasted.set_ordering_correct", "Blasted.set_ordering_valid", "Blasted.set_ordering_no_check"], "note": "for every permutation; a non-permutation is accepted silently (set_ordering_no_check)"},
 {"property": "C110", "status": "proved", "theorems": ["Blasted.read_system_iff", "Blasted.petsc_test_iff", "Blasted.petsc_test_cleanup", "Blasted.petsc_test_missing_files"], "note": "Loading a file and the comparisons are parameters."},
 {"property": "C12", "status": "proved", "theorems": ["Blasted.apply_ordering_forward", "Blasted.apply_ordering_inverse", "Blasted.apply_ordering_roundtrip", "Blasted.apply_ordering_forward_bentry"], "note": "every valid pair of orderings, block size and schedule"},
 {"property": "C13", "status": "proved", "theorems": ["Blasted.apply_ordering_vec_correct", "Blasted.apply_ordering_vec_roundtrip", "Blasted.reordered_system"], "note": ""},
 {"property": "C14", "status": "proved", "theorems": ["Blasted.apply_scaling_forward", "Blasted.apply_scaling_inverse", "Blasted.apply_scaling_roundtrip", "Blasted.apply_scaling_vec_correct", "Blasted.apply_scaling_vec_roundtrip", "Blasted.apply_scaling_zero_factor"], "note": "non-zero factors needed for the inverse direction"},
 {"property": "C15", "status": "partial", "theorems": ["Blasted.reorder_scale_forward", "Blasted.reorder_scale_roundtrip", "Blasted.reorder_scale_diag_partial", "Blasted.reorder_scale_diagind_stale"], "note": "entries and round trip are proved in full; the recorded diagonal positions are wrong after a proper reordering, shown by reorder_scale_diagind_stale"},
 {"property": "C16", "status": "partial", "theorems": ["Blasted.reord_ilu_compute_exact", "Blasted.reord_ilu_apply_general", "Blasted.reord_ilu_solves_partial", "Blasted.reord_ilu_solves_async_partial", "Blasted.reord_ilu_apply_wrong", "Blasted.reord_ilu_stale_diag"], "note": "the claim is false of the code: reord_ilu_apply_wrong, reord_ilu_stale_diag; what apply computes instead is reord_ilu_apply_general"},
 {"property": "C17", "status": "proved", "theorems": ["Blasted.compute_ILU_positions_correct"], "note": ""},
 {"property": "C18", "status": "proved", "theorems": ["Blasted.scalar_ilu_compute_exact", "Blasted.scalar_ilu_compute_complete", "Blasted.scalar_ilu_compute_no_ub_partial", "Blasted.scalar_ilu_scaled_sgs_ub"], "note": "the exactness theorem and its converse cover every initial guess and object history; memory safety is proved for all options except init_sgs with scaling, where scalar_ilu_scaled_sgs_ub shows the code reads out of bounds"},
 {"property": "C19", "status": "proved", "theorems": ["Blasted.block_ilu_compute_exact", "Blasted.block_ilu_compute_complete", "Blasted.block_ilu_compute_no_ub"], "note": ""},
 {"property": "C20", "status": "proved", "theorems": ["Blasted.scalar_ilu_compute_independent", "Blasted.scalar_ilu_history_independent", "Blasted.block_ilu_compute_independent", "Blasted.block_ilu_history_independent"], "note": ""},
 {"property": "C21", "status": "proved", "theorems": ["Blasted.async_ilu_exact_is_fixed", "Blasted.async_ilu_fixed_is_exact"], "note": ""},
 {"property": "C22", "status": "proved", "theorems": ["Blasted.async_ilu_rounds_exact", "Blasted.async_ilu_sweeps_exact", "Blasted.async_ilu_nowait_not_exact"], "note": "the hypothesis that sweeps complete one after another is necessary: the code's nowait loops do not ensure it and async_ilu_nowait_not_exact exhibits an execution with more threads than sweeps that is not exact"},
 {"property": "C23", "status": "proved", "theorems": ["Blasted.remNorm_eq_zero_iff", "Blasted.scalar_ilu_residual_correct", "Blasted.scalar_ilu_compute_info", "Blasted.blockRemNorm_eq_zero_iff", "Blasted.block_ilu_residual_correct", "Blasted.block_ilu_compute_info"], "note": ""},
 {"property": "C24", "status": "partial", "theorems": ["Blasted.scalar_ilu_init_original", "Blasted.scalar_ilu_init_zero_is_original", "Blasted.scalar_ilu_init_zero_not_zero", "Blasted.scalar_ilu_init_none", "Blasted.scalar_ilu_init_sgs_partial", "Blasted.scalar_ilu_scaled_sgs_ub", "Blasted.block_ilu_inits"], "note": "block version proved in full; the scalar code violates the statement: init_zero falls through to init_original and init_sgs with scaling indexes the wrong array (both negations proved), the scalar SGS initialisation is proved without scaling"},
 {"property": "C25", "status": "proved", "theorems": ["Blasted.scalar_ilu_apply_correct", "Blasted.scalar_ilu_apply_independent", "Blasted.scalar_ilu_apply_none", "Blasted.scalar_ilu_apply_divzero"], "note": ""},
 {"property": "C26", "status": "proved", "theorems": ["Blasted.block_ilu_apply_correct", "Blasted.block_ilu_apply_independent", "Blasted.block_ilu_apply_none"], "note": ""},
 {"property": "C27", "status": "proved", "theorems": ["Blasted.scalar_ilu_apply_async_rank", "Blasted.scalar_ilu_apply_async_exact", "Blasted.scalar_ilu_apply_async_fixed", "Blasted.block_ilu_apply_async_exact", "Blasted.block_ilu_apply_async_fixed"], "note": ""},
 {"property": "C28", "status": "proved", "theorems": ["Blasted.scalar_ilu_apply_levels", "Blasted.scalar_ilu_apply_levels_async", "Blasted.block_ilu_apply_levels", "Blasted.block_ilu_apply_levels_async", "Blasted.scalar_level_ilu_eq_sequential", "Blasted.block_level_ilu_eq_sequential"], "note": ""},
 {"property": "C29", "status": "proved", "theorems": ["Blasted.sgs_apply_correct", "Blasted.scalar_sgs_solves", "Blasted.block_sgs_solves", "Blasted.jacobi_setup_correct", "Blasted.jacobi_setup_divzero", "Blasted.sgs_setup_correct"], "note": ""},
 {"property": "C30", "status": "proved", "theorems": ["Blasted.sgs_apply_levels", "Blasted.sgs_apply_levels_async", "Blasted.level_sgs_solves", "Blasted.level_sgs_recompute_solves"], "note": ""},
 {"property": "C31", "status": "proved", "theorems": ["Blasted.sgs_apply_async_rank", "Blasted.sgs_apply_async_exact"], "note": ""},
 {"property": "C32", "status": "proved", "theorems": ["Blasted.csc_bgs_apply_correct", "Blasted.csc_bgs_compute_correct", "Blasted.csc_bgs_apply_eq_rows"], "note": ""},
 {"property": "C33", "status": "proved", "theorems": ["Blasted.computeLevels_correct", "Blasted.computeLevels_nonsymmetric_diverges", "Blasted.computeLevels_nonsymmetric_throws", "Blasted.computeLevels_unsorted_dependent"], "note": ""},
 {"property": "C34", "status": "proved", "theorems": ["Blasted.lower_view_correct", "Blasted.upper_view_correct", "Blasted.triangular_views_sum", "Blasted.triangular_views_share", "Blasted.lower_view_apply_ub", "Blasted.lower_raw_view_memory", "Blasted.upper_raw_view_memory", "Blasted.lower_storage_view_memory", "Blasted.upper_storage_view_memory"], "note": "Views denote the lower / upper triangle with the diagonal and share storage with the source. In memory: only the two arrays of row pointers are allocated, the source is unchanged, and destroying a view gives back these two arrays and nothing else. The upper view reads the last row in an assertion, so it needs at least one row. lower_view_apply_ub records that the inherited apply on a view reads past the pointer array of the view."},
 {"property": "C35", "status": "proved", "theorems": ["Blasted.jacobi_setup_correct", "Blasted.jacobi_apply_correct", "Blasted.jacobi_relax_correct"], "note": "Square root and sum of squares are parameters; the quotient by a zero reference norm follows IEEE rules for infinities and NaN."},
 {"property": "C36", "status": "proved", "theorems": ["Blasted.jacobi_relax_fixed", "Blasted.jacobi_relax_converse", "Blasted.chaotic_relax_correct", "Blasted.sgs_relax_correct", "Blasted.level_sgs_relax_correct", "Blasted.level_sgs_relax_async", "Blasted.symmetric_sweep", "Blasted.relax_fixed", "Blasted.relax_fixed_async", "Blasted.chaotic_relax_fixed_async", "Blasted.sgs_relax_fixed_async", "Blasted.relax_converse", "Blasted.relax_converse_async"], "note": "Scalar and block code are instances of the ring R and module M."},
 {"property": "C37", "status": "proved", "theorems": ["Blasted.chaotic_error_bounded", "Blasted.chaotic_converges", "Blasted.sgs_relax_converges", "Blasted.chaotic_limit", "Blasted.jacobi_converges", "Blasted.block_chaotic_converges"], "note": "Exact arithmetic in an ordered field. The factor is per round of sweeps (a sweep if sweeps complete one after another, see C68 for overlapping sweeps); the bound on the error holds for any staleness."},
 {"property": "C38", "status": "proved", "theorems": ["Blasted.coo_to_csr_correct", "Blasted.coo_to_csr_sorted", "Blasted.coo_to_csr_unique", "Blasted.coo_to_csr_diag_uninitialised"], "note": "Every valid coordinate matrix. In rows without a diagonal entry the diagonal location is left uninitialised (coo_to_csr_diag_uninitialised)."},
 {"property": "C39", "status": "partial", "theorems": ["Blasted.coo_to_bsr_correct_partial", "Blasted.coo_to_bsr_unique", "Blasted.coo_to_bsr_sorted", "Blasted.coo_to_bsr_rejects", "Blasted.coo_to_bsr_unsorted", "Blasted.unsorted_blocks_ignored", "Blasted.coo_duplicates_differ", "Blasted.coo_to_bsr_first_empty_aborts"], "note": "Square, size divisible by the block size, no repeated positions, first block-row not empty. The full property is false: the conversion aborts when the first block-row is empty (coo_to_bsr_first_empty_aborts), and of repeated positions the last one is kept (coo_duplicates_differ). The order of the blocks is proved (order of first entries; ascending when every block has an entry in its first row); unsorted_blocks_ignored shows what unsorted blocks do to block ILU(0)."},
 {"property": "C40", "status": "partial", "theorems": ["Blasted.read_matrix_market_correct_partial", "Blasted.read_matrix_market_order_irrelevant", "Blasted.read_matrix_market_empty_row_aborts", "Blasted.read_matrix_market_no_entries_ub", "Blasted.read_matrix_market_hangs", "Blasted.read_complex_misread"], "note": "Proved from the characters of the file for every file in which each row has an entry; other files abort or are undefined, which is proved too."},
 {"property": "C41", "status": "partial", "theorems": ["Blasted.mm_description_standard_partial", "Blasted.mm_description_iff", "Blasted.mm_description_rejects_pattern", "Blasted.mm_description_rejects_skew", "Blasted.mm_description_accepts_nonstandard", "Blasted.mm_description_case_sensitive", "Blasted.read_matrix_market_rejects"], "note": "Exact set of accepted header lines; the words pattern and skew-symmetric are misspelt in the code, so the full property is false."},
 {"property": "C42", "status": "proved", "theorems": ["Blasted.arrayview_history_safe", "Blasted.arrayview_history_no_leak", "Blasted.arrayview_history_owner", "Blasted.arrayview_owner_access", "Blasted.arrayview_read_outcomes", "Blasted.arrayview_write_outcomes", "Blasted.arrayview_double_owner_ub", "Blasted.arrayview_use_after_destroy_ub", "Blasted.arrayview_foreign_ownership_ub"], "note": "Every history of calls; memory is a list of blocks; the last three theorems show that the rules for the caller are needed."},
 {"property": "C43", "status": "proved", "theorems": ["Blasted.left_sai_pattern_correct", "Blasted.left_incomplete_sai_pattern_correct", "Blasted.isai_exact_on_pattern", "Blasted.sai_row_minimal", "Blasted.compute_sai_any_order", "Blasted.compute_isai_returns", "Blasted.compute_sai_asserts_dense", "Blasted.compute_sai_asserts_abort_tridiagonal"], "note": "Both patterns, gathering, solving and scattering for every matrix or triangular view, block size and schedule; the dense solvers are parameters with contracts SolvesExactly / SolvesLeastSquares. With assertions compiled in the call aborts on every pattern whose local matrices are not completely filled, which is proved."},
 {"property": "C44", "status": "proved", "theorems": ["Blasted.solver_type_from_string_correct", "Blasted.solver_type_from_string_throws", "Blasted.solver_type_from_string_injective", "Blasted.init_from_string_correct", "Blasted.create_preconditioner_iff", "Blasted.create_preconditioner_bad_cast", "Blasted.create_preconditioner_correct", "Blasted.create_relaxation_available", "Blasted.create_preconditioner_ignores_relax"], "note": "All strings, types, block sizes and layouts, with BUILD_BLOCK_SIZE undefined (its default)."},
 {"property": "C45", "status": "partial", "theorems": ["Blasted.petsc_options_correct_partial", "Blasted.petsc_seqilu0_sweeps_wrong", "Blasted.petsc_both_sequential_becomes_ilu", "Blasted.petsc_one_sequential_rejected", "Blasted.petsc_type_name_checked", "Blasted.petsc_sweeps_required", "Blasted.petsc_options_required"], "note": "Full property is false of the code: seqilu0 passes the counts on unchanged, so -1 performs no sweep, and (-1,-1) turns other methods into sequential ILU(0); both are proved."},
 {"property": "C46", "status": "partial", "theorems": ["Blasted.bsr_submit_block", "Blasted.bsr_update_block", "Blasted.bsr_update_diag_block", "Blasted.bsr_update_isAdds", "Blasted.bsr_updates_concurrent", "Blasted.csr_submit_block", "Blasted.csr_update_block_stride", "Blasted.csr_update_block_partial", "Blasted.csr_update_diag_block", "Blasted.csr_update_isAdds", "Blasted.csr_updates_concurrent", "Blasted.csr_update_block_rect_wrong", "Blasted.csr_update_block_rect_ub", "Blasted.bsr_set_all_zero", "Blasted.csr_set_all_zero", "Blasted.bsr_set_diag_zero", "Blasted.csr_set_diag_zero", "Blasted.bsr_scale_all", "Blasted.csr_scale_all"], "note": "Everything is proved except the rectangular case of the scalar class, which is false of the code: updateBlock uses stride bsi where submitBlock uses bsj (csr_update_block_rect_wrong, csr_update_block_rect_ub). The scalar theorems assume that all addressed entries are stored."},
 {"property": "C47", "status": "proved", "theorems": ["Blasted.is_equal_correct", "Blasted.is_equal_true_flag_unreliable", "Blasted.is_equal_empty_aborts"], "note": "For matrices with at least one stored block; the two other theorems record that set flags are not reliable after an early return and that an empty matrix aborts a build with assertions."},
 {"property": "C48", "status": "proved", "theorems": ["Blasted.diagonal_dominance_correct", "Blasted.diagonal_dominance_positive"], "note": "For every division of the rows among threads; exact arithmetic; nonzero diagonal entries (division by zero is a separate outcome)."},
 {"property": "C49", "status": "proved", "theorems": ["Blasted.zero_diagonal_row", "Blasted.num_zero_diagonals", "Blasted.diagonal_product", "Blasted.diagonal_abs_sum", "Blasted.abs_min_diagonal", "Blasted.abs_max_diagonal"], "note": "Diagonal in terms of the denoted matrix; the threshold is a parameter."},
 {"property": "C50", "status": "proved", "theorems": ["Blasted.bsr_copy_correct", "Blasted.csr_copy_correct", "Blasted.copy_raw_correct", "Blasted.copy_raw_destroy", "Blasted.copy_raw_destroy_ub"], "note": "Every full matrix and every later sequence of writes through either object. Destroying a raw copy is correct only if nnzb = nbstored (copy_raw_destroy_ub)."},
 {"property": "C51", "status": "partial", "theorems": ["Blasted.set_structure_correct", "Blasted.csr_of_structure_correct", "Blasted.bsr_of_arrays_correct", "Blasted.bsr_of_raw_partial", "Blasted.HasStructure.full", "Blasted.HasStructure.hasDiag", "Blasted.set_structure_diag_uninitialised", "Blasted.bsr_of_structure_empty", "Blasted.bsr_of_structure_wrong", "Blasted.csr_of_arrays_ub", "Blasted.csr_of_arrays_nnz", "Blasted.bsr_of_raw_last_pointer_aborts", "Blasted.csr_of_raw_leaks", "Blasted.csr_of_raw_gaps_abort", "Blasted.matrix_move_correct", "Blasted.matrix_move_to_const_correct", "Blasted.share_with_const_correct", "Blasted.share_with_const_empty_aborts", "Blasted.create_raw_view_correct", "Blasted.create_raw_view_empty_aborts"], "note": "True of setStructure, of the scalar constructor from a structure, of the block wrapping constructor, of moves, of sharing and of raw views. False of the block constructor from a structure (no rows), of the scalar wrapping constructor (reads past the row pointers), of the block constructor from a raw matrix (row-pointer view one short); the scalar constructor from a raw matrix leaks."},
 {"property": "C52", "status": "partial", "theorems": ["Blasted.scalar_ilu_apply_linear", "Blasted.scalar_ilu_apply_independent", "Blasted.block_ilu_apply_linear", "Blasted.block_ilu_apply_independent", "Blasted.sgs_apply_independent", "Blasted.sgs_apply_linear", "Blasted.jacobi_apply_linear", "Blasted.no_prec_apply_copies", "Blasted.csc_bgs_apply_linear", "Blasted.chaotic_apply_linear_partial", "Blasted.chaotic_apply_depends_on_output"], "note": "Proved for ILU(0), SGS, Jacobi, column Gauss-Seidel and none. False for the chaotic relaxation, whose apply iterates on the old output: chaotic_apply_depends_on_output is a counterexample, chaotic_apply_linear_partial what holds."},
 {"property": "C53", "status": "partial", "theorems": ["Blasted.setup_blasted_stack_correct", "Blasted.stack_life_cycle_releases_partial", "Blasted.shell_life_cycle_releases", "Blasted.stack_life_cycle_leaks", "Blasted.user_factory_life_cycle", "Blasted.setup_ext_ignores_factory", "Blasted.setup_ext_wrapper_replaces_factory", "Blasted.setup_relaxation_from_garbage"], "note": "One entry per reachable shell preconditioner for every tree; the caller's factory is ignored by setup_blasted_stack_ext and one factory per additional solver is leaked, so the full property is false of the code; both are proved."},
 {"property": "C54", "status": "partial", "theorems": ["Blasted.maxnorm_correct_partial", "Blasted.maxnorm_deterministic", "Blasted.maxnorm_zero_wrong"], "note": "False for vectors all of whose entries are below the least normal number, in particular the zero vector (maxnorm_zero_wrong): the reduction starts from numeric_limits::min()."},
 {"property": "C55", "status": "proved", "theorems": ["Blasted.scalar_ilu_solves", "Blasted.scalar_ilu_solves_complete", "Blasted.block_ilu_solves"], "note": ""},
 {"property": "C56", "status": "proved", "theorems": ["Blasted.construct_from_file_csr", "Blasted.construct_from_file_bsr", "Blasted.read_dense_correct"], "note": "Composition of the reader with the conversions, from the characters of the file to the entries of the matrix."},
 {"property": "C57", "status": "proved", "theorems": ["Blasted.compute_preconditioner_reuses", "Blasted.compute_after_failed_setup_ub"], "note": "Every tree and history; a failed creation makes the next call undefined (compute_after_failed_setup_ub)."},
 {"property": "C58", "status": "partial", "theorems": ["Blasted.create_precinfo_partial", "Blasted.create_scalar_level_ilu_precinfo_wrong"], "note": "False for the scalar asynchronous factorization with level-scheduled application, which is proved."},
 {"property": "C59", "status": "partial", "theorems": ["Blasted.petsc_throw_zero_iff", "Blasted.parse_int_correct", "Blasted.parse_bool_correct", "Blasted.parse_optional_real_correct", "Blasted.parse_is_defined_correct", "Blasted.parse_string_correct", "Blasted.parse_string_whole", "Blasted.parse_int_array_correct", "Blasted.parse_optional_int_array_correct_partial", "Blasted.parse_optional_int_array_throws", "Blasted.parse_string_cut", "Blasted.parse_string_leaks", "Blasted.parse_int_array_no_room", "Blasted.file_input_throw_iff"], "note": "Everything but two cases of the full property, which are false of the code: the optional integer list throws when not given, and a string of exactly the stated length loses its last character."},
 {"property": "C60", "status": "partial", "theorems": ["Blasted.read_mat_correct", "Blasted.read_mat_via_sr_correct_partial", "Blasted.read_mat_agree", "Blasted.read_mat_via_sr_one_process", "Blasted.read_vec_correct", "Blasted.read_vec_like_matrix", "Blasted.read_mat_error_lost", "Blasted.read_mat_via_sr_not_square"], "note": "Files with an entry in every row and no position given twice; readMatFromCOOFile for all shapes, the variant via CSR/BSR for square matrices. For other shapes it is wrong, and an error in a row that is not the last is lost; both are proved."},
 {"property": "C61", "status": "proved", "theorems": ["Blasted.deterministic_of_disjoint", "Blasted.csr_apply_race_free", "Blasted.csr_gemv3_race_free", "Blasted.bsr_apply_race_free", "Blasted.bsr_gemv3_race_free", "Blasted.scalar_level_ilu_race_free", "Blasted.block_level_ilu_race_free", "Blasted.level_sgs_race_free", "Blasted.jacobi_apply_race_free", "Blasted.async_lower_solve_races"], "note": "Every interleaving of single loads and stores, with barriers between levels; the access-by-access bodies are proved to agree with the loop bodies of the other modules."},
 {"property": "C62", "status": "proved", "theorems": ["Blasted.csr_apply_any", "Blasted.csr_gemv3_any", "Blasted.bsr_apply_any", "Blasted.bsr_gemv3_any", "Blasted.scalar_ilu_apply_same_bits", "Blasted.block_ilu_apply_same_bits", "Blasted.sgs_apply_same_bits", "Blasted.jacobi_apply_any", "Blasted.ilu_sweeps_same_bits", "Blasted.async_ilu_same_bits", "Blasted.async_ilu_stays_same_bits"], "note": "Over a type with bare operations and no laws. The omp simd reduction of a row sum is taken in loop order (its order is fixed when the code is compiled); sums with omp atomic or omp reduction across threads are not among the statements."},
 {"property": "C63", "status": "proved", "theorems": ["Blasted.csr_apply_rounding", "Blasted.csr_gemv3_rounding", "Blasted.bsr_apply_rounding", "Blasted.bsr_gemv3_rounding", "Blasted.gam_le"], "note": "For every arithmetic that satisfies the standard model of rounding (no overflow or underflow); 53-bit binary floating point is shown to satisfy it."},
 {"property": "C64", "status": "proved", "theorems": ["Blasted.scalar_ilu_apply_rounding", "Blasted.sgs_apply_rounding", "Blasted.jacobi_apply_rounding", "Blasted.gam_le"], "note": "Scalar applications, for every arithmetic that satisfies the standard model of rounding (no overflow or underflow); all sequential, level-scheduled and sufficiently long asynchronous executions."},
 {"property": "C65", "status": "proved", "theorems": ["Blasted.scalar_ilu_rounding", "Blasted.async_scalar_ilu_rounding", "Blasted.gam_le"], "note": "For every arithmetic that satisfies the standard model of rounding (no overflow or underflow)."},
 {"property": "C66", "status": "proved", "theorems": ["Blasted.scalar_ilu_residual", "Blasted.async_scalar_ilu_residual", "Blasted.gam_le"], "note": "For every arithmetic that satisfies the standard model of rounding (no overflow or underflow)."},
 {"property": "C67", "status": "partial", "theorems": ["Blasted.ilu_positions_int_partial", "Blasted.ilu_positions_overflow", "Blasted.inclusive_scan_int", "Blasted.column_adjacency_int", "Blasted.convert_BSR_to_BSC_int", "Blasted.convert_BSR_to_BSC_1based_int", "Blasted.coo_to_bsr_int_partial", "Blasted.coo_to_bsr_overflow"], "note": "The full property is false: ilu_positions_overflow and coo_to_bsr_overflow are proved counterexamples. The other theorems give the exact range without overflow. Functions that only compute i*bs+k or jj*bs*bs+k for an existing array are covered by rdI_eq and wrI_eq only, not transcribed again."},
 {"property": "C68", "status": "proved", "theorems": ["Blasted.async_exec_terminates", "Blasted.async_exec_exists", "Blasted.async_exec_nowait", "Blasted.async_exec_lag", "Blasted.async_exec_interleaving", "Blasted.async_ilu_exec_exact", "Blasted.async_ilu_exec_fixed", "Blasted.async_ilu_exec_terminates", "Blasted.async_scalar_ilu_apply_exec", "Blasted.async_block_ilu_apply_exec", "Blasted.async_sgs_apply_exec", "Blasted.async_relax_exec_fixed", "Blasted.async_relax_exec_converse", "Blasted.async_relax_exec_converges", "Blasted.async_relax_exec_limit", "Blasted.async_exec_initial", "Blasted.async_exec_sequential", "Blasted.async_ilu_exec_late"], "note": "A component (number or block) is loaded and stored as a whole; C88 is the version in which every coefficient is loaded and stored on its own. The language itself gives no bound on the lag of nowait loops: async_ilu_exec_late."},
 {"property": "C69", "status": "partial", "theorems": ["Blasted.mc64_compute_correct_partial", "Blasted.mc64_invalid_job", "Blasted.mc64_input", "Blasted.large_diagonal_product", "Blasted.mc64_work_sizes_int", "Blasted.mc64_job1_undefined"], "note": "Missing: job 1, for which the code is undefined behaviour (mc64_job1_undefined). The Fortran routine is any function meeting its documented contract; exp is any positive function."},
 {"property": "C70", "status": "proved", "theorems": ["Blasted.petsc_richardson_correct", "Blasted.petsc_richardson_fixed", "Blasted.petsc_richardson_converges", "Blasted.petsc_richardson_unavailable", "Blasted.petsc_richardson_ilu_throws", "Blasted.petsc_richardson_noprec", "Blasted.compute_total_times_correct"], "note": "Exact arithmetic; timing calls are left out. A failed call of PETSc's vector access functions is not modelled."},
 {"property": "C71", "status": "proved", "theorems": ["Blasted.scalar_ilu_dominant_compute", "Blasted.scalar_ilu_dominant_async"], "note": "Exact arithmetic. Scalar matrices; at least one build sweep. init_sgs with scaling is excluded: it reads out of bounds (C24)."},
 {"property": "C72", "status": "proved", "theorems": ["Blasted.ilu_correction_contracts", "Blasted.ilu_iteration_converges", "Blasted.ilu_apply_nonneg", "Blasted.ilu_correction_monotone"], "note": "Exact arithmetic; scalar matrices; factors are those of a completed compute (sequential, or asynchronous with enough sweeps by C22/C71)."},
 {"property": "C73", "status": "proved", "theorems": ["Blasted.sgs_apply_symmetric", "Blasted.sgs_apply_positive", "Blasted.jacobi_apply_symmetric", "Blasted.block_sgs_apply_symmetric", "Blasted.block_sgs_apply_positive", "Blasted.ilu_apply_symmetric", "Blasted.ilu_apply_positive", "Blasted.ilu_apply_spd_dominant", "Blasted.block_ilu_apply_symmetric", "Blasted.block_ilu_apply_positive", "Blasted.ilu_apply_indefinite", "Blasted.sgs_apply_async_unsymmetric"], "note": "Exact arithmetic. For block ILU(0) positivity of the pivot blocks is a hypothesis; for scalar ILU(0) it follows from dominance. Findings: ILU(0) of a positive definite matrix may be indefinite; too few asynchronous sweeps break symmetry."},
 {"property": "C74", "status": "proved", "theorems": ["Blasted.spd_setup", "Blasted.spd_method_converges", "Blasted.spd_method_limit", "Blasted.spd_method_strict", "Blasted.spd_petsc_richardson", "Blasted.block_spd_setup", "Blasted.block_spd_method_converges", "Blasted.block_spd_method_limit", "Blasted.block_spd_petsc_richardson", "Blasted.spd_relax_diverges"], "note": "Exact arithmetic over an ordered field (Archimedean for the limit). spd_relax_diverges is the counterexample for Jacobi and the threaded relaxations."},
 {"property": "C75", "status": "proved", "theorems": ["Blasted.scalar_petsc_apply_correct", "Blasted.block_petsc_apply_correct", "Blasted.scalar_petsc_applies_correct", "Blasted.block_petsc_applies_correct", "Blasted.petsc_apply_wrong_size", "Blasted.petsc_ilu_end_to_end", "Blasted.petsc_apply_gs_depends_on_output"], "note": "Exact arithmetic. The column-oriented Gauss-Seidel is that of one thread, as in C32. Asynchronous sweeps: as many as the depth of the pattern (C77). For the type gs the statement is that the result is an outcome of the relaxation from the old contents; petsc_apply_gs_depends_on_output shows that it depends on them."},
 {"property": "C76", "status": "proved", "theorems": ["Blasted.weighted_error_bounded", "Blasted.weighted_relax_converges", "Blasted.weighted_petsc_richardson", "Blasted.weighted_relax_limit", "Blasted.mmat_of_converges", "Blasted.zmat_relax_all_or_none", "Blasted.threads_may_destroy_convergence"], "note": "Exact arithmetic over an ordered field (Archimedean for limits). Scalar matrices. threads_may_destroy_convergence is the counterexample without the sign condition."},
 {"property": "C77", "status": "proved", "theorems": ["Blasted.async_ilu_depth", "Blasted.async_ilu_levels", "Blasted.scalar_ilu_apply_depth", "Blasted.sgs_apply_depth", "Blasted.block_ilu_apply_depth", "Blasted.depthOk_two_colours", "Blasted.async_ilu_sharp", "Blasted.scalar_ilu_apply_lower_sharp", "Blasted.scalar_ilu_apply_upper_sharp", "Blasted.sgs_apply_sharp", "Blasted.exTri_four_rounds"], "note": "Sweeps are rounds of the bounded-lag model of C22. async_ilu_depth and async_ilu_sharp cover scalars and blocks (any ring with partial inverse). The sharpness theorems construct executions of the abstract model (ARounds); for ILU applications they are proved for scalars, in U for init_type zero."},
 {"property": "C78", "status": "proved", "theorems": ["Blasted.richardson_correct", "Blasted.richardson_converges", "Blasted.richardson_reaches", "Blasted.richardson_contracting_converges", "Blasted.richardson_exact_prec", "Blasted.richardson_exact_ilu_converges", "Blasted.richardson_ilu_converges", "Blasted.richardson_stale_norm"], "note": "Exact arithmetic with an exact square root. The factors of richardson_ilu_converges are those of a completed sequential compute; richardson_exact_ilu_converges takes any exact ILU(0) factors; richardson_contracting_converges any preconditioner that reduces weighted errors, in CSR or BSR format."},
 {"property": "C79", "status": "proved", "theorems": ["Blasted.bicgstab_correct", "Blasted.bicgstab_finite", "Blasted.bicgstab_exact_guess", "Blasted.bicgstab_exact_prec"], "note": "Exact arithmetic with an exact square root; in floating point the divisions by zero become divisions by rounding errors."},
 {"property": "C80", "status": "proved", "theorems": ["Blasted.gcr_correct", "Blasted.gcr_monotone", "Blasted.gcr_finite", "Blasted.gcr_converges", "Blasted.gcr_exact_prec", "Blasted.gcr_exact_guess", "Blasted.gcr_no_restart_ub"], "note": "Exact arithmetic with an exact square root."},
 {"property": "C81", "status": "partial", "theorems": ["Blasted.read_matrix_market_size_line", "Blasted.read_matrix_market_accepted_sizes", "Blasted.read_matrix_market_truncated_ub", "Blasted.read_matrix_market_row_range_unchecked", "Blasted.read_matrix_market_column_range_unchecked", "Blasted.read_matrix_market_missing_value", "Blasted.read_matrix_market_index_overflow_ub"], "note": "Proved for the size line. The full property is false of the code: for a file with too few entries the reader uses unassigned variables (proved for every such file), and rows or columns out of range and a missing last value are accepted (witnesses)."},
 {"property": "C82", "status": "proved", "theorems": ["Blasted.list_destroyed_first_ub", "Blasted.solver_destroyed_dangling", "Blasted.cleanup_twice_ub", "Blasted.list_destroyed_twice"], "note": "Every supported tree and every history of set-up calls."},
 {"property": "C83", "status": "proved", "theorems": ["Blasted.relax_row_rounding", "Blasted.relax_rounding_bounded", "Blasted.relax_rounding_converges", "Blasted.relax_rounding_limit", "Blasted.relax_rounding_exists", "Blasted.rounded_limits_differ"], "note": "Scalar matrices; the stopping test of Jacobi is switched off. rounded_limits_differ is the concrete witness that the limit depends on the schedule."},
 {"property": "C84", "status": "proved", "theorems": ["Blasted.jacobi_apply_before_compute", "Blasted.sgs_apply_before_compute", "Blasted.level_sgs_apply_before_compute", "Blasted.relaxations_before_compute", "Blasted.ilu_apply_before_compute", "Blasted.level_ilu_apply_before_compute", "Blasted.reord_apply_before_compute"], "note": "Every matrix with at least one row; for the asynchronous preconditioners the sequential execution of the loops."},
 {"property": "C85", "status": "proved", "theorems": ["Blasted.read_rows_rejected", "Blasted.read_rows_accepted", "Blasted.read_rows_accepted_iff", "Blasted.release_merges_rows"], "note": "Entries are words that are integers within int (also after subtracting 1) and a number the conversion accepts."},
 {"property": "C86", "status": "proved", "theorems": ["Blasted.block_ilu_dominant_compute", "Blasted.block_ilu_scalar_dominant_compute", "Blasted.block_ilu_dominant_async"], "note": "Exact arithmetic over an ordered field. Scaling factors must not be zero."},
 {"property": "C87", "status": "proved", "theorems": ["Blasted.block_ilu_correction_contracts", "Blasted.block_ilu_iteration_converges", "Blasted.block_ilu_object_contracts"], "note": "Exact arithmetic over an ordered field. The asynchronous application with as many sweeps as block rows."},
 {"property": "C88", "status": "proved", "theorems": ["Blasted.torn_ilu_exact", "Blasted.torn_ilu_fixed", "Blasted.torn_block_ilu_apply", "Blasted.torn_sgs_apply", "Blasted.torn_relax_fixed", "Blasted.torn_relax_converges", "Blasted.torn_exec_terminates", "Blasted.torn_exec_exists", "Blasted.torn_exec_interleaving", "Blasted.ends_iluCompT", "Blasted.ends_unitLowerT", "Blasted.ends_blockUpperT", "Blasted.ends_bgsT", "Blasted.ends_relaxT", "Blasted.torn_reads_happen"], "note": "The sums of a job are local: only its result is stored in shared memory. The condition of the relaxation is stronger than that of C37 for blocks because the coefficients of a product may come from different versions of a segment."},
 {"property": "C89", "status": "partial", "theorems": ["Blasted.util_converts_partial", "Blasted.util_converts_exact_partial", "Blasted.util_too_few_arguments", "Blasted.util_one_process", "Blasted.util_long_name_overflows", "Blasted.util_long_exact_name_overflows", "Blasted.util_exact_name_cut_off", "Blasted.util_rhs_too_long", "Blasted.util_rhs_not_writable", "Blasted.util_changes_only_pmat"], "note": "Proved for file names of at most 494 characters; false for longer names, which overflow an array on the stack (proved)."},
 {"property": "C90", "status": "proved", "theorems": ["Blasted.solve_program_sound", "Blasted.solve_program_ilu_converges", "Blasted.solve_program_ilu_passes", "Blasted.solve_program_seqilu0_converges", "Blasted.solve_program_contracting_converges", "Blasted.solve_program_contracting_passes", "Blasted.solve_program_block_ilu_converges", "Blasted.solve_program_block_ilu_passes", "Blasted.solve_program_block_seqilu0_converges", "Blasted.solve_program_relax_converges", "Blasted.solve_program_relax_passes", "Blasted.solve_program_block_relax_converges", "Blasted.solve_program_block_relax_passes", "Blasted.solve_program_one_thread_relax_converges", "Blasted.solve_program_one_thread_block_relax_converges", "Blasted.relax_object_contracts", "Blasted.block_relax_object_contracts", "Blasted.solve_program_settings", "Blasted.solve_program_short_reference_ub", "Blasted.solve_program_short_rhs_ub", "Blasted.solve_program_unknown_word", "Blasted.solve_program_unknown_solver", "Blasted.solve_program_cscbgs_blocks", "Blasted.solve_program_choice"], "note": "Exact arithmetic with an exact square root. Convergence is proved in CSR format and in BSR format with block size 4, for ILU(0), Jacobi, symmetric Gauss-Seidel and column-oriented Gauss-Seidel (CSR only; one thread) and for any contracting preconditioner; the block format needs an entry of each block in its first row (else the blocks are unsorted, C39). Files with too few numbers are read out of bounds (proved)."},
 {"property": "C91", "status": "proved", "theorems": ["Blasted.poisson_lhs_correct", "Blasted.poisson_mmat", "Blasted.poisson_relax_solves", "Blasted.poisson_ilu_converges", "Blasted.poisson_mesh_correct", "Blasted.poisson_interior_count", "Blasted.poisson_mesh_size"], "note": "Grids, matrix and convergence of every relaxation and of the iteration with ILU(0); exact arithmetic, with the real cosine and pi for Chebyshev grids."},
 {"property": "C92", "status": "partial", "theorems": ["Blasted.poisson_rhs_partial", "Blasted.poisson_rhs_shifted", "Blasted.poisson_norm_partial", "Blasted.poisson_norm_ub", "Blasted.exactSolution_laplacian"], "note": "The full property is false: the values are those of the neighbouring points and the norm is undefined on the process with the first point; both refuted, with theorems on what is computed instead."},
 {"property": "C93", "status": "proved", "theorems": ["Blasted.noscale_factorize_agrees", "Blasted.noscale_factorize_exact", "Blasted.noscale_factorize_dominant"], "note": "Sequential sweeps; exact arithmetic."},
 {"property": "C94", "status": "proved", "theorems": ["Blasted.partially_async_test_sound", "Blasted.fully_async_test_sound", "Blasted.partially_async_test_passes", "Blasted.fully_async_test_passes", "Blasted.async_tests_pass_exact", "Blasted.async_tests_refuse_initialization", "Blasted.async_tests_abort_without_error", "Blasted.async_tests_abort_on_triangular", "Blasted.fully_async_test_may_fail"], "note": "Block size 1, exact arithmetic. The last three theorems show that the tests also fail without a fault of the factorization."},
 {"property": "C95", "status": "proved", "theorems": ["Blasted.triangular_test_solutions", "Blasted.triangular_test_outcome", "Blasted.triangular_test_outcome_exact", "Blasted.triangular_test_bad_name", "Blasted.triangular_test_passes", "Blasted.triangular_test_passes_exact", "Blasted.triangular_test_may_fail"], "note": "Block size 1, exact arithmetic, nonzero pivots. That the test can fail without a fault is triangular_test_may_fail."},
 {"property": "C96", "status": "partial", "theorems": ["Blasted.reordered_ilu_options_partial", "Blasted.reordered_ilu_threads_wrong", "Blasted.reordered_ilu_threads_wrong_result"], "note": "Proved for sweeps, chunk size, initialisations and scaling. False of the code for the threads: reordered_ilu_threads_wrong says what each option does, reordered_ilu_threads_wrong_result shows a wrong result."},
 {"property": "C97", "status": "proved", "theorems": ["Blasted.reord_program_sound", "Blasted.reord_program_exact", "Blasted.reord_program_bcgs_exact", "Blasted.reord_program_words", "Blasted.reord_main", "Blasted.trivial_reordering", "Blasted.SwapsTwo.valid"], "note": "Exact arithmetic; the behaviour of the preconditioner objects is a parameter."},
 {"property": "C98", "status": "proved", "theorems": ["Blasted.ilu_few_sweeps", "Blasted.ilu_few_sweeps_exec", "Blasted.ilu_few_iteration_converges", "Blasted.sgs_few_sweeps"], "note": "Scalar kernels, exact arithmetic, exact factors. Torn reads do not occur for scalars."},
 {"property": "C99", "status": "proved", "theorems": ["Blasted.async_ilu_few_sweeps", "Blasted.async_ilu_few_sweeps_exec", "Blasted.async_ilu_sweeps_needed", "Blasted.async_ilu_pivots_bounded", "Blasted.async_ilu_pivots_exec", "Blasted.safeGuess_sgs", "Blasted.safeGuess_original", "Blasted.async_ilu_original_unsafe"], "note": "Scalar kernels, exact arithmetic."}
]}
