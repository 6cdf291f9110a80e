{
 "claims": [
  {
   "property": "C01",
   "status": "partial",
   "theorems": [
    "Verif.C01_split_partition_iff",
    "Verif.C01_split_partition_partial",
    "Verif.C01_split_not_always_partition",
    "Verif.C01_split_fails_for_every_k"
   ],
   "note": "The full claim is false of the code: equal splitting of n indices into k parts is a partition exactly when ceil(n/k)*(k-1) <= n (C01_split_partition_iff); otherwise the last part has negative length (C01_split_not_always_partition, C01_split_fails_for_every_k)."
  },
  {
   "property": "C02",
   "status": "proved",
   "theorems": [
    "Verif.C02_split_like_partition_mat",
    "Verif.C02_split_at_partition",
    "Verif.C02_split_like_partition"
   ],
   "note": ""
  },
  {
   "property": "C03",
   "status": "proved",
   "theorems": [
    "Verif.C03_leaves_tile",
    "Verif.C03_leaf_sizes",
    "Verif.C03_leaves_tile_two_blocks",
    "Verif.C03_leaves_tile_even",
    "Verif.C03_needs_valid_splits"
   ],
   "note": "Stated under the quantifier's condition that equal splitting is valid at every node; C03_needs_valid_splits shows the condition cannot be dropped."
  },
  {
   "property": "C04",
   "status": "proved",
   "theorems": [
    "Verif.C04_build_terminates",
    "Verif.C04_depth_le_size",
    "Verif.C04_build_nleaf_zero",
    "Verif.C04_single_block_diverges"
   ],
   "note": "C04_single_block_diverges is the negative side."
  },
  {
   "property": "C05",
   "status": "proved",
   "theorems": [
    "Verif.C05_positions",
    "Verif.C05_parent_child",
    "Verif.C05_block_row_col",
    "Verif.C05_block_row_of_root",
    "Verif.C05_dist_to_diag"
   ],
   "note": "C05_block_row_of_root: the block row/column query on the root is undefined behaviour."
  },
  {
   "property": "C06",
   "status": "proved",
   "theorems": [
    "Verif.C06_diagonal_never_compressed",
    "Verif.C06_diagonal_never_compressed_dense",
    "Verif.C06_vectors_never_compressed"
   ],
   "note": ""
  },
  {
   "property": "C07",
   "status": "proved",
   "theorems": [
    "Verif.C07_decision_from_bounding_boxes",
    "Verif.C07_symmetric",
    "Verif.C07_monotone",
    "Verif.C07_same_points_not_admissible",
    "Verif.C07_diagonal_not_admissible",
    "Verif.C07_returns",
    "Verif.C07_admissible_separated"
   ],
   "note": "C07_returns: a decision is made if and only if both ranges are nonempty and inside every coordinate list."
  },
  {
   "property": "C08",
   "status": "proved",
   "theorems": [
    "Verif.C08_kernel_matrix",
    "Verif.C08_kernel_matrix_succeeds"
   ],
   "note": "For every successful construction; C08_kernel_matrix_succeeds gives success for 2-by-2 subdivision and any size. No assumption on equal splitting: invalid splittings make the construction fail."
  },
  {
   "property": "C09",
   "status": "partial",
   "theorems": [
    "Verif.C09_dense_round_trip_partial",
    "Verif.C09_dense_succeeds_partial",
    "Verif.C09_offset_reads_outside"
   ],
   "note": "Round trip and in-bounds reading proved for zero offsets. The offset half of the claim is false of the code: C09_offset_reads_outside shows that every non-zero offset makes the constructor read outside the matrix."
  },
  {
   "property": "C10",
   "status": "proved",
   "theorems": [
    "Verif.C10_block_consistent",
    "Verif.C10_values",
    "Verif.C10_defined",
    "Verif.C10_symmetric",
    "Verif.C10_symmetric_blocks",
    "Verif.C10_arange",
    "Verif.C10_arange_not_consistent",
    "Verif.C10_computes_entries"
   ],
   "note": "zeros, identity, cauchy2d, laplacend, helmholtznd; arange is shown not to be block consistent (C10_arange_not_consistent)."
  },
  {
   "property": "C11",
   "status": "proved",
   "theorems": [
    "Verif.C11_copy",
    "Verif.C11_is_submatrix",
    "Verif.C11_independent",
    "Verif.C11_split_copy",
    "Verif.C11_split_copy_counts"
   ],
   "note": ""
  },
  {
   "property": "C12",
   "status": "partial",
   "theorems": [
    "Verif.C12_assign_partial",
    "Verif.C12_independent_partial",
    "Verif.C12_gaps_fail",
    "Verif.C12_self_assignment_clears",
    "Verif.C12_self_assignment_negation",
    "Verif.C12_bounds_negation"
   ],
   "note": "Assignment gives equal contents in an independent buffer whenever the source has no gaps between its rows (C12_assign_partial, C12_independent_partial). The full claim is false of the code: for every strided source with at least two rows the assigned object points outside its buffer (C12_gaps_fail, C12_bounds_negation) and self-assignment replaces the contents by zeros (C12_self_assignment_clears, C12_self_assignment_negation)."
  },
  {
   "property": "C13",
   "status": "proved",
   "theorems": [
    "Verif.C13_split_alias",
    "Verif.C13_split_write",
    "Verif.C13_blocks_disjoint",
    "Verif.C13_blocks_cover",
    "Verif.C13_shallow_alias",
    "Verif.C13_shallow_write",
    "Verif.C13_write_nowhere_else",
    "Verif.C13_nested",
    "Verif.C13_even_ranges",
    "Verif.C13_split_counts"
   ],
   "note": ""
  },
  {
   "property": "C14",
   "status": "proved",
   "theorems": [
    "Verif.C14_bounds",
    "Verif.C14_bounds_vec",
    "Verif.C14_progress",
    "Verif.C14_default",
    "Verif.C14_move"
   ],
   "note": ""
  },
  {
   "property": "C15",
   "status": "proved",
   "theorems": [
    "Verif.C15_dimensions",
    "Verif.C15_dimensions_dense_transpose"
   ],
   "note": ""
  },
  {
   "property": "C16",
   "status": "proved",
   "theorems": [
    "Verif.C16_to_dense"
   ],
   "note": ""
  },
  {
   "property": "C17",
   "status": "proved",
   "theorems": [
    "Verif.C17_split_leaf",
    "Verif.C17_split_hierarchical",
    "Verif.C17_split_blocks",
    "Verif.C17_split_like",
    "Verif.C17_split_like_rejected",
    "Verif.C17_split_dense_iff"
   ],
   "note": "C17_split_blocks, C17_split_like: values and dimensions of the parts; C17_split_dense_iff, C17_split_like_rejected: exactly which splits return."
  },
  {
   "property": "C18",
   "status": "proved",
   "theorems": [
    "Verif.C18_transpose",
    "Verif.C18_transpose_involution"
   ],
   "note": ""
  },
  {
   "property": "C19",
   "status": "proved",
   "theorems": [
    "Verif.C19_scale",
    "Verif.C19_zero_all",
    "Verif.C19_zero_lower",
    "Verif.C19_zero_upper",
    "Verif.C19_zero_lower_needs_square"
   ],
   "note": ""
  },
  {
   "property": "C20",
   "status": "proved",
   "theorems": [
    "Verif.C20_norm",
    "Verif.C20_l2_error_value",
    "Verif.C20_l2_error_structure_independent",
    "Verif.C20_l2_error_succeeds"
   ],
   "note": ""
  },
  {
   "property": "C21",
   "status": "partial",
   "theorems": [
    "Verif.C21_gemm_partial",
    "Verif.C21_gemm_dims",
    "Verif.C21_gemm_untransposed",
    "Verif.C21_lowrank_times_hier_transposed_wrong",
    "Verif.C21_hier_times_lowrank_transposed_wrong",
    "Verif.C21_hier_times_lowrank_right_transposed_wrong",
    "Verif.C21_dense_into_lowrank",
    "Verif.C21_gemm_library_partial"
   ],
   "note": "For every recursion budget, all 27 operand-kind combinations and all sizes, whenever the product returns, the target holds alpha*op(A)*op(B)+beta*C. With the library's own low-rank operations (all three addition modes, C21_gemm_library_partial) at every entry of dense blocks. Proved under TransSafe (the low-rank times hierarchical branches are only used untransposed); the full claim is false of the code: three negation witnesses C21_*_transposed_wrong show that the transposed branches return wrong values."
  },
  {
   "property": "C22",
   "status": "partial",
   "theorems": [
    "Verif.C22_gemm_returns_partial",
    "Verif.C22_gemm_new_returns",
    "Verif.C22_dense_into_blocks",
    "Verif.C22_gemm_library_partial",
    "Verif.C22_gemm_dense_leaves",
    "Verif.C22_fixed_rank_target_fails"
   ],
   "note": "Proved for every depth and every b >= 2: gemm returns if the low-rank operations return on the target's blocks; instantiated for the library's rounded and fast rounded additions and targets whose low-rank blocks carry a tolerance, and for targets without low-rank blocks. The full claim is false of the code: C22_fixed_rank_target_fails shows that a product of two block matrices is never added to a fixed-rank low-rank target. Naive addition is not covered by the library instance."
  },
  {
   "property": "C23",
   "status": "partial",
   "theorems": [
    "Verif.C23_gemm_new_partial"
   ],
   "note": "Same restriction TransSafe as C21 (the full claim is false for transposed low-rank times hierarchical products)."
  },
  {
   "property": "C24",
   "status": "proved",
   "theorems": [
    "Verif.C24_add_assign_returns",
    "Verif.C24_add_library_returns",
    "Verif.C24_unsupported",
    "Verif.C24_add_assign",
    "Verif.C24_dense_add_sub"
   ],
   "note": "Low-rank plus low-rank addition enters through its contract (LrOps.Fits / Exact); C25 and C26 treat that addition itself. C24_add_assign_returns: the call returns for every pair of structures for which it is implemented; C24_unsupported names the others."
  },
  {
   "property": "C25",
   "status": "proved",
   "theorems": [
    "Verif.C25_naive_exact",
    "Verif.C25_naive_recompress",
    "Verif.C25_rectangular_fails"
   ],
   "note": "Middle factors must be square (as for every low-rank matrix the library's constructors build); C25_rectangular_fails shows the condition is needed."
  },
  {
   "property": "C26",
   "status": "proved",
   "theorems": [
    "Verif.C26_rounded",
    "Verif.C26_fast",
    "Verif.C26_fast_with_eps",
    "Verif.C26_nothing_discarded",
    "Verif.C26_rounded_returns",
    "Verif.C26_fast_returns_iff",
    "Verif.C26_rounded_svd",
    "Verif.C26_rounded_exact_of_rank",
    "Verif.C26_rounded_error",
    "Verif.C26_rounded_best",
    "Verif.C26_fast_best",
    "Verif.C26_fast_exact_of_range"
   ],
   "note": "External QR, RQ and SVD routines are parameters; Lapack.exists_contract shows the assumptions can be met together. C26_fast_returns_iff: fast rounded addition fails when the rank of B exceeds its dimensions. C26_rounded_best, C26_fast_best: no matrix of the same rank is closer to A+B (Eckart-Young, proved in Lemmas/EckartYoung.lean). C26_fast_best needs orthonormal factors of A and a B whose factors add only new directions; C26_fast_exact_of_range covers the opposite case."
  },
  {
   "property": "C27",
   "status": "proved",
   "theorems": [
    "Verif.C27_truncation_rank",
    "Verif.C27_empty"
   ],
   "note": "C27_empty: for zero singular values the code answers 1."
  },
  {
   "property": "C28",
   "status": "proved",
   "theorems": [
    "Verif.C28_trmm",
    "Verif.C28_trmm_library",
    "Verif.C28_trmm_lowrank",
    "Verif.C28_trmm_returns",
    "Verif.C28_trmm_library_returns",
    "Verif.C28_trmm_tolerance_returns"
   ],
   "note": "For every successful call, any nesting; at entries of low-rank blocks under the assumption that low-rank updates lose nothing (a plain low-rank operand needs no assumption: C28_trmm_lowrank). C28_trmm_returns: the call returns for every b-by-b subdivided triangle and operand of fitting dimensions (library instances: C28_trmm_library_returns, C28_trmm_tolerance_returns)."
  },
  {
   "property": "C29",
   "status": "proved",
   "theorems": [
    "Verif.C29_trsm",
    "Verif.C29_trsm_library",
    "Verif.C29_trsm_after_trmm",
    "Verif.C29_unsupported",
    "Verif.C29_unique",
    "Verif.C29_trsm_inverts_trmm",
    "Verif.C29_trmm_inverts_trsm",
    "Verif.C29_trsm_only",
    "Verif.C29_trsm_returns",
    "Verif.C29_trsm_library_returns",
    "Verif.C29_trsm_tolerance_returns"
   ],
   "note": "For every successful call on fitting operands (the code does not check them). C29_unsupported names the operand kinds for which the code aborts. C29_trsm_returns: the call returns for every implemented operand structure (Solvable) if an upper triangle has no zero on its diagonal. C29_trsm_inverts_trmm and C29_trsm_only: the solution is the only one, so solving recovers what was multiplied."
  },
  {
   "property": "C30",
   "status": "proved",
   "theorems": [
    "Verif.C30_getrf",
    "Verif.C30_interchange_ignored",
    "Verif.C30_getrf_returns",
    "Verif.C30_getrf_library_returns"
   ],
   "note": "External dgetrf is a parameter with contract LuContract (plainLu_contract shows it can be met); the interchange flag is part of the model, C30_interchange_ignored shows the condition is needed. Entries of low-rank blocks under the assumption that low-rank updates lose nothing. C30_getrf_returns: on matrices with strictly diagonally dominant columns the factorization returns without interchange (LuNoPivot: partial pivoting makes none on such dense matrices; doolittle_contract and doolittle_noPivot show that the contract can be met)."
  },
  {
   "property": "C31",
   "status": "proved",
   "theorems": [
    "Verif.C31_factor_solve",
    "Verif.C31_factor_solve_library",
    "Verif.C31_solve_returns",
    "Verif.C31_solve_library_returns"
   ],
   "note": "C31_factor_solve: whenever the three calls return. C31_solve_returns: they do return for strictly diagonally dominant columns."
  },
  {
   "property": "C32",
   "status": "proved",
   "theorems": [
    "Verif.C32_q_times_r",
    "Verif.C32_qt_times_a",
    "Verif.C32_undo",
    "Verif.C32_returns"
   ],
   "note": "Low-rank updates are assumed to lose nothing (LrOps.Exact) and to return orthonormal left factors when there are low-rank tiles; dgeqrt3 is a parameter with contract QrContract (QrKernels.exists_contract shows it can be met). Like the code, multiplication with the reflectors touches C(k..,j) for j >= k only, so it is Q*C for block upper triangular C; C32_undo holds for any C."
  },
  {
   "property": "C33",
   "status": "proved",
   "theorems": [
    "Verif.C33_q_times_r",
    "Verif.C33_qt_times_a",
    "Verif.C33_undo",
    "Verif.C33_returns"
   ],
   "note": "All block counts; LAPACK kernels as parameters with a contract that is shown satisfiable; low-rank addition exact with orthonormal left factors when low-rank tiles occur; tiles of T below the diagonal square of the order of the block column, as the programs allocate them. C33_returns gives termination without error for dense square diagonal blocks."
  },
  {
   "property": "C34",
   "status": "proved",
   "theorems": [
    "Verif.Mat.C34_factor",
    "Verif.Mat.C34_lower",
    "Verif.Mat.C34_q_times_r",
    "Verif.Mat.C34_sizes",
    "Verif.C34_dense",
    "Verif.C34_dense_returns"
   ],
   "note": "Hierarchical inputs of any block counts and kinds, nested diagonal blocks by recursion: Q times the upper triangle of R is the input, below the diagonal R is zero or untouched. dgeqrf+dorgqr enter as a contract (Q*R=A, R upper). Low-rank additions exact, or no low-rank targets. Dense overload: also orthonormal Q, success on full column rank."
  },
  {
   "property": "C35",
   "status": "proved",
   "theorems": [
    "Verif.Mat.C35_round_trip",
    "Verif.Mat.C35_returns"
   ],
   "note": "Any mixture of dense, low-rank and nested blocks; both the round trip and success of both functions."
  },
  {
   "property": "C36",
   "status": "proved",
   "theorems": [
    "Verif.C36_schedule_independent",
    "Verif.C36_race_free",
    "Verif.C36_completes",
    "Verif.C36_factorization",
    "Verif.C36_products",
    "Verif.C36_footprints",
    "Verif.C36_shared_block"
   ],
   "note": "The three parallel regions of the task-based program under OpenMP's depend semantics: every interleaving of the task bodies (step by step) ends with the sequential result, without races at half-tile granularity, and without deadlock; linked to the sequential tiled factorization and its reflector products. C36_shared_block shows why half tiles are needed: larfb and tpqrt may access the same diagonal tile at once; the model takes from LAPACK that dlarfb reads only the reflectors below the diagonal and dtpqrt2 touches only the upper triangle. Copying done inside LAPACKE row-major wrappers and weak memory are not modelled. C36_footprints: the called functions touch only the blocks listed for them, so tasks as assumed exist."
  },
  {
   "property": "C37",
   "status": "proved",
   "theorems": [
    "Verif.C37_disjoint",
    "Verif.C37_schedule_independent",
    "Verif.C37_completes",
    "Verif.C37_factorization",
    "Verif.C37_products"
   ],
   "note": "Tiled, blocked and Gram-Schmidt fork-join programs: iterations of each parallel loop touch disjoint blocks, every execution ends with the sequential result; the tiled program is linked to the sequential factorization and products."
  },
  {
   "property": "C38",
   "status": "proved",
   "theorems": [
    "Verif.C38_interleaves",
    "Verif.C38_to_morton_and_back",
    "Verif.C38_to_cartesian_and_back",
    "Verif.C38_bijection",
    "Verif.C38_negative_index",
    "Verif.C38_width_limit"
   ],
   "note": ""
  },
  {
   "property": "C39",
   "status": "proved",
   "theorems": [
    "Verif.C39_box_unique",
    "Verif.C39_sort",
    "Verif.C39_short_perm"
   ],
   "note": ""
  },
  {
   "property": "C40",
   "status": "proved",
   "theorems": [
    "Verif.Timing.C40_accounts",
    "Verif.Timing.C40_totals",
    "Verif.Timing.C40_clear",
    "Verif.Timing.C40_running",
    "Verif.Timing.C40_mismatch",
    "Verif.Timing.C40_start",
    "Verif.Timing.C40_disabled",
    "Verif.Timing.C40_clear_while_running"
   ],
   "note": ""
  },
  {
   "property": "C41",
   "status": "proved",
   "theorems": [
    "Verif.C41_last_value_wins",
    "Verif.C41_other_keys"
   ],
   "note": ""
  },
  {
   "property": "C42",
   "status": "proved",
   "theorems": [
    "Verif.C42_block",
    "Verif.C42_no_file",
    "Verif.C42_outside",
    "Verif.C42_trailing_blank",
    "Verif.C42_dense",
    "Verif.C42_layouts_agree",
    "Verif.C42_dense_no_file"
   ],
   "note": ""
  },
  {
   "property": "C43",
   "status": "partial",
   "theorems": [
    "Verif.C43_one_sided_partial",
    "Verif.C43_returns",
    "Verif.C43_rank_deficient",
    "Verif.C43_two_sided_partial",
    "Verif.C43_two_sided_returns",
    "Verif.C43_rid_columns",
    "Verif.C43_rid_rows",
    "Verif.C43_old_rid"
   ],
   "note": "Proved for every run that returns, with an exact characterisation of when it returns (C43_returns). The full claim fails when the input has rank smaller than the requested number of columns: the triangular solve divides by zero (C43_rank_deficient). Pivoted QR is a parameter; PivotedQr.exists_sound shows the contract is satisfiable over the reals."
  },
  {
   "property": "C44",
   "status": "proved",
   "theorems": [
    "Verif.C44_low_rank_from_eps",
    "Verif.C44_rid",
    "Verif.C44_rsvd",
    "Verif.C44_rsvd_hier",
    "Verif.C44_rsvd_exact",
    "Verif.C44_low_rank_from_dense",
    "Verif.C44_low_rank_from_dense_exact",
    "Verif.C44_old_rsvd",
    "Verif.C44_old_rsvd_wrong"
   ],
   "note": "External routines are parameters. Exactness needs a sample not wider than high, as the low-rank constructor ensures. old_rsvd returns orthonormal factors and the singular values of the projection (C44_old_rsvd), but its product can be a different matrix, the inner orthogonal factors are exchanged (C44_old_rsvd_wrong). C44_rsvd_hier: the version for hierarchical matrices."
  },
  {
   "property": "C45",
   "status": "proved",
   "theorems": [
    "Verif.C45_factor",
    "Verif.C45_exact",
    "Verif.C45_orthonormal",
    "Verif.C45_error",
    "Verif.C45_returns",
    "Verif.C45_reads_past_end",
    "Verif.C45_reads_past_end_column",
    "Verif.C45_rank_positive"
   ],
   "note": "Elementary reflectors (dlarfg) are a parameter with a satisfiable contract (Geqp3Env.exists_sound). When every column is used up the code reads one element past the end of its norm vector (C45_reads_past_end); the model makes that value an arbitrary parameter and the theorems hold for every value of it."
  },
  {
   "property": "C46",
   "status": "partial",
   "theorems": [
    "Verif.C46_resolution",
    "Verif.C46_unique_method",
    "Verif.C46_tables",
    "Verif.C46_gemm",
    "Verif.C46_gemm_nested",
    "Verif.C46_gemm_new_nested",
    "Verif.C46_trmm",
    "Verif.C46_trmm_nested",
    "Verif.C46_addition",
    "Verif.C46_addition_nested",
    "Verif.C46_unary",
    "Verif.C46_unary_nested",
    "Verif.C46_zero_triangle_nested",
    "Verif.C46_l2_error",
    "Verif.C46_qr_kernels",
    "Verif.C46_export_returns",
    "Verif.C46_trsm",
    "Verif.C46_getrf",
    "Verif.C46_supported",
    "Verif.C46_trsm_nested",
    "Verif.C46_getrf_nested",
    "Verif.C46_getrf_library"
   ],
   "note": "Proved: overload resolution is unambiguous for all class tuples, the definition that runs is the most specific of those that match (C46_resolution), the tables are exactly as stated, all other tuples never return (abort), also for operands nested at any depth for gemm, trmm, trsm, getrf, addition and the one-operand operations; every handled tuple of non-Empty classes has operands on which the call returns (C46_supported). False of the code for the export and print functions: their fallback reports the error but returns (C46_export_returns)."
  },
  {
   "property": "C47",
   "status": "proved",
   "theorems": [
    "Verif.C47_copy",
    "Verif.C47_copy_unaffected",
    "Verif.C47_source_unaffected",
    "Verif.C47_interleaved",
    "Verif.C47_move",
    "Verif.C47_extract",
    "Verif.C47_unassigned_block",
    "Verif.C47_low_rank_factors",
    "Verif.C47_low_rank_of_dense"
   ],
   "note": "Copies of handles of any nesting depth; in histories where other handles are used and modified in between (C47_interleaved). C47_unassigned_block: copying a matrix with an unassigned block violates an assertion."
  },
  {
   "property": "C48",
   "status": "proved",
   "theorems": [
    "Verif.C48_memory",
    "Verif.C48_memory_additive"
   ],
   "note": ""
  },
  {
   "property": "C49",
   "status": "partial",
   "theorems": [
    "Verif.C49_mirrors_partial",
    "Verif.C49_returns",
    "Verif.C49_positions_unique_partial",
    "Verif.C49_empty_unplaced",
    "Verif.C49_positions_ambiguous"
   ],
   "note": "The exported tree mirrors the matrix block by block (C49_mirrors_partial) and identifies positions uniquely for uniform grids (C49_positions_unique_partial). Full claim is false of the code: Empty blocks carry no level or position (C49_empty_unplaced) and positions are ambiguous if siblings are subdivided differently (C49_positions_ambiguous)."
  },
  {
   "property": "C50",
   "status": "partial",
   "theorems": [
    "Verif.C50_spacing_partial",
    "Verif.C50_inside_iff_partial",
    "Verif.C50_leaves_interval"
   ],
   "note": "N increasing, equally spaced numbers starting at min (C50_spacing_partial). Inside [min,max] exactly if N <= 1 + (max-min)^2 (C50_inside_iff_partial); so the full claim is false of the code (C50_leaves_interval), which divides by the range."
  },
  {
   "property": "C51",
   "status": "proved",
   "theorems": [
    "Verif.C51_resize",
    "Verif.C51_resize_dense_only"
   ],
   "note": ""
  },
  {
   "property": "C52",
   "status": "proved",
   "theorems": [
    "Verif.C52_factors_fit"
   ],
   "note": ""
  },
  {
   "property": "C53",
   "status": "proved",
   "theorems": [
    "Verif.C53_structure",
    "Verif.C53_hlu_of_matrix",
    "Verif.C53_hlu",
    "Verif.C53_hlu_library",
    "Verif.C53_uneven_never_returns"
   ],
   "note": "Whole program as a function (timers and printing left out). C53_hlu: returns and recovers x, for N = n0*b^L with n0 <= nleaf, L >= 1, or b = 2 with admissibility 0, exact compression and exact low-rank operations. C53_hlu_library: the library's own low-rank operations, matrices without low-rank blocks, also geometry-based admissibility. C53_uneven_never_returns: N = 10, leaf size 2, admissibility 1 aborts, so the size condition cannot be dropped."
  },
  {
   "property": "C54",
   "status": "proved",
   "theorems": [
    "Verif.C54_blocked_explicit",
    "Verif.C54_tiled_explicit",
    "Verif.C54_blocked_program_returns",
    "Verif.C54_tiled_program_returns",
    "Verif.C54_blocked_program_exact",
    "Verif.C54_tiled_program_exact",
    "Verif.C54_rejected",
    "Verif.C54_library_returns",
    "Verif.C54_library_dense"
   ],
   "note": "Both programs as functions (timers, printing, roots and quotients of the error numbers left out). C54_library_returns: with the library's own kernels, compression by tolerance and rounded or fast addition both programs return. C54_*_program_exact: residual equals the compression error and Q^T Q is the identity, for exact low-rank operations with orthonormal left factors or all-dense tiles. C54_library_dense: all three errors are 0 with the library's routines if admis keeps all tiles dense. C54_*_explicit: the explicit Q on any square-tiled grid (tiles of different sizes too). C54_rejected: refused arguments. Reflector kernels by contract (QrContract), which C33's file shows to be satisfiable."
  },
  {
   "property": "C55",
   "status": "proved",
   "theorems": [
    "Verif.Mat.C55_orthonormal",
    "Verif.Mat.C55_returns",
    "Verif.Mat.C55_returns_nested",
    "Verif.C55_program_returns",
    "Verif.C55_rejected",
    "Verif.C55_program_exact",
    "Verif.C55_library_returns",
    "Verif.C55_library_dense"
   ],
   "note": "C55_orthonormal: mgs_qr on a grid of dense and low-rank tiles with independent columns gives orthonormal columns (contract of dgeqrf/dorgqr: Lapack.Qr and Lapack.QrOrtho, shown satisfiable by Lapack.exists_qr; low-rank additions exact with orthonormal left factors, or no low-rank tiles). C55_returns: totality; C55_returns_nested: totality for regularly nested matrices of any depth. C55_program_returns/C55_program_exact/C55_rejected: the example program for any kernels and low-rank operations; C55_library_returns, C55_library_dense: with the library's own kernels (independence of the columns of the shipped Laplace matrix is proved, not assumed). Timers, printing, roots and quotients of the error numbers left out."
  },
  {
   "property": "C56",
   "status": "proved",
   "theorems": [
    "Verif.C56_positive_definite",
    "Verif.C56_nonsingular_iff",
    "Verif.C56_cauchy_nonsingular"
   ],
   "note": "Entries in real arithmetic. C56_positive_definite and C56_nonsingular_iff: Laplace and Helmholtz, for a diagonal block at any offset. C56_cauchy_nonsingular: Cauchy, any offsets. The kernels are written as mixtures of Gaussians with positive weights (an integral over the reals); a Gaussian form is a sum of squares and tends to the sum of the squared coefficients."
  },
  {
   "property": "C57",
   "status": "proved",
   "theorems": [
    "Verif.C57_structure",
    "Verif.C57_program_returns",
    "Verif.C57_program_exact",
    "Verif.C57_library_returns",
    "Verif.C57_main_returns",
    "Verif.C57_library_dense",
    "Verif.C57_main_dense"
   ],
   "note": "C57_structure: the matrix built on n0*b^L points is regularly nested. C57_program_returns, C57_program_exact: the program for any kernels, compression and low-rank operations meeting the stated contracts. C57_library_returns, C57_library_dense: the library's own kernels and compression, any points on a line. C57_main_returns, C57_main_dense: the shipped constants, every command line argument. Timers, printing, roots and quotients of the error numbers left out; the random points are a parameter."
  },
  {
   "property": "C58",
   "status": "proved",
   "theorems": [
    "Verif.C58_footprints",
    "Verif.C58_task_tiled",
    "Verif.C58_fork_tiled",
    "Verif.C58_fork_blocked",
    "Verif.C58_fork_mgs",
    "Verif.C58_rejected",
    "Verif.C58_householder_exact",
    "Verif.C58_mgs_exact",
    "Verif.C58_library"
   ],
   "note": "C58_task_tiled, C58_fork_tiled, C58_fork_blocked: a run of the parallel program prints r if and only if r is what the sequential program prints (so a run exists and all agree); task bodies are any step lists with the modelled effect. C58_fork_mgs: all runs print the same numbers. C58_householder_exact, C58_mgs_exact: the printed errors without rounding; the Gram-Schmidt program adds to R, so compression must keep zeros (StartsFrom). C58_library: the shipped kernel, compression and operations. C58_rejected: invalid sizes. Timers, printing, roots and quotients left out; memory is sequentially consistent. C58_footprints: the called functions touch only the blocks listed for them, so tasks as assumed exist."
  },
  {
   "property": "C59",
   "status": "proved",
   "theorems": [
    "Verif.C59_program",
    "Verif.C59_rejected",
    "Verif.C59_library"
   ],
   "note": "C59_program: any kernel and any QR, RQ, SVD routines meeting their contracts, every rank <= N. C59_library: the shipped kernel, any points. C59_rejected: rank > N. The two compressions use the same random numbers because the generator is seeded in each call, so both summands are equal. Timers, printing and negative arguments left out."
  },
  {
   "property": "C60",
   "status": "proved",
   "theorems": [
    "Verif.C60_read",
    "Verif.C60_short",
    "Verif.C60_no_numbers",
    "Verif.C60_no_file",
    "Verif.C60_negative",
    "Verif.C60_same_length",
    "Verif.C60_sorted",
    "Verif.C60_non_negative",
    "Verif.C60_generated_positive_definite",
    "Verif.C60_file_positive_definite"
   ],
   "note": "C60_read: complete files. C60_short, C60_no_numbers, C60_no_file: what the code does with bad files (defects). C60_same_length: any file. C60_sorted: std::sort is a parameter with the guarantee of the standard (SortSpec), random draws are an input. Conversion of numeric texts is a parameter; texts that are a number followed by other characters are not split (Model/Points.lean)."
  },
  {
   "property": "C61",
   "status": "proved",
   "theorems": [
    "Verif.C61_columns",
    "Verif.C61_low_rank",
    "Verif.C61_returns",
    "Verif.C61_orthonormal",
    "Verif.C61_sharp",
    "Verif.C61_kernel",
    "Verif.C61_dense",
    "Verif.C61_l2_error",
    "Verif.C61_blocked_program",
    "Verif.C61_tiled_program"
   ],
   "note": "truncated_geqp3 is the modelled code (C45) with dlarfg sound, rq exact. C61_columns, C61_low_rank, C61_orthonormal, C61_returns: one block; C61_sharp: sqrt(n) is needed; C61_kernel, C61_dense, C61_l2_error: whole matrix; C61_blocked_program, C61_tiled_program: printed errors. Exact arithmetic."
  },
  {
   "property": "C62",
   "status": "proved",
   "theorems": [
    "Verif.C62_returns",
    "Verif.C62_document",
    "Verif.C62_covers",
    "Verif.C62_unique",
    "Verif.C62_accuracy"
   ],
   "note": "C62_returns; C62_document: every object; C62_covers: each entry in exactly one leaf; C62_unique: level and position identify an object; C62_accuracy: low-rank leaves with the library compression. LAPACK SVD (singular values) is a parameter; file name and text formatting are not modelled. Exact arithmetic."
  },
  {
   "property": "C63",
   "status": "proved",
   "theorems": [
    "Verif.C63_program",
    "Verif.C63_gemm",
    "Verif.C63_add",
    "Verif.C63_tiles_separate",
    "Verif.C63_tiles",
    "Verif.C63_mgs",
    "Verif.C63_overlap_fails",
    "Verif.C63_empty_inner_fails",
    "Verif.C63_mgs_view_fails"
   ],
   "note": "C63_program: every program on disjoint matrices refines the value-level program, frame, result reachable; C63_gemm, C63_add in entries; C63_tiles_separate, C63_tiles: tiles of a split; C63_mgs. Limits proved: C63_overlap_fails, C63_empty_inner_fails, C63_mgs_view_fails. dgeqrt3 and dtpqrt2 are parameters; matrices have at least one entry. Exact arithmetic."
  },
  {
   "property": "C64",
   "status": "proved",
   "theorems": [
    "Verif.Timing.C64_report",
    "Verif.Timing.C64_stop_and_print",
    "Verif.Timing.C64_unknown",
    "Verif.Timing.C64_subtimers",
    "Verif.Timing.C64_keys",
    "Verif.Timing.C64_no_time_fails"
   ],
   "note": "printed layout (padding, digits, VERBOSE) is not modelled; times are exact. The zero-time case is proved to be undefined behaviour (C64_report, C64_no_time_fails)."
  },
  {
   "property": "C65",
   "status": "proved",
   "theorems": [
    "Verif.C65_print_congr",
    "Verif.C65_print_determines",
    "Verif.C65_hidden"
   ],
   "note": "Output is a list of items (entries, line ends, headings); widths, digits and dashes are not modelled. How an entry is written is a parameter."
  },
  {
   "property": "C66",
   "status": "proved",
   "theorems": [
    "Verif.C66_norm",
    "Verif.C66_norm_exact_entries",
    "Verif.C66_l2_error",
    "Verif.C66_l2_error_exact_entries",
    "Verif.C66_zero_iff",
    "Verif.C66_l2_error_returns"
   ],
   "note": "floating-point arithmetic is any arithmetic with relative errors at most u per operation (no overflow or underflow); dgemm by its usual error bound"
  },
  {
   "property": "C67",
   "status": "proved",
   "theorems": [
    "Verif.C67_fill",
    "Verif.C67_dense",
    "Verif.C67_runs_agree",
    "Verif.C67_range",
    "Verif.C67_equal_blocks",
    "Verif.C67_offset_ignored"
   ],
   "note": "the generator and the distribution of the standard library are a parameter: any state, seeding and drawing"
  },
  {
   "property": "C68",
   "status": "proved",
   "theorems": [
    "Verif.C68_same_id",
    "Verif.C68_shared",
    "Verif.C68_views_differ",
    "Verif.C68_fresh"
   ],
   "note": "the 64-bit counter does not wrap around in the model; views differ from what the documentation says (C68_views_differ)"
  },
  {
   "property": "C69",
   "status": "proved",
   "theorems": [
    "Verif.C69_gemm",
    "Verif.C69_entries",
    "Verif.C69_fill"
   ],
   "note": "A and B are values stored elsewhere (they share nothing with C); temporaries formed from A and B alone are values; the value theorem C69_entries keeps the restriction of C21 on transposed low-rank times hierarchical products, the refinement C69_gemm does not need it"
  },
  {
   "property": "C70",
   "status": "proved",
   "theorems": [
    "Verif.C70_gemm",
    "Verif.C70_trsm",
    "Verif.C70_getrf",
    "Verif.C70_solve",
    "Verif.C70_solve_library",
    "Verif.C70_budget",
    "Verif.C70_budget_lu"
   ],
   "note": "exact arithmetic; \"no low-rank operation changes an entry by more than tau\" is a run with LrOps.checked, which gives up otherwise, and the theorems show that the unchecked run returns the same; requires that no leaf is empty (Filled) and, for products, TransSafe as in C21; also: the recursion budget of the model is not observable (C70_budget)"
  },
  {
   "property": "C71",
   "status": "proved",
   "theorems": [
    "Verif.C71_getrf",
    "Verif.C71_solve",
    "Verif.C71_filled",
    "Verif.C71_hlu",
    "Verif.C71_hlu_kernel",
    "Verif.C71_hlu_library"
   ],
   "note": "exact arithmetic; truncation is measured as in C70 (LrOps.checked); the leaf LU does not interchange rows of column-dominant blocks (LuNoPivot, satisfied by doolittle); C71_hlu is for any constructed matrix without empty blocks, C71_filled gives sizes for which there are none, C71_hlu_kernel states the hypothesis for the kernel"
  },
  {
   "property": "C72",
   "status": "proved",
   "theorems": [
    "Verif.C72_storage",
    "Verif.C72_storage_square",
    "Verif.C72_storage_dense",
    "Verif.C72_memory"
   ],
   "note": "For every successful construction; the example builds a matrix of order 4096."
  },
  {
   "property": "C73",
   "status": "proved",
   "theorems": [
    "Verif.C73_lowRank",
    "Verif.C73_gemm",
    "Verif.C73_gemm_new",
    "Verif.C73_trmm",
    "Verif.C73_add",
    "Verif.C73_trsm",
    "Verif.C73_getrf",
    "Verif.C73_scale",
    "Verif.C73_toDense",
    "Verif.C73_transpose"
   ],
   "note": "For operands in which every Hierarchical has a block (every matrix a constructor of the library makes with positive block counts). The external factorization kernels are parameters assumed to depend only on the stored part of their argument (Lapack.Local, LuLocal); onStored_local and doolittle_local show that such kernels exist."
  },
  {
   "property": "C74",
   "status": "proved",
   "theorems": [
    "Verif.C74_trsm",
    "Verif.C74_trmm",
    "Verif.C74_trsm_entries",
    "Verif.C74_trmm_entries",
    "Verif.C74_trsm_returns",
    "Verif.C74_trmm_returns"
   ],
   "note": "C74_trsm, C74_trmm: the run on the heap refines the run on values, step by step; C74_trsm_entries, C74_trmm_entries: what every matrix in memory shows afterwards; C74_trsm_returns, C74_trmm_returns: when the calls return. The triangle is a value (stored elsewhere, read-only); a block of the target that is a factor of a product is read when the product starts, the blocks being disjoint. Kernels read only their argument (Lapack.Local)."
  },
  {
   "property": "C75",
   "status": "proved",
   "theorems": [
    "Verif.C75_product",
    "Verif.C75_product_dense",
    "Verif.C75_no_lowrank",
    "Verif.C75_relative",
    "Verif.C75_product_new",
    "Verif.C75_returns_iff",
    "Verif.C75_regular",
    "Verif.C75_rounding"
   ],
   "note": "C75_product, C75_product_dense, C75_product_new: the error bound; C75_no_lowrank: without low-rank blocks; C75_relative: relative error for non-negative data; C75_returns_iff: returns or fails as in exact arithmetic; C75_regular: returns for regularly subdivided operands (with C22); C75_rounding: reference BLAS with any rounding of relative error u meets the assumption on BLAS. Values are real numbers, overflow, underflow and NaN are not modelled."
  },
  {
   "property": "C76",
   "status": "proved",
   "theorems": [
    "Verif.C76_solve",
    "Verif.C76_solve_dense",
    "Verif.C76_no_lowrank",
    "Verif.C76_backward_left",
    "Verif.C76_backward_right",
    "Verif.C76_returns",
    "Verif.C76_rounding"
   ],
   "note": "C76_solve, C76_solve_dense: the residual bound and the structure of the result; C76_no_lowrank: without low-rank blocks; C76_backward_left, C76_backward_right: backward errors; C76_returns: returns for regularly subdivided matrices; C76_rounding: products, substitution and elimination with any rounding of relative error u meet the assumptions on BLAS. Values are real numbers, overflow, underflow and NaN are not modelled."
  },
  {
   "property": "C77",
   "status": "proved",
   "theorems": [
    "Verif.C77_factor",
    "Verif.C77_backward",
    "Verif.C77_solve",
    "Verif.C77_returns",
    "Verif.C77_solve_returns"
   ],
   "note": "C77_factor: triangular factors and error of their product; C77_backward: relative to the factors alone; C77_solve: the computed solution solves a nearby system; C77_returns, C77_solve_returns: the runs return, or divide by a pivot that is zero (examples for both). The assumptions on BLAS and LAPACK are met by textbook algorithms with any rounding of relative error u (C76_rounding). Values are real numbers, overflow, underflow and NaN are not modelled; low-rank blocks are not covered."
  },
  {
   "property": "C78",
   "status": "proved",
   "theorems": [
    "Verif.C78_returns_iff",
    "Verif.C78_product",
    "Verif.C78_product_dense",
    "Verif.C78_no_lowrank",
    "Verif.C78_returns",
    "Verif.C78_rounding"
   ],
   "note": "C78_product: error bound, with the checks on dimensions and the structure of the result; C78_product_dense: dense right-hand sides of any dimensions; C78_no_lowrank: relative to the entries; C78_returns_iff, C78_returns: when the product returns; C78_rounding: the assumptions on BLAS are met by summation in order with any rounding of relative error u. Values are real numbers, overflow, underflow and NaN are not modelled."
  },
  {
   "property": "C79",
   "status": "proved",
   "theorems": [
    "Verif.C79_tiled",
    "Verif.C79_residual",
    "Verif.C79_exact",
    "Verif.C79_drivers",
    "Verif.C79_kernels_exist",
    "Verif.C79_orthogonality"
   ],
   "note": "C79_tiled: the factorization and the products return, with the error bounds; C79_residual: the residual and the orthogonality the example program prints (the product Q*R taken exactly); C79_exact, C79_drivers: with routines that do not round, the tile kernels on dense tiles are those of C33, and with the exact kernels the drivers are those of C33; C79_kernels_exist: the assumptions on the LAPACK routines can be met, also by routines that err. Dense tiles only; values are real numbers, overflow, underflow and NaN are not modelled. C79_orthogonality: the columns of the computed Q are nearly orthonormal."
  },
  {
   "property": "C80",
   "status": "proved",
   "theorems": [
    "Verif.C80_hlu",
    "Verif.C80_inverse",
    "Verif.C80_dominant"
   ],
   "note": "C80_hlu: the program returns or divides by a zero pivot (reported as ub); the compression accuracy is 0, the printed LU accuracy is that of the computed solution, and without interchanges the residual is small. C80_inverse and C80_dominant bound the error of the solution by a left inverse of the kernel's matrix or by diagonal dominance. That no block is compressed is expressed by the admissibility bound b^L <= a+1 of the position-based condition; compressed blocks are in C71 (exact arithmetic)."
  },
  {
   "property": "C81",
   "status": "proved",
   "theorems": [
    "Verif.C81_tiled_program",
    "Verif.C81_orthogonality",
    "Verif.C81_printed"
   ],
   "note": "C81_tiled_program: the program returns, prints compression error 0, Q, Q*R and Q^T*Q are within the stated bounds, and the printed errors are bracketed by the true ones; C81_orthogonality: the columns of the computed Q are nearly orthonormal; C81_printed: the resulting upper bounds of the printed numbers. That no tile is compressed is expressed by p <= a+1 for the position-based condition, or b = 1; compressed tiles are in C54 (exact arithmetic)."
  },
  {
   "property": "C82",
   "status": "proved",
   "theorems": [
    "Verif.C82_as_sequential",
    "Verif.C82_reproducible",
    "Verif.C82_footprints",
    "Verif.C82_completes",
    "Verif.C82_errors",
    "Verif.C82_programs"
   ],
   "note": "C82_as_sequential: every execution of either program leaves the numbers of the sequential functions; C82_reproducible: two executions end in the same memory; C82_completes: executions of both forms exist; C82_footprints: the tasks touch only their blocks; C82_errors: the bounds of C79 for what any execution leaves in memory; C82_programs: the programs print what the sequential one prints (bounds: C81). The memory model is that of C36 (each step of a task is atomic)."
  },
  {
   "property": "C83",
   "status": "proved",
   "theorems": [
    "Verif.C83_add",
    "Verif.C83_add_relative",
    "Verif.C83_add_errors",
    "Verif.C83_subtract",
    "Verif.C83_subtract_errors",
    "Verif.C83_scale",
    "Verif.C83_naive_exact",
    "Verif.C83_naive_truncates",
    "Verif.C83_naive_optimal",
    "Verif.C83_naive_relative",
    "Verif.C83_naive_lowrank"
   ],
   "note": "C83_add: sums into matrices with dense leaves return, with an entrywise bound; C83_add_relative: relative error u without low-rank blocks; C83_add_errors: same failures as in exact arithmetic; C83_subtract, C83_subtract_errors: differences of dense matrices; C83_scale: multiples of matrices of any structure. C83_naive_exact and C83_naive_truncates: sums of two low-rank matrices in mode \"naive\" (the truncation is a parameter); C83_naive_optimal: with a nearly optimal truncation the sum is nearly optimal; C83_naive_relative: block matrices with low-rank blocks of small ranks in this mode; C83_naive_lowrank: a low-rank matrix added to such a matrix. The other two modes are covered in exact arithmetic only (C21, C24)."
  }
 ]
}