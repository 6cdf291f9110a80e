import Verif.Props.AddReturns
import Verif.Props.Admissible
import Verif.Props.BlrQr
import Verif.Props.ClusterTree
import Verif.Props.Compress
import Verif.Props.CompressProgram
import Verif.Props.Construct
import Verif.Props.Dispatch
import Verif.Props.DispatchTri
import Verif.Props.ErrLu
import Verif.Props.Export
import Verif.Props.ExportProgram
import Verif.Props.File
import Verif.Props.FileDense
import Verif.Props.Fit
import Verif.Props.FloatAdd
import Verif.Props.FloatBlrQr
import Verif.Props.FloatGemm
import Verif.Props.FloatHLu
import Verif.Props.FloatLu
import Verif.Props.FloatNorm
import Verif.Props.FloatParQr
import Verif.Props.FloatQr
import Verif.Props.FloatTri
import Verif.Props.FloatTrmm
import Verif.Props.Gemm
import Verif.Props.GemmLr
import Verif.Props.GemmTotal
import Verif.Props.Geqp3
import Verif.Props.HLu
import Verif.Props.HLuErr
import Verif.Props.HQr
import Verif.Props.Handle
import Verif.Props.Heap
import Verif.Props.HeapGemm
import Verif.Props.HeapOps
import Verif.Props.HeapSplit
import Verif.Props.HeapTri
import Verif.Props.Id
import Verif.Props.Ids
import Verif.Props.KernelPd
import Verif.Props.LrAdd
import Verif.Props.LrAddBest
import Verif.Props.LrAddProgram
import Verif.Props.MatBasic
import Verif.Props.Mgs
import Verif.Props.MgsOrth
import Verif.Props.MgsProgram
import Verif.Props.MgsSplit
import Verif.Props.Morton
import Verif.Props.OldRsvd
import Verif.Props.ParProgram
import Verif.Props.ParQr
import Verif.Props.Partition
import Verif.Props.Points
import Verif.Props.Print
import Verif.Props.Qr
import Verif.Props.Random
import Verif.Props.Same
import Verif.Props.Sample
import Verif.Props.SplitMat
import Verif.Props.Storage
import Verif.Props.TiledQr
import Verif.Props.Timer
import Verif.Props.TimerReport
import Verif.Props.Tri
import Verif.Props.TriInverse
import Verif.Props.TriTotal

/-
The axioms every property theorem depends on (printed during the build; only
`propext`, `Classical.choice` and `Quot.sound` occur).
-/

#print axioms Verif.C01_split_partition_iff
#print axioms Verif.C01_split_partition_partial
#print axioms Verif.C01_split_not_always_partition
#print axioms Verif.C01_split_fails_for_every_k
#print axioms Verif.C02_split_like_partition_mat
#print axioms Verif.C02_split_at_partition
#print axioms Verif.C02_split_like_partition
#print axioms Verif.C03_leaves_tile
#print axioms Verif.C03_leaf_sizes
#print axioms Verif.C03_leaves_tile_two_blocks
#print axioms Verif.C03_leaves_tile_even
#print axioms Verif.C03_needs_valid_splits
#print axioms Verif.C04_build_terminates
#print axioms Verif.C04_depth_le_size
#print axioms Verif.C04_build_nleaf_zero
#print axioms Verif.C04_single_block_diverges
#print axioms Verif.C05_positions
#print axioms Verif.C05_parent_child
#print axioms Verif.C05_block_row_col
#print axioms Verif.C05_block_row_of_root
#print axioms Verif.C05_dist_to_diag
#print axioms Verif.C06_diagonal_never_compressed
#print axioms Verif.C06_diagonal_never_compressed_dense
#print axioms Verif.C06_vectors_never_compressed
#print axioms Verif.C07_decision_from_bounding_boxes
#print axioms Verif.C07_symmetric
#print axioms Verif.C07_monotone
#print axioms Verif.C07_same_points_not_admissible
#print axioms Verif.C07_diagonal_not_admissible
#print axioms Verif.C07_returns
#print axioms Verif.C07_admissible_separated
#print axioms Verif.C08_kernel_matrix
#print axioms Verif.C08_kernel_matrix_succeeds
#print axioms Verif.C09_dense_round_trip_partial
#print axioms Verif.C09_dense_succeeds_partial
#print axioms Verif.C09_offset_reads_outside
#print axioms Verif.C10_block_consistent
#print axioms Verif.C10_values
#print axioms Verif.C10_defined
#print axioms Verif.C10_symmetric
#print axioms Verif.C10_symmetric_blocks
#print axioms Verif.C10_arange
#print axioms Verif.C10_arange_not_consistent
#print axioms Verif.C10_computes_entries
#print axioms Verif.C11_copy
#print axioms Verif.C11_is_submatrix
#print axioms Verif.C11_independent
#print axioms Verif.C11_split_copy
#print axioms Verif.C11_split_copy_counts
#print axioms Verif.C12_assign_partial
#print axioms Verif.C12_independent_partial
#print axioms Verif.C12_gaps_fail
#print axioms Verif.C12_self_assignment_clears
#print axioms Verif.C12_self_assignment_negation
#print axioms Verif.C12_bounds_negation
#print axioms Verif.C13_split_alias
#print axioms Verif.C13_split_write
#print axioms Verif.C13_blocks_disjoint
#print axioms Verif.C13_blocks_cover
#print axioms Verif.C13_shallow_alias
#print axioms Verif.C13_shallow_write
#print axioms Verif.C13_write_nowhere_else
#print axioms Verif.C13_nested
#print axioms Verif.C13_even_ranges
#print axioms Verif.C13_split_counts
#print axioms Verif.C14_bounds
#print axioms Verif.C14_bounds_vec
#print axioms Verif.C14_progress
#print axioms Verif.C14_default
#print axioms Verif.C14_move
#print axioms Verif.C15_dimensions
#print axioms Verif.C15_dimensions_dense_transpose
#print axioms Verif.C16_to_dense
#print axioms Verif.C17_split_leaf
#print axioms Verif.C17_split_hierarchical
#print axioms Verif.C17_split_blocks
#print axioms Verif.C17_split_like
#print axioms Verif.C17_split_like_rejected
#print axioms Verif.C17_split_dense_iff
#print axioms Verif.C18_transpose
#print axioms Verif.C18_transpose_involution
#print axioms Verif.C19_scale
#print axioms Verif.C19_zero_all
#print axioms Verif.C19_zero_lower
#print axioms Verif.C19_zero_upper
#print axioms Verif.C19_zero_lower_needs_square
#print axioms Verif.C20_norm
#print axioms Verif.C20_l2_error_value
#print axioms Verif.C20_l2_error_structure_independent
#print axioms Verif.C20_l2_error_succeeds
#print axioms Verif.C21_gemm_partial
#print axioms Verif.C21_gemm_dims
#print axioms Verif.C21_gemm_untransposed
#print axioms Verif.C21_lowrank_times_hier_transposed_wrong
#print axioms Verif.C21_hier_times_lowrank_transposed_wrong
#print axioms Verif.C21_hier_times_lowrank_right_transposed_wrong
#print axioms Verif.C21_dense_into_lowrank
#print axioms Verif.C21_gemm_library_partial
#print axioms Verif.C22_gemm_returns_partial
#print axioms Verif.C22_gemm_new_returns
#print axioms Verif.C22_dense_into_blocks
#print axioms Verif.C22_gemm_library_partial
#print axioms Verif.C22_gemm_dense_leaves
#print axioms Verif.C22_fixed_rank_target_fails
#print axioms Verif.C23_gemm_new_partial
#print axioms Verif.C24_add_assign_returns
#print axioms Verif.C24_add_library_returns
#print axioms Verif.C24_unsupported
#print axioms Verif.C24_add_assign
#print axioms Verif.C24_dense_add_sub
#print axioms Verif.C25_naive_exact
#print axioms Verif.C25_naive_recompress
#print axioms Verif.C25_rectangular_fails
#print axioms Verif.C26_rounded
#print axioms Verif.C26_fast
#print axioms Verif.C26_fast_with_eps
#print axioms Verif.C26_nothing_discarded
#print axioms Verif.C26_rounded_returns
#print axioms Verif.C26_fast_returns_iff
#print axioms Verif.C26_rounded_svd
#print axioms Verif.C26_rounded_exact_of_rank
#print axioms Verif.C26_rounded_error
#print axioms Verif.C26_rounded_best
#print axioms Verif.C26_fast_best
#print axioms Verif.C26_fast_exact_of_range
#print axioms Verif.C27_truncation_rank
#print axioms Verif.C27_empty
#print axioms Verif.C28_trmm
#print axioms Verif.C28_trmm_library
#print axioms Verif.C28_trmm_lowrank
#print axioms Verif.C28_trmm_returns
#print axioms Verif.C28_trmm_library_returns
#print axioms Verif.C28_trmm_tolerance_returns
#print axioms Verif.C29_trsm
#print axioms Verif.C29_trsm_library
#print axioms Verif.C29_trsm_after_trmm
#print axioms Verif.C29_unsupported
#print axioms Verif.C29_unique
#print axioms Verif.C29_trsm_inverts_trmm
#print axioms Verif.C29_trmm_inverts_trsm
#print axioms Verif.C29_trsm_only
#print axioms Verif.C29_trsm_returns
#print axioms Verif.C29_trsm_library_returns
#print axioms Verif.C29_trsm_tolerance_returns
#print axioms Verif.C30_getrf
#print axioms Verif.C30_interchange_ignored
#print axioms Verif.C30_getrf_returns
#print axioms Verif.C30_getrf_library_returns
#print axioms Verif.C31_factor_solve
#print axioms Verif.C31_factor_solve_library
#print axioms Verif.C31_solve_returns
#print axioms Verif.C31_solve_library_returns
#print axioms Verif.C32_q_times_r
#print axioms Verif.C32_qt_times_a
#print axioms Verif.C32_undo
#print axioms Verif.C32_returns
#print axioms Verif.C33_q_times_r
#print axioms Verif.C33_qt_times_a
#print axioms Verif.C33_undo
#print axioms Verif.C33_returns
#print axioms Verif.Mat.C34_factor
#print axioms Verif.Mat.C34_lower
#print axioms Verif.Mat.C34_q_times_r
#print axioms Verif.Mat.C34_sizes
#print axioms Verif.C34_dense
#print axioms Verif.C34_dense_returns
#print axioms Verif.Mat.C35_round_trip
#print axioms Verif.Mat.C35_returns
#print axioms Verif.C36_schedule_independent
#print axioms Verif.C36_race_free
#print axioms Verif.C36_completes
#print axioms Verif.C36_factorization
#print axioms Verif.C36_products
#print axioms Verif.C36_footprints
#print axioms Verif.C36_shared_block
#print axioms Verif.C37_disjoint
#print axioms Verif.C37_schedule_independent
#print axioms Verif.C37_completes
#print axioms Verif.C37_factorization
#print axioms Verif.C37_products
#print axioms Verif.C38_interleaves
#print axioms Verif.C38_to_morton_and_back
#print axioms Verif.C38_to_cartesian_and_back
#print axioms Verif.C38_bijection
#print axioms Verif.C38_negative_index
#print axioms Verif.C38_width_limit
#print axioms Verif.C39_box_unique
#print axioms Verif.C39_sort
#print axioms Verif.C39_short_perm
#print axioms Verif.Timing.C40_accounts
#print axioms Verif.Timing.C40_totals
#print axioms Verif.Timing.C40_clear
#print axioms Verif.Timing.C40_running
#print axioms Verif.Timing.C40_mismatch
#print axioms Verif.Timing.C40_start
#print axioms Verif.Timing.C40_disabled
#print axioms Verif.Timing.C40_clear_while_running
#print axioms Verif.C41_last_value_wins
#print axioms Verif.C41_other_keys
#print axioms Verif.C42_block
#print axioms Verif.C42_no_file
#print axioms Verif.C42_outside
#print axioms Verif.C42_trailing_blank
#print axioms Verif.C42_dense
#print axioms Verif.C42_layouts_agree
#print axioms Verif.C42_dense_no_file
#print axioms Verif.C43_one_sided_partial
#print axioms Verif.C43_returns
#print axioms Verif.C43_rank_deficient
#print axioms Verif.C43_two_sided_partial
#print axioms Verif.C43_two_sided_returns
#print axioms Verif.C43_rid_columns
#print axioms Verif.C43_rid_rows
#print axioms Verif.C43_old_rid
#print axioms Verif.C44_low_rank_from_eps
#print axioms Verif.C44_rid
#print axioms Verif.C44_rsvd
#print axioms Verif.C44_rsvd_hier
#print axioms Verif.C44_rsvd_exact
#print axioms Verif.C44_low_rank_from_dense
#print axioms Verif.C44_low_rank_from_dense_exact
#print axioms Verif.C44_old_rsvd
#print axioms Verif.C44_old_rsvd_wrong
#print axioms Verif.C45_factor
#print axioms Verif.C45_exact
#print axioms Verif.C45_orthonormal
#print axioms Verif.C45_error
#print axioms Verif.C45_returns
#print axioms Verif.C45_reads_past_end
#print axioms Verif.C45_reads_past_end_column
#print axioms Verif.C45_rank_positive
#print axioms Verif.C46_resolution
#print axioms Verif.C46_unique_method
#print axioms Verif.C46_tables
#print axioms Verif.C46_gemm
#print axioms Verif.C46_gemm_nested
#print axioms Verif.C46_gemm_new_nested
#print axioms Verif.C46_trmm
#print axioms Verif.C46_trmm_nested
#print axioms Verif.C46_addition
#print axioms Verif.C46_addition_nested
#print axioms Verif.C46_unary
#print axioms Verif.C46_unary_nested
#print axioms Verif.C46_zero_triangle_nested
#print axioms Verif.C46_l2_error
#print axioms Verif.C46_qr_kernels
#print axioms Verif.C46_export_returns
#print axioms Verif.C46_trsm
#print axioms Verif.C46_getrf
#print axioms Verif.C46_supported
#print axioms Verif.C46_trsm_nested
#print axioms Verif.C46_getrf_nested
#print axioms Verif.C46_getrf_library
#print axioms Verif.C47_copy
#print axioms Verif.C47_copy_unaffected
#print axioms Verif.C47_source_unaffected
#print axioms Verif.C47_interleaved
#print axioms Verif.C47_move
#print axioms Verif.C47_extract
#print axioms Verif.C47_unassigned_block
#print axioms Verif.C47_low_rank_factors
#print axioms Verif.C47_low_rank_of_dense
#print axioms Verif.C48_memory
#print axioms Verif.C48_memory_additive
#print axioms Verif.C49_mirrors_partial
#print axioms Verif.C49_returns
#print axioms Verif.C49_positions_unique_partial
#print axioms Verif.C49_empty_unplaced
#print axioms Verif.C49_positions_ambiguous
#print axioms Verif.C50_spacing_partial
#print axioms Verif.C50_inside_iff_partial
#print axioms Verif.C50_leaves_interval
#print axioms Verif.C51_resize
#print axioms Verif.C51_resize_dense_only
#print axioms Verif.C52_factors_fit
#print axioms Verif.C53_structure
#print axioms Verif.C53_hlu_of_matrix
#print axioms Verif.C53_hlu
#print axioms Verif.C53_hlu_library
#print axioms Verif.C53_uneven_never_returns
#print axioms Verif.C54_blocked_explicit
#print axioms Verif.C54_tiled_explicit
#print axioms Verif.C54_blocked_program_returns
#print axioms Verif.C54_tiled_program_returns
#print axioms Verif.C54_blocked_program_exact
#print axioms Verif.C54_tiled_program_exact
#print axioms Verif.C54_rejected
#print axioms Verif.C54_library_returns
#print axioms Verif.C54_library_dense
#print axioms Verif.Mat.C55_orthonormal
#print axioms Verif.Mat.C55_returns
#print axioms Verif.Mat.C55_returns_nested
#print axioms Verif.C55_program_returns
#print axioms Verif.C55_rejected
#print axioms Verif.C55_program_exact
#print axioms Verif.C55_library_returns
#print axioms Verif.C55_library_dense
#print axioms Verif.C56_positive_definite
#print axioms Verif.C56_nonsingular_iff
#print axioms Verif.C56_cauchy_nonsingular
#print axioms Verif.C57_structure
#print axioms Verif.C57_program_returns
#print axioms Verif.C57_program_exact
#print axioms Verif.C57_library_returns
#print axioms Verif.C57_main_returns
#print axioms Verif.C57_library_dense
#print axioms Verif.C57_main_dense
#print axioms Verif.C58_footprints
#print axioms Verif.C58_task_tiled
#print axioms Verif.C58_fork_tiled
#print axioms Verif.C58_fork_blocked
#print axioms Verif.C58_fork_mgs
#print axioms Verif.C58_rejected
#print axioms Verif.C58_householder_exact
#print axioms Verif.C58_mgs_exact
#print axioms Verif.C58_library
#print axioms Verif.C59_program
#print axioms Verif.C59_rejected
#print axioms Verif.C59_library
#print axioms Verif.C60_read
#print axioms Verif.C60_short
#print axioms Verif.C60_no_numbers
#print axioms Verif.C60_no_file
#print axioms Verif.C60_negative
#print axioms Verif.C60_same_length
#print axioms Verif.C60_sorted
#print axioms Verif.C60_non_negative
#print axioms Verif.C60_generated_positive_definite
#print axioms Verif.C60_file_positive_definite
#print axioms Verif.C61_columns
#print axioms Verif.C61_low_rank
#print axioms Verif.C61_returns
#print axioms Verif.C61_orthonormal
#print axioms Verif.C61_sharp
#print axioms Verif.C61_kernel
#print axioms Verif.C61_dense
#print axioms Verif.C61_l2_error
#print axioms Verif.C61_blocked_program
#print axioms Verif.C61_tiled_program
#print axioms Verif.C62_returns
#print axioms Verif.C62_document
#print axioms Verif.C62_covers
#print axioms Verif.C62_unique
#print axioms Verif.C62_accuracy
#print axioms Verif.C63_program
#print axioms Verif.C63_gemm
#print axioms Verif.C63_add
#print axioms Verif.C63_tiles_separate
#print axioms Verif.C63_tiles
#print axioms Verif.C63_mgs
#print axioms Verif.C63_overlap_fails
#print axioms Verif.C63_empty_inner_fails
#print axioms Verif.C63_mgs_view_fails
#print axioms Verif.Timing.C64_report
#print axioms Verif.Timing.C64_stop_and_print
#print axioms Verif.Timing.C64_unknown
#print axioms Verif.Timing.C64_subtimers
#print axioms Verif.Timing.C64_keys
#print axioms Verif.Timing.C64_no_time_fails
#print axioms Verif.C65_print_congr
#print axioms Verif.C65_print_determines
#print axioms Verif.C65_hidden
#print axioms Verif.C66_norm
#print axioms Verif.C66_norm_exact_entries
#print axioms Verif.C66_l2_error
#print axioms Verif.C66_l2_error_exact_entries
#print axioms Verif.C66_zero_iff
#print axioms Verif.C66_l2_error_returns
#print axioms Verif.C67_fill
#print axioms Verif.C67_dense
#print axioms Verif.C67_runs_agree
#print axioms Verif.C67_range
#print axioms Verif.C67_equal_blocks
#print axioms Verif.C67_offset_ignored
#print axioms Verif.C68_same_id
#print axioms Verif.C68_shared
#print axioms Verif.C68_views_differ
#print axioms Verif.C68_fresh
#print axioms Verif.C69_gemm
#print axioms Verif.C69_entries
#print axioms Verif.C69_fill
#print axioms Verif.C70_gemm
#print axioms Verif.C70_trsm
#print axioms Verif.C70_getrf
#print axioms Verif.C70_solve
#print axioms Verif.C70_solve_library
#print axioms Verif.C70_budget
#print axioms Verif.C70_budget_lu
#print axioms Verif.C71_getrf
#print axioms Verif.C71_solve
#print axioms Verif.C71_filled
#print axioms Verif.C71_hlu
#print axioms Verif.C71_hlu_kernel
#print axioms Verif.C71_hlu_library
#print axioms Verif.C72_storage
#print axioms Verif.C72_storage_square
#print axioms Verif.C72_storage_dense
#print axioms Verif.C72_memory
#print axioms Verif.C73_lowRank
#print axioms Verif.C73_gemm
#print axioms Verif.C73_gemm_new
#print axioms Verif.C73_trmm
#print axioms Verif.C73_add
#print axioms Verif.C73_trsm
#print axioms Verif.C73_getrf
#print axioms Verif.C73_scale
#print axioms Verif.C73_toDense
#print axioms Verif.C73_transpose
#print axioms Verif.C74_trsm
#print axioms Verif.C74_trmm
#print axioms Verif.C74_trsm_entries
#print axioms Verif.C74_trmm_entries
#print axioms Verif.C74_trsm_returns
#print axioms Verif.C74_trmm_returns
#print axioms Verif.C75_product
#print axioms Verif.C75_product_dense
#print axioms Verif.C75_no_lowrank
#print axioms Verif.C75_relative
#print axioms Verif.C75_product_new
#print axioms Verif.C75_returns_iff
#print axioms Verif.C75_regular
#print axioms Verif.C75_rounding
#print axioms Verif.C76_solve
#print axioms Verif.C76_solve_dense
#print axioms Verif.C76_no_lowrank
#print axioms Verif.C76_backward_left
#print axioms Verif.C76_backward_right
#print axioms Verif.C76_returns
#print axioms Verif.C76_rounding
#print axioms Verif.C77_factor
#print axioms Verif.C77_backward
#print axioms Verif.C77_solve
#print axioms Verif.C77_returns
#print axioms Verif.C77_solve_returns
#print axioms Verif.C78_returns_iff
#print axioms Verif.C78_product
#print axioms Verif.C78_product_dense
#print axioms Verif.C78_no_lowrank
#print axioms Verif.C78_returns
#print axioms Verif.C78_rounding
#print axioms Verif.C79_tiled
#print axioms Verif.C79_residual
#print axioms Verif.C79_exact
#print axioms Verif.C79_drivers
#print axioms Verif.C79_kernels_exist
#print axioms Verif.C79_orthogonality
#print axioms Verif.C80_hlu
#print axioms Verif.C80_inverse
#print axioms Verif.C80_dominant
#print axioms Verif.C81_tiled_program
#print axioms Verif.C81_orthogonality
#print axioms Verif.C81_printed
#print axioms Verif.C82_as_sequential
#print axioms Verif.C82_reproducible
#print axioms Verif.C82_footprints
#print axioms Verif.C82_completes
#print axioms Verif.C82_errors
#print axioms Verif.C82_programs
#print axioms Verif.C83_add
#print axioms Verif.C83_add_relative
#print axioms Verif.C83_add_errors
#print axioms Verif.C83_subtract
#print axioms Verif.C83_subtract_errors
#print axioms Verif.C83_scale
#print axioms Verif.C83_naive_exact
#print axioms Verif.C83_naive_truncates
#print axioms Verif.C83_naive_optimal
#print axioms Verif.C83_naive_relative
#print axioms Verif.C83_naive_lowrank
