{"id": "C01", "title": "Equal splitting partitions an index range", "statement": "Splitting an index range of n indices into k parts returns exactly k contiguous sub-ranges, in order, that start where the range starts, are pairwise disjoint and together contain every index of the range exactly once; no part has a negative length.", "quantifier": "every start, every length n >= 0 and every number of parts k >= 1", "why_tests_cant": "Only the interplay of rounding-up division with the remainder of the last part breaks it, on particular (n,k) pairs that a finite sample misses.", "anchors": ["src/classes/initialization_helpers/index_range.cpp: IndexRange::split"]}
{"id": "C02", "title": "Splitting a range at an index or like an existing block matrix partitions it", "statement": "split_at(i) with 0<=i<=n returns two adjacent ranges covering the original exactly; split_like(H, rows/cols) returns one range per block row/column of H whose lengths are the block heights/widths and which tile [0, total) without gap or overlap.", "quantifier": "every range, every index inside it, every hierarchical matrix (any block counts, any block sizes, any nesting)", "why_tests_cant": "Ranges over arbitrary recursive block structures, not enumerable.", "anchors": ["src/classes/initialization_helpers/index_range.cpp: IndexRange::split_at, IndexRange::split_like"]}
{"id": "C03", "title": "The leaves of a cluster tree tile the matrix exactly", "statement": "For the tree built from row range, column range, block counts and leaf size, every matrix entry of the root range lies in exactly one leaf, and every leaf lies inside the root range.", "quantifier": "all matrix sizes, offsets, block counts and leaf sizes for which construction terminates and equal splitting is valid at every node", "why_tests_cant": "Unbounded recursion depth and unbounded matrix sizes.", "anchors": ["src/classes/initialization_helpers/cluster_tree.cpp: ClusterTree::ClusterTree, is_leaf"]}
{"id": "C04", "title": "Cluster-tree construction terminates", "statement": "Constructing a cluster tree with at least two blocks per direction and a leaf size of at least one terminates for every matrix size, with depth at most logarithmic-like in the size (at most max(rows, cols) levels below the root).", "quantifier": "all matrix sizes, all block counts >= 2, all leaf sizes >= 1 (and 0, meaning no recursion); the 1x1 block-count case is covered as the negative side", "why_tests_cant": "Non-termination cannot be observed by a passing test; a test only samples terminating sizes.", "anchors": ["src/classes/initialization_helpers/cluster_tree.cpp: ClusterTree::ClusterTree, is_leaf"]}
{"id": "C05", "title": "Cluster-tree positions are globally consistent", "statement": "A node's absolute position is the index of its block in the full grid of its level: positions of all nodes of one level are distinct and inside the grid, a node's relative position inside its parent and its parent's absolute position determine it and conversely, block-row and block-column queries of a child return exactly its siblings in the same row/column, and dist_to_diag is the distance to the block diagonal.", "quantifier": "all trees, all levels, all nodes", "why_tests_cant": "A recursive numbering invariant over all depths and block counts.", "anchors": ["src/classes/initialization_helpers/cluster_tree.cpp: abs_pos, rel_pos, dist_to_diag, get_block_row, get_block_col"]}
{"id": "C06", "title": "Only off-diagonal blocks are ever compressed", "statement": "With the position-based admissibility condition and a non-negative admissibility constant on a square tree, a block that contains a diagonal entry of the matrix is never replaced by a low-rank approximation, and neither is any block with a single row or column.", "quantifier": "all square trees (equal row and column ranges and block counts), all levels, all admissibility constants >= 0", "why_tests_cant": "Quantifies over every block of every tree.", "anchors": ["src/classes/initialization_helpers/matrix_initializer.cpp: MatrixInitializer::is_admissible", "src/classes/hierarchical.cpp: Hierarchical::Hierarchical(const ClusterTree&, ...)"]}
{"id": "C07", "title": "Geometric admissibility implies separation", "statement": "With the geometry-based admissibility condition, the decision depends only on the bounding boxes of the two point sets, is symmetric in rows and columns, monotone in the admissibility constant, and a block whose row and column point sets coincide is never admissible.", "quantifier": "all point sets in any dimension, all row/column ranges, all admissibility constants", "why_tests_cant": "Real-valued inputs and arbitrary dimension.", "anchors": ["src/classes/initialization_helpers/matrix_initializer.cpp: MatrixInitializer::is_admissible, get_coords_range"]}
{"id": "C08", "title": "A hierarchical matrix built from a kernel represents the kernel matrix", "statement": "Building a hierarchical matrix from a kernel and converting it back to dense yields, at every entry (i,j) that lies in an uncompressed block, exactly the kernel value at global indices (row_start+i, col_start+j); if the compressor reproduces its input exactly, this holds at every entry. The dimensions equal the requested ones.", "quantifier": "all kernels whose entries depend only on the global indices, all sizes, offsets, block counts, leaf sizes, admissibility settings", "why_tests_cant": "Unbounded depth, all structures, all kernels.", "anchors": ["src/classes/hierarchical.cpp: Hierarchical::Hierarchical", "src/classes/initialization_helpers/matrix_initializer_kernel.cpp: fill_dense_representation", "src/classes/dense.cpp: fill_dense_from"]}
{"id": "C09", "title": "Dense to hierarchical to dense is the identity", "statement": "Converting a dense matrix to a hierarchical one (no admissible block) and back yields the same entries; with non-zero row/column start offsets every read stays inside the given matrix.", "quantifier": "all dense matrices, all block counts and leaf sizes, all offsets", "why_tests_cant": "Structural recursion over all shapes; out-of-bounds reads are silent in release builds.", "anchors": ["src/classes/hierarchical.cpp: Hierarchical::Hierarchical(Dense&&, ...)", "src/classes/initialization_helpers/matrix_initializer_block.cpp: fill_dense_representation"]}
{"id": "C10", "title": "Built-in kernels are block consistent", "statement": "Filling a block of a kernel matrix with offsets (r,c) gives the same numbers as filling the full matrix and reading the block at (r,c); symmetric kernels give symmetric matrices.", "quantifier": "all kernels identity, zeros, cauchy2d, laplacend, helmholtznd; all offsets, sizes, strides, coordinates", "why_tests_cant": "Ranges over all offsets and all coordinate sets.", "anchors": ["src/functions.cpp: zeros, identity, laplacend, cauchy2d, helmholtznd, arange"]}
{"id": "C11", "title": "Copying a dense matrix gives an independent contiguous object", "statement": "After copy construction the copy has the same dimensions and entries as the source (also when the source is a view into a larger matrix), and any later sequence of writes through either object leaves the other unchanged.", "quantifier": "all heaps, all dense objects including strided views, all write sequences", "why_tests_cant": "Aliasing has to be excluded for every later history of writes.", "anchors": ["src/classes/dense.cpp: Dense::Dense(const Dense&), Dense::copy_to"]}
{"id": "C12", "title": "Copy assignment of dense matrices preserves values and stays in bounds", "statement": "After A = B, A has B's dimensions and entries, all element accesses of A stay inside A's storage, B is unchanged, and later writes to one do not affect the other; A = A leaves A unchanged.", "quantifier": "all heaps, all pairs of dense objects, including strided views and self assignment", "why_tests_cant": "The failure needs a strided source; out-of-bounds access is silent in release builds.", "anchors": ["src/classes/dense.cpp: Dense::operator=(const Dense&)"]}
{"id": "C13", "title": "Shallow copies and shared splits alias exactly the intended elements", "statement": "A write through a shallow copy or through block (p,q) of a non-copying split is visible in the parent exactly at the corresponding entry and nowhere else; blocks of one split never overlap each other; views of views compose.", "quantifier": "all heaps, all dense objects (including views), all partitions, all nested splits, all entries", "why_tests_cant": "Must hold for each element of each nested view at any depth.", "anchors": ["src/classes/dense.cpp: Dense::shallow_copy, Dense::split", "src/operations/misc/misc.cpp: split, shallow_copy"]}
{"id": "C14", "title": "Element accesses of live dense objects stay in bounds", "statement": "For every dense object obtained by any sequence of construction, copy construction, shallow copy, splitting (with valid partitions) and moves, each in-range element access (i,j) touches an allocated element of its own buffer.", "quantifier": "all operation histories starting from an empty heap", "why_tests_cant": "Memory safety over all histories, invisible to tests without a sanitizer.", "anchors": ["src/classes/dense.cpp: Dense::operator(), Dense::split, Dense::shallow_copy", "include/FRANK/classes/dense.h"]}
{"id": "C15", "title": "Element counts of nested matrices add up", "statement": "The reported number of rows (columns) of a hierarchical matrix is the sum over its block rows (columns) of the heights (widths), is the same whichever block column (row) is used when the block structure is consistent, and equals the dimension of its dense conversion; transposition swaps the two.", "quantifier": "all recursive matrices with a consistent block structure", "why_tests_cant": "Arbitrary nesting.", "anchors": ["src/operations/misc/get_dim.cpp: get_n_rows, get_n_cols", "src/classes/dense.cpp: Dense::Dense(const Matrix&)"]}
{"id": "C16", "title": "Conversion to dense reads each block at its place", "statement": "Converting any matrix to dense gives at (i,j) the entry of the block containing (i,j) at the local position: dense blocks contribute their entry, low-rank blocks the entry of U*S*V, empty blocks zero.", "quantifier": "all recursive matrices with a consistent block structure", "why_tests_cant": "Arbitrary nesting and block sizes.", "anchors": ["src/classes/dense.cpp: fill_dense_from, Dense::Dense(const Matrix&)"]}
{"id": "C17", "title": "Splitting a matrix loses nothing", "statement": "Splitting a dense or low-rank matrix along any valid row/column partition and converting the result back to dense yields the original matrix; splitting a hierarchical matrix succeeds exactly when the partition is its own and then returns the same blocks.", "quantifier": "all matrices, all valid partitions", "why_tests_cant": "All partitions and all matrices.", "anchors": ["src/operations/misc/misc.cpp: split_omm"]}
{"id": "C18", "title": "Transposition is entrywise transposition and an involution", "statement": "transpose(A) has at (j,i) the entry of A at (i,j) for dense, low-rank and hierarchical matrices of any structure, and transposing twice returns a matrix with the original entries.", "quantifier": "all recursive matrices with a consistent block structure", "why_tests_cant": "Arbitrary nesting.", "anchors": ["src/operations/misc/transpose.cpp: transpose_omm"]}
{"id": "C19", "title": "Scaling, zeroing and triangular zeroing act entrywise", "statement": "A *= b multiplies every represented entry by b; zero_all makes every represented entry 0; zero_lower makes exactly the entries strictly below the diagonal 0 and keeps the others; zero_upper makes exactly the entries strictly above the diagonal 0 and keeps the others.", "quantifier": "all recursive matrices (square diagonal blocks and non-low-rank diagonal for the triangular versions), all scalars", "why_tests_cant": "Arbitrary nesting and sizes.", "anchors": ["src/operations/arithmetic/multiplication.cpp", "src/operations/misc/misc.cpp: zero_all, zero_lower, zero_upper"]}
{"id": "C20", "title": "The norm of a structured matrix is the norm of its dense form", "statement": "norm(A) equals the sum of the squares of all represented entries, whatever the block structure; l2_error between two representations of the same matrix is the same value for every structure.", "quantifier": "all recursive matrices with a consistent block structure", "why_tests_cant": "All structures.", "anchors": ["src/operations/misc/norm.cpp: norm", "src/util/l2_error.cpp: l2_error, collect_diff_norm"]}
{"id": "C21", "title": "General matrix product is exact whatever the representation", "statement": "gemm(A,B,C,alpha,beta,transA,transB) makes C represent alpha*op(A)*op(B)+beta*C for every combination of dense, low-rank and hierarchical operands, at every entry stored in a dense block of C, and at all entries if low-rank additions are exact. It never succeeds with a different value.", "quantifier": "all recursive A, B, C, all scalars, all four transposition flags", "why_tests_cant": "27 operand-type combinations times arbitrary nesting; asserts are disabled in release builds.", "anchors": ["src/operations/BLAS/gemm.cpp: gemm_omm"]}
{"id": "C22", "title": "Multiplication of conforming hierarchical matrices never fails", "statement": "If all three operands are built with the same even b-by-b subdivision (any mixture of dense, low-rank and nested blocks at any depth), gemm completes without aborting or failing a dimension check.", "quantifier": "all regular hierarchical matrices of any depth and any b >= 2, transposition off (and on for aligned structures)", "why_tests_cant": "Any mixture of structures at unbounded depth.", "anchors": ["src/operations/BLAS/gemm.cpp: gemm_omm"]}
{"id": "C23", "title": "The product returning a new matrix equals the in-place product into zero", "statement": "gemm(A,B,alpha,transA,transB) returns a matrix representing alpha*op(A)*op(B), with dimensions rows(op A) x cols(op B).", "quantifier": "all recursive A, B, all scalars and flags", "why_tests_cant": "Recursive, result type depends on operand structure.", "anchors": ["src/operations/BLAS/gemm.cpp: gemm_omm (new)"]}
{"id": "C24", "title": "Matrix addition is entrywise", "statement": "A += B makes A represent the entrywise sum for Dense+Dense, Dense+LowRank, Hierarchical+Hierarchical and Hierarchical+LowRank of any nesting (up to the compression performed inside low-rank blocks of A); A + B and A - B on dense matrices are entrywise; B is unchanged.", "quantifier": "all recursive matrices for which the operation is defined", "why_tests_cant": "Arbitrary nesting; splitting of B inside A's structure.", "anchors": ["src/operations/arithmetic/addition.cpp", "src/operations/arithmetic/subtraction.cpp"]}
{"id": "C25", "title": "Naive low-rank addition is exact", "statement": "With FRANK_LRA=naive and rank(A)+rank(B) < min(dims), A += B yields a low-rank matrix of rank rank(A)+rank(B) representing exactly A+B, with consistent factor dimensions; the bound on the rank is kept by the other branch.", "quantifier": "all pairs of low-rank matrices of equal dimensions", "why_tests_cant": "All ranks and dimensions, including the boundary where the branch switches.", "anchors": ["src/operations/arithmetic/addition.cpp: naive_addition"]}
{"id": "C26", "title": "Rounded low-rank addition only discards the truncated tail", "statement": "In rounded addition and fast rounded addition the matrix that is passed through the final SVD truncation represents exactly A+B; hence the result equals A+B minus the discarded singular part, it is exactly A+B when nothing is discarded, and the factors have consistent dimensions and the requested rank. No matrix of the same rank is closer to A+B in the Frobenius norm than the result of rounded addition; the same holds for fast rounded addition if A has orthonormal factors and B adds only new directions, and fast rounded addition is exact if the columns of B lie in the span of those of A.", "quantifier": "all pairs of low-rank matrices (any ranks, any dimensions, any eps setting) and any QR/RQ/SVD routine satisfying its factorization equation", "why_tests_cant": "Algebraic identity over all inputs; floating-point tests only see approximate equality.", "anchors": ["src/operations/arithmetic/addition.cpp: rounded_addition, fast_rounded_addition"]}
{"id": "C27", "title": "The SVD truncation rank meets the requested tolerance", "statement": "find_svd_truncation_rank returns a rank between 1 and the number of singular values such that the discarded tail is at most eps times the norm of all singular values.", "quantifier": "all non-increasing non-negative singular value sequences, all eps >= 0", "why_tests_cant": "Real-valued inputs, all lengths.", "anchors": ["src/operations/misc/misc.cpp: find_svd_truncation_rank"]}
{"id": "C28", "title": "Triangular multiplication is multiplication with the triangle", "statement": "trmm(A,B,side,uplo,trans,diag,alpha) makes B represent alpha*op(tri(A))*B or alpha*B*op(tri(A)), where tri(A) keeps only the selected triangle (with unit diagonal if requested), for dense, low-rank and hierarchical operands of any nesting.", "quantifier": "all recursive operands with conforming structure, all sides, triangles, scalars", "why_tests_cant": "In-place recursion over blocks: the order of updates matters and is only exercised at larger block counts.", "anchors": ["src/operations/BLAS/trmm.cpp"]}
{"id": "C29", "title": "Triangular solves invert triangular multiplication", "statement": "trsm(A,B,uplo,side) overwrites B with X such that tri(A)*X = B (or X*tri(A) = B), lower triangles being unit triangular, for dense, low-rank and hierarchical operands for which it is defined.", "quantifier": "all recursive operands with conforming structure and invertible diagonal blocks", "why_tests_cant": "Recursive block substitution over all block counts and nestings.", "anchors": ["src/operations/BLAS/trsm.cpp"]}
{"id": "C30", "title": "Block LU factorization reproduces the matrix", "statement": "getrf on a hierarchical matrix returns L and U, lower and upper block triangular, whose triangular product equals the input, provided no pivoting was needed in diagonal dense blocks and low-rank updates are exact; the input is consumed.", "quantifier": "all hierarchical matrices with conforming square structure", "why_tests_cant": "Induction over elimination steps at every level.", "anchors": ["src/operations/LAPACK/getrf.cpp"]}
{"id": "C31", "title": "Factor and solve gives the solution of the linear system", "statement": "After getrf(A) and trsm with the lower factor then with the upper factor, B holds X with A*X = B_original.", "quantifier": "all hierarchical matrices and right-hand sides satisfying the conditions of the two previous properties", "why_tests_cant": "Composition of recursive algorithms over all sizes.", "anchors": ["src/operations/LAPACK/getrf.cpp", "src/operations/BLAS/trsm.cpp"]}
{"id": "C32", "title": "Blocked Householder BLR-QR is a factorization", "statement": "After blocked_householder_blr_qr, applying Q (left_multiply_blocked_reflector) to the upper triangular factor R gives the original matrix, and applying Q transposed undoes applying Q.", "quantifier": "all block counts p x q and block sizes, any reflector kernels satisfying their contract", "why_tests_cant": "Loop order over block columns, all block counts.", "anchors": ["src/operations/LAPACK/qr.cpp: blocked_householder_blr_qr, left_multiply_blocked_reflector, triangularize_block_col, apply_block_col_householder"]}
{"id": "C33", "title": "Tiled Householder BLR-QR is a factorization", "statement": "After tiled_householder_blr_qr, applying Q (left_multiply_tiled_reflector) to the upper triangular factor R gives the original matrix, and applying Q transposed undoes applying Q.", "quantifier": "all block counts p x q, any reflector kernels satisfying their contract", "why_tests_cant": "Nested loop order reversal over all block counts.", "anchors": ["src/operations/LAPACK/qr.cpp: tiled_householder_blr_qr, left_multiply_tiled_reflector", "src/operations/LAPACK/tpqrt.cpp", "src/operations/LAPACK/tpmqrt.cpp"]}
{"id": "C34", "title": "Block Gram-Schmidt QR is a factorization", "statement": "mgs_qr on a block low-rank matrix yields Q and R with Q*R equal to the input, R block upper triangular.", "quantifier": "all block counts, all block kinds", "why_tests_cant": "Loop invariant over all block counts.", "anchors": ["src/operations/LAPACK/mgs_qr.cpp"]}
{"id": "C35", "title": "Splitting a block column into dense and low-rank parts and restoring it is lossless", "statement": "split_by_column / concat_columns / restore_block_col round-trip: the block column reassembled from the stacked factors represents the same matrix.", "quantifier": "all block columns (any mixture of dense, low-rank, nested blocks), all ranks", "why_tests_cant": "Index bookkeeping with running offsets over arbitrary mixtures.", "anchors": ["src/operations/LAPACK/mgs_qr.cpp: split_by_column, concat_columns, restore_block_col"]}
{"id": "C36", "title": "Task-parallel tiled QR is schedule independent and race free", "statement": "Under the declared task dependences, every execution order permitted by OpenMP leaves every block of A, T and Q with the value the sequential program order gives; two tasks that may run concurrently never write a part of a block the other accesses.", "quantifier": "all block counts p >= q, all dependence-respecting schedules, all tile kernels", "why_tests_cant": "Exponentially many interleavings; missing dependences show up rarely.", "anchors": ["examples/taskbased_tiled_householder_blr_qr.cpp: main"]}
{"id": "C37", "title": "Fork-join parallel loops are schedule independent", "statement": "In the fork-join tiled and blocked QR programs the iterations of each parallel loop write disjoint blocks and read nothing another iteration writes, so the result is the sequential one for every thread schedule.", "quantifier": "all block counts, all iteration orders, all kernels", "why_tests_cant": "All interleavings.", "anchors": ["examples/forkjoin_tiled_householder_blr_qr.cpp", "examples/forkjoin_blocked_householder_blr_qr.cpp"]}
{"id": "C38", "title": "Morton index conversion is a bijection", "statement": "Converting cartesian grid indices to a Morton index and back returns the original indices, and conversely; indices below 2^level in d dimensions map one-to-one onto 0 .. 2^(d*level)-1.", "quantifier": "all dimensions d >= 1, all levels, all indices (below the integer-width limit)", "why_tests_cant": "Bit-level loop over all levels and dimensions.", "anchors": ["src/operations/misc/morton_index.cpp: getMortonIndex, getCartesianIndex"]}
{"id": "C39", "title": "Morton sorting only reorders the points", "statement": "After sortByMortonIndex, perm is a permutation of 0..n-1, the new coordinates are the old ones read through perm in every dimension simultaneously, and box numbers are non-decreasing; every box number is in range.", "quantifier": "all point sets, all dimensions, all levels", "why_tests_cant": "All inputs; consistency across dimensions.", "anchors": ["src/operations/misc/morton_index.cpp: sortByMortonIndex, normalizeWithinBox, getBoxNumber"]}
{"id": "C40", "title": "Timers account for exactly the time between matching start and stop", "statement": "For every well-nested sequence of start/stop calls, each timer accumulates exactly the sum of its run intervals and run count, nested under the timer that was running when it started; after all stops the running timer is the root. A stop that does not match the running timer is rejected.", "quantifier": "all operation histories", "why_tests_cant": "All histories of start/stop/clear.", "anchors": ["src/util/timer.cpp"]}
{"id": "C41", "title": "Global settings: last explicit value wins over the environment", "statement": "getGlobalValue(k) returns the value of the last setGlobalValue(k, ...) if there was one, otherwise the environment variable's value, otherwise the empty string; setting one key never changes another.", "quantifier": "all histories of set/get, all keys, all environments", "why_tests_cant": "All histories.", "anchors": ["src/util/global_key_value.cpp"]}
{"id": "C42", "title": "Reading a block of a matrix file gives that block", "statement": "Reading rows [r,r+m) and columns [c,c+n) from a well-formed text file written row-major or column-major gives exactly those entries of the matrix in the file.", "quantifier": "all matrices, both layouts, all blocks inside the matrix, all numeric texts", "why_tests_cant": "All block positions; the skipping logic depends on separators and line ends.", "anchors": ["src/classes/initialization_helpers/matrix_initializer_file.cpp: fill_dense_representation"]}
{"id": "C43", "title": "Interpolative decomposition selects real columns", "statement": "one_sided_id returns distinct column indices inside the matrix and V such that the selected columns are reproduced exactly and A = A[:,selected]*V whenever the discarded part of the pivoted QR is zero; the two-sided version yields A = U*S*V under the same condition.", "quantifier": "all dense matrices, all ranks, any pivoted-QR routine satisfying its contract", "why_tests_cant": "All inputs; index permutation bookkeeping.", "anchors": ["src/operations/LAPACK/id.cpp: one_sided_id, id, interleave_id, get_cols"]}
{"id": "C44", "title": "Randomized compression is projection onto the sampled range", "statement": "rsvd(A,k) returns factors with U*S*V = Q*Q^T*A for the computed orthonormal basis Q, independent of the random sample otherwise; hence it is exact whenever the sample spans the column space of A; dimensions of the factors are consistent and the low-rank constructor returns the requested rank.", "quantifier": "all dense matrices, all sample sizes, all random samples", "why_tests_cant": "All samples.", "anchors": ["src/operations/randomized/rsvd.cpp: rsvd, old_rsvd", "src/operations/randomized/rid.cpp", "src/classes/low_rank.cpp: LowRank::LowRank"]}
{"id": "C45", "title": "Truncated pivoted QR keeps A = Q*R up to the trailing block", "statement": "In truncated_geqp3 at every step the pivot bookkeeping is a permutation and the orthogonal transformation of the permuted matrix is preserved; on return Q*R equals A exactly when the loop ran to completion, and otherwise differs from A only by the untouched trailing block.", "quantifier": "all dense matrices, all eps, all pivot choices", "why_tests_cant": "Loop invariant over all steps.", "anchors": ["src/operations/LAPACK/geqp3.cpp: truncated_geqp3"]}
{"id": "C46", "title": "Unsupported operand combinations abort instead of returning a wrong value", "statement": "For each public operation the set of operand type combinations with an implementation is exactly the documented dispatch table; every other combination terminates the program through the error handler and never returns.", "quantifier": "all operations, all operand type tuples (including matrices nested at any depth)", "why_tests_cant": "Cross product of operations and type tuples at every nesting level.", "anchors": ["src/operations/BLAS/gemm.cpp", "src/operations/BLAS/trmm.cpp", "src/operations/BLAS/trsm.cpp", "src/operations/arithmetic/addition.cpp", "src/util/omm_error_handler.cpp"]}
{"id": "C47", "title": "Matrix handles have value semantics", "statement": "Copying a matrix handle copies the matrix deeply at any nesting (later changes to either are not visible in the other), moving transfers the content unchanged, and extracting a concrete type succeeds exactly if the handle holds that type.", "quantifier": "all recursive matrices, all histories of copies and writes", "why_tests_cant": "Deep structure and all later histories.", "anchors": ["src/classes/matrix_proxy.cpp: MatrixProxy, clone, move_clone", "src/classes/hierarchical.cpp: move_from_hierarchical", "src/classes/dense.cpp: move_from_dense"]}
{"id": "C48", "title": "Reported memory is the number of stored elements", "statement": "get_memory_usage of a matrix is 8 bytes per stored floating-point number summed over all blocks (dense: m*n, low-rank: m*r+r*r+r*n), plus the fixed per-object overhead when requested; it is additive over blocks.", "quantifier": "all recursive matrices", "why_tests_cant": "Arbitrary nesting.", "anchors": ["src/util/get_memory_usage.cpp"]}
{"id": "C49", "title": "Structure export lists every leaf block once at its place", "statement": "The exported JSON structure mirrors the block tree: each block appears exactly once, with its level and the absolute block coordinates that locate it in the matrix.", "quantifier": "all recursive matrices", "why_tests_cant": "Arbitrary nesting.", "anchors": ["src/util/print.cpp: write_JSON, to_json"]}
{"id": "C50", "title": "Equally spaced sample points lie in the requested interval", "statement": "equallySpacedVector(N, min, max) returns N increasing, equally spaced numbers inside [min, max].", "quantifier": "all N, all min < max", "why_tests_cant": "Real-valued parameters.", "anchors": ["src/operations/misc/misc.cpp: equallySpacedVector"]}
{"id": "C51", "title": "Resizing keeps the leading block", "statement": "resize(A,m,n) with m,n not larger than A's dimensions returns the leading m-by-n block of A and leaves A unchanged; larger sizes are rejected.", "quantifier": "all dense matrices and sizes", "why_tests_cant": "All sizes.", "anchors": ["src/operations/misc/resize.cpp"]}
{"id": "C52", "title": "Low-rank factors always fit together", "statement": "Every low-rank matrix produced by any library operation (construction, split, transpose, addition, multiplication, scaling, zeroing) has factors U: m x r, S: r x r, V: r x n with m,n its dimensions and r its recorded rank.", "quantifier": "all histories of library operations on low-rank matrices", "why_tests_cant": "Invariant over all histories.", "anchors": ["src/classes/low_rank.cpp", "src/operations/arithmetic/addition.cpp", "src/operations/misc/misc.cpp: split_omm", "src/operations/misc/transpose.cpp"]}
{"id": "C53", "title": "The H-LU program solves its linear system", "statement": "The H-LU example builds a hierarchical matrix A from a kernel, multiplies it with a vector x, factorizes A and solves with the factors. If the kernel matrix is strictly diagonally dominant by columns, compression of admissible blocks is exact, and the problem size is the leaf size (or less) times a power of the block count (or the weakest admissibility is used with two blocks per direction), then the program finishes, the computed solution equals x, and both squared error numerators are 0. For other sizes the factorization may abort.", "quantifier": "all kernels, problem sizes, leaf sizes, admissibility constants, block counts, vectors", "why_tests_cant": "All sizes and nesting depths; end-to-end composition of construction, product, factorization and two solves.", "anchors": ["examples/h_lu.cpp: main", "src/classes/hierarchical.cpp", "src/operations/LAPACK/getrf.cpp", "src/operations/BLAS/trsm.cpp", "src/operations/BLAS/gemm.cpp"]}
{"id": "C54", "title": "The block low-rank QR programs return an orthogonal Q and add no error of their own", "statement": "The blocked and the tiled Householder QR example programs build an m-by-n kernel matrix in b-by-b tiles, factorize it, form Q explicitly and print three errors: of the compression, of Q*R, and of Q^T*Q. For every m = p*b and n = q*b with 1 <= q <= p and 1 <= b they finish; with exact arithmetic on tiles the error of Q*R equals the compression error and Q^T*Q is the identity; without compression all three are 0. More columns than rows, or a tile size that does not divide the sizes, is rejected.", "quantifier": "all tile sizes and tile counts, kernels, admissibility constants, tolerances", "why_tests_cant": "All sizes; end-to-end composition of construction, factorization, explicit Q and triangular product.", "anchors": ["examples/blocked_householder_blr_qr.cpp: main", "examples/tiled_householder_blr_qr.cpp: main", "src/operations/LAPACK/qr.cpp", "src/operations/BLAS/trmm.cpp", "src/util/l2_error.cpp"]}
{"id": "C55", "title": "Block Gram-Schmidt QR returns an orthonormal Q for full-rank input, and its program reports so", "statement": "mgs_qr(A,Q,R) on a block matrix whose columns are linearly independent returns a Q with orthonormal columns (if low-rank additions are exact and keep left factors orthonormal, or if nothing is compressed), and it returns for every grid of consistent tiles that has a dense tile, at least as tall as wide, in each column. The block low-rank Gram-Schmidt example program finishes for every m = p*b and n = q*b with 1 <= q <= p and 1 <= b; without rounding the error of Q*R that it prints equals the compression error and the orthogonality error is 0; with the shipped kernel and no compression all three are 0. Sizes that are not multiples of b, or more columns than rows, are rejected.", "quantifier": "all block matrices, tile sizes and counts, kernels, admissibility constants, tolerances", "why_tests_cant": "All sizes; end-to-end composition of construction, factorization, triangular product and transposed product.", "anchors": ["src/operations/LAPACK/mgs_qr.cpp", "examples/blocked_mgs_blr_qr.cpp: main", "src/operations/BLAS/gemm.cpp", "src/operations/BLAS/trmm.cpp"]}
{"id": "C56", "title": "Kernel matrices are invertible, Laplace and Helmholtz matrices positive definite", "statement": "For pairwise different points in any number of dimensions the square matrix built from the Laplace or the Helmholtz kernel is symmetric positive definite; it is singular exactly if two points coincide. The matrix built from the Cauchy kernel is nonsingular if its row points are pairwise different, its column points are pairwise different and no denominator vanishes.", "quantifier": "all numbers of points, dimensions, coordinates and offsets", "why_tests_cant": "All real coordinates and sizes; positive definiteness is a statement about all vectors.", "anchors": ["src/functions.cpp: laplacend, helmholtznd, cauchy2d", "src/classes/dense.cpp: Dense(kernel, ...)"]}
{"id": "C57", "title": "The hierarchical Gram-Schmidt QR program finishes for every argument and adds no error of its own", "statement": "The hierarchical QR example program builds an N-by-N kernel matrix with b blocks per direction at each of L levels (N = n0*b^L for leaf size n0), factorizes it by block Gram-Schmidt and prints three errors: of the compression, of Q*R, and of Q^T*Q. For every n0 >= 1, b >= 2, L >= 1 and admissibility >= 0 it finishes (so the shipped program finishes for every command line argument); without rounding in low-rank operations the error of Q*R equals the compression error and Q^T*Q is the identity if the compressed matrix has independent columns; with no compression and distinct points (arguments 0 and 1) all three errors are 0. Block Gram-Schmidt itself returns on every regularly nested matrix, at any depth.", "quantifier": "all leaf sizes, block counts, nesting depths, kernels, point sets, admissibility constants, tolerances, command line arguments", "why_tests_cant": "All sizes and nesting depths; end-to-end composition of construction, recursive factorization, triangular product and transposed product.", "anchors": ["examples/blocked_mgs_h_qr.cpp: main", "src/operations/LAPACK/mgs_qr.cpp", "src/classes/hierarchical.cpp", "src/classes/cluster_tree.cpp"]}
{"id": "C58", "title": "The parallel QR programs print what the sequential ones print, for every schedule", "statement": "The four parallel block low-rank QR example programs (task-based and fork-join tiled Householder, fork-join blocked Householder, fork-join Gram-Schmidt) build the matrix, factorize it and form Q in parallel, and print three errors. For every m = p*b and n = q*b with 1 <= q <= p and 1 <= b, each program can finish, and whatever the order in which threads run the tasks it prints the same numbers; the Householder programs print exactly what the sequential program of the same algorithm prints. Without rounding in tile operations the error of Q*R equals the compression error and Q^T*Q is the identity (for Gram-Schmidt: if the compressed columns are independent). Sizes that are not multiples of b, or more columns than rows, are rejected.", "quantifier": "all tile sizes and counts, kernels, admissibility constants, tolerances, task schedules and interleavings", "why_tests_cant": "Schedules cannot be enumerated by tests; the claim composes construction, concurrent factorization, concurrent products and error evaluation for all sizes.", "anchors": ["examples/taskbased_tiled_householder_blr_qr.cpp: main", "examples/forkjoin_tiled_householder_blr_qr.cpp: main", "examples/forkjoin_blocked_householder_blr_qr.cpp: main", "examples/forkjoin_blocked_mgs_blr_qr.cpp: main"]}
{"id": "C59", "title": "The low-rank addition program adds no error of its own", "statement": "The low-rank addition example program compresses the same N-by-N kernel block twice to a given rank, adds the two results in the default, naive and rounded mode, and prints the relative error of each sum against the doubled block. For every rank <= N it finishes; default and rounded mode print exactly the relative error of the compression itself, and so does naive mode if 2*rank < N. A rank larger than N is rejected.", "quantifier": "all sizes, ranks, kernels, point sets", "why_tests_cant": "All sizes and ranks; the equality of the printed numbers holds exactly only in exact arithmetic, a test sees rounding.", "anchors": ["examples/lr_add.cpp: main", "src/operations/arithmetic/addition.cpp", "src/classes/low_rank.cpp: LowRank(Dense, rank)", "src/util/l2_error.cpp"]}
{"id": "C60", "title": "Point sets are what the file or the generator holds", "statement": "read_geometry_file returns, for every file that announces n points in dim dimensions and holds at least n*dim numbers (any white space), dim lists of n numbers: entry i of list j is coordinate j of point i; further text is ignored; all lists always have the same length. A file with too few numbers is accepted, each missing coordinate becomes the last number in the file; a file that cannot be opened, or holds no number after its header, makes the function use uninitialized variables. get_sorted_random_vector(N) returns N numbers of the generator in non-decreasing order, get_non_negative_vector(N) returns 0..N-1. Laplace and Helmholtz matrices on such points are positive definite if no point occurs twice.", "quantifier": "all files (sizes, dimensions, numbers, white space), all random sequences, all N", "why_tests_cant": "All file contents; undefined behaviour for missing files need not show in a test.", "anchors": ["src/util/geometry_file.cpp: read_geometry_file", "src/util/experiment_setup.cpp: get_sorted_random_vector, get_non_negative_vector"]}
{"id": "C61", "title": "A requested accuracy is met", "statement": "Compressing an m-by-n block with tolerance eps gives a low-rank matrix of the same dimensions with orthonormal outer factors whose error is, column by column, at most eps times the Frobenius norm of the block (or machine precision), hence in Frobenius norm at most sqrt(n)*eps times it; the factor sqrt(n) cannot be improved (a matrix of ones compressed with eps = 1/sqrt(n) becomes zero). A hierarchical matrix built from a kernel or from a dense matrix with tolerance eps has, whatever its sizes, block counts, nesting and admissibility, a relative Frobenius error of at most sqrt(n)*eps up to machine precision, so l2_error reports at most that; the block low-rank QR programs print a compression error of at most sqrt(b)*eps for tile size b.", "quantifier": "all blocks, tolerances, kernels, sizes, block counts, nesting depths, admissibility conditions", "why_tests_cant": "Bounds for all matrices; the worst case (all ones) is not what test matrices look like, and errors of blocks add up over arbitrary trees.", "anchors": ["src/classes/low_rank.cpp: LowRank(Dense, eps)", "src/operations/LAPACK/geqp3.cpp: truncated_geqp3", "src/classes/hierarchical.cpp: Hierarchical(kernel, ...), Hierarchical(Dense, ...)", "src/util/l2_error.cpp", "examples/blocked_householder_blr_qr.cpp", "examples/tiled_householder_blr_qr.cpp"]}
{"id": "C62", "title": "The exported document describes the matrix completely", "statement": "The export example program builds the hierarchical matrix of the one-dimensional Laplace kernel on N sorted random points with two block rows and columns, and writes it as a JSON document. For every N, leaf size nleaf >= 1 and admissibility constant it finishes. In the document, the object reached through nested positions has the dimensions that repeated halving of 0..N-1 gives (the first half is the larger), its nesting depth as level and its block row and column at that depth as position. It is a low-rank leaf exactly if it has more than one row and column and block row and column are more than the constant apart, with the rank and singular values of the compressed kernel block; otherwise a dense leaf exactly if it has at most nleaf rows and columns, with the singular values of the kernel block; otherwise it has two by two children. Every matrix entry lies in exactly one leaf, level and position identify an object, and low-rank leaves are accurate to the tolerance (C61).", "quantifier": "all N, nleaf >= 1, admissibility constants, random points, tolerances", "why_tests_cant": "Nested structure of unbounded depth for all sizes; a test compares a few documents.", "anchors": ["examples/Hmatrix_to_json.cpp: main", "src/util/print.cpp: to_json, write_JSON", "src/classes/hierarchical.cpp: Hierarchical(kernel, ...)", "src/classes/initialization_helpers/cluster_tree.cpp: ClusterTree"]}
{"id": "C63", "title": "In-place arithmetic on tiles of one matrix gives what it gives on separate matrices", "statement": "Dense matrices may be parts of the same larger matrix (split without copying, nested splits, shallow copies). A program of in-place operations (fill, copy_to, +=, scaling, gemm with all transposition flags, trmm, trsm, larfb, geqrt, tpqrt, tpmqrt) on matrices that have no stored element in common finishes whenever it does on the values, leaves every matrix with exactly the entries the same operations give on independent copies, and changes no element outside its targets; for the tiles of a split the large matrix afterwards consists of the results. A += A doubles A. mgs_qr does so for matrices without gaps between rows. Without these conditions it fails: += on overlapping parts adds already changed entries, gemm with an empty inner dimension hands BLAS a leading dimension it forbids, and mgs_qr of a part of a matrix reads and changes elements outside that part.", "quantifier": "all reachable memories (any history of constructions, copies, splits, moves, writes), all sets of disjoint matrices, all programs of the operations, all sizes and strides", "why_tests_cant": "Aliasing errors depend on how the operands are stored, not on their values; tests use a few layouts, mostly whole matrices.", "anchors": ["src/classes/dense.cpp: Dense::split, operator(), operator&, copy_to, operator=(double)", "src/operations/BLAS/gemm.cpp", "src/operations/BLAS/trmm.cpp", "src/operations/BLAS/trsm.cpp", "src/operations/arithmetic/addition.cpp", "src/operations/arithmetic/multiplication.cpp", "src/operations/LAPACK/larfb.cpp", "src/operations/LAPACK/geqrt.cpp", "src/operations/LAPACK/tpqrt.cpp", "src/operations/LAPACK/tpmqrt.cpp", "src/operations/LAPACK/mgs_qr.cpp: mgs_qr_omm(Dense, Dense, Dense)"]}
{"id": "C64", "title": "The timing report lists each timer once with its time, and shares of at most 100 percent", "statement": "After any well-nested use of the timers with a clock that never goes back, printTime(event, depth) and stopAndPrint print one line for every timer at most depth levels below event, labelled with its name and level, with the total time spent there; a timer comes before those inside it, these follow without anything else between, and siblings come in order of decreasing time. For every timer above the last level that has others inside there is one percentage, the nearest integer to the share of its time spent in them, between 0 and 100. get_subtimers holds exactly the names used directly inside with their totals. Asking for a timer that was never used violates an assertion. If a timer with others inside took no time at all, the report divides zero by zero and converts the result to an integer (undefined behaviour).", "quantifier": "all well-nested histories of starts and stops with non-decreasing clock readings, all event names, all depths, all sorting routines allowed by the standard", "why_tests_cant": "The order and the shares depend on measured times, which a test does not control; nesting and number of timers are unbounded.", "anchors": ["src/util/timer.cpp: printTime, stopAndPrint, Timer::print_to_depth, Timer::get_subtimers"]}
{"id": "C65", "title": "The printed form of a matrix determines the matrix", "statement": "Two matrices with something to print (at least one row and column, or block row and block column, or factors) for which print writes the same text have the same class, the same block structure at every level, and the same entries, or entries of the factors, as far as they are written. Conversely the text depends on nothing else. The size of empty blocks and the number of columns of a matrix without rows do not show.", "quantifier": "all matrices: dense, low-rank and hierarchical of any depth and block counts, including blocks without elements", "why_tests_cant": "Unambiguity is a statement about all pairs of matrices; a test compares single outputs.", "anchors": ["src/util/print.cpp: print(const Matrix&), print_omm, type"]}
{"id": "C66", "title": "Computed norms and errors are accurate in floating-point arithmetic", "statement": "In any arithmetic whose operations have a relative error of at most u, norm of a matrix of any block structure is, up to a factor between (1-u)^K and (1+u)^K, the sum of squares of numbers that agree with the entries: exactly in dense blocks, up to the error of two matrix products in low-rank blocks; K counts the operations an entry passes through. l2_error is the exact relative error of two such approximations up to a similar factor; without low-rank blocks it is the relative error of the two matrices and is zero exactly if they are equal.", "quantifier": "all arithmetics with relative error u < 1 per operation, all matrices and pairs of matrices of any block structure and depth", "why_tests_cant": "Rounding errors depend on every entry and on the block structure; a test samples a few matrices and compares with tolerances chosen by hand.", "anchors": ["src/operations/misc/norm.cpp: norm", "src/util/l2_error.cpp: l2_error, collect_diff_norm", "src/classes/dense.cpp: fill_dense_from"]}
{"id": "C67", "title": "Random matrices are the same in every run", "statement": "A matrix filled with random_uniform or random_normal holds, row by row, the fixed sequence of numbers the generator produces from seed zero: it does not depend on the random device, on the offset of the block, on the stride, or on earlier calls. Two matrices with the same number of columns agree in the rows both have. Only the entries of the matrix are written. In a hierarchical matrix filled this way all dense blocks of equal size are equal, and so are all low-rank blocks of equal size; it is not the dense random matrix cut into blocks.", "quantifier": "all dimensions, strides, offsets, random generators and values of the random device; all hierarchical matrices made from such a kernel", "why_tests_cant": "A test cannot see every value of the random device or every block structure; that two blocks never differ is a statement about all of them.", "anchors": ["src/functions.cpp: random_uniform, random_normal", "src/classes/dense.cpp: Dense(kernel, ...)", "src/classes/hierarchical.cpp: Hierarchical(kernel, ...)"]}
{"id": "C68", "title": "Equal ids mean the same matrix", "statement": "Whatever a program did before, every initialised dense matrix has an id, and two initialised matrices for which id() returns the same have the same dimensions and the same stored elements: writing to one is writing to the other. A shallow copy has the id of its source and a moved matrix keeps its id; a new matrix, a copy and the target of an assignment get an id no other object has. (A view made by splitting without copying shares elements with its parent but never has its id, although the documentation gives matrices that share data the same id.)", "quantifier": "all programs of constructions, copies, assignments, shallow copies, splits with and without copying, moves, destructions and writes", "why_tests_cant": "Uniqueness ranges over all pairs of objects of all program histories; a test compares a few objects.", "anchors": ["src/classes/dense.cpp: Dense::id, next_unique_id, Dense(const Dense&), operator=, shallow_copy, split", "include/FRANK/classes/dense.h: unique_id"]}
{"id": "C69", "title": "A product of structured matrices written into a part of a larger matrix is right and touches nothing else", "statement": "gemm(A, B, C, alpha, beta, TransA, TransB) with A and B of any structure (dense, low-rank, hierarchical of any depth and mixture) and a dense C that may be a view of part of a larger matrix, computed through views of views of C: it returns or fails exactly as the product of the values of A, B and C does; when it returns, every matrix in memory that shares an element with C (the whole matrix, other views) shows alpha*op(A)*op(B)+beta*C there, and every element outside C is as before. Likewise, converting a structured matrix into such a C always returns for matching dimensions and writes exactly the entries of the matrix. (For the value of the product, op on products of a low-rank with a hierarchical matrix is as restricted in C21.)", "quantifier": "all programs that made the larger matrix and its views, all structures and sizes of A and B, all alpha, beta and transposition flags", "why_tests_cant": "Which elements are written depends on the recursion through nested views; a test checks a few structures and rarely looks at the surroundings of the target.", "anchors": ["src/operations/BLAS/gemm.cpp: gemm_omm", "src/classes/hierarchical.cpp: split", "src/classes/dense.cpp: fill_dense_from, Dense::split"]}
{"id": "C70", "title": "Truncation errors of structured products, solves and LU factorizations add up and are not amplified", "statement": "Call the largest change of an entry made by any single low-rank operation (addition of low-rank matrices, compression of a dense or hierarchical block) during a computation tau. Then every entry of the result of gemm on structured matrices is within 2*n*tau of alpha*op(A)*op(B)+beta*C, n the inner dimension; every equation of a triangular solve holds up to 2*n*tau; every entry of L*U of an LU factorization without row interchanges is within 2*n*tau of A; and factorizing and solving for a dense right-hand side gives the exact solution of a system whose matrix differs from A by at most 2*n*tau in each entry. The bounds do not depend on the depth of the structure, on the ranks or on the size of the entries. (No leaf of the operands is empty; op on products of a low-rank with a hierarchical matrix is as restricted in C21.)", "quantifier": "all structures, depths, sizes and entries, over any ordered field; all low-rank operations, all tau", "why_tests_cant": "A test measures the error of a few matrices; it cannot show that errors never accumulate faster for another structure or depth.", "anchors": ["src/operations/BLAS/gemm.cpp: gemm_omm", "src/operations/BLAS/trsm.cpp: trsm_omm", "src/operations/LAPACK/getrf.cpp: getrf_omm", "src/operations/arithmetic/addition.cpp: addition_omm"]}
{"id": "C71", "title": "The error the H-LU program prints is bounded by its truncation errors", "statement": "Let the columns of the kernel's matrix be diagonally dominant by at least gamma plus N times the largest change of an entry made by compressing a block, and let tau be the largest change of an entry made by a low-rank operation of the factorization. If gamma > 2*N^2*tau and the H-LU program (examples/h_lu.cpp) returns, for N = n0*b^L unknowns with n0 <= nleaf or for two blocks per direction, weak admissibility and nleaf >= 2, then no row is interchanged, the computed solution differs from the vector the program started from by at most 2*N^2*tau/(gamma-2*N^2*tau) times that vector in the 1-norm, and the square of the printed relative error is at most N*(2*N^2*tau/(gamma-2*N^2*tau))^2. Likewise for getrf and two trsm of any structured matrix without empty blocks whose diagonal blocks can be factorized.", "quantifier": "all diagonally dominant kernels, sizes, depths, admissibility conditions, compressions, low-rank operations and vectors; all structured matrices; any ordered field", "why_tests_cant": "A test reports the error of one kernel at one size; whether pivoting can occur after truncation and whether errors stay bounded at every depth is a statement about all of them.", "anchors": ["examples/h_lu.cpp: main", "src/operations/LAPACK/getrf.cpp: getrf_omm", "src/operations/BLAS/trsm.cpp: trsm_omm", "src/classes/hierarchical.cpp: Hierarchical(kernel, ...)"]}
{"id": "C72", "title": "A hierarchical matrix takes near-linear storage", "statement": "A hierarchical matrix of order N built with position-based admissibility constant a >= 0, b by b blocks per level, leaf size nleaf >= 1 and low-rank blocks of rank at most r >= 1 stores at most L*(2a+1)*(nleaf+3*b*r)*N numbers, where L is the logarithm to base b of N/nleaf, rounded up, and at least 1; get_memory_usage reports at most 8 times as many bytes (without object overhead). For m by n matrices the bound is L*(2a+1)*(nleaf*m+1.5*b*r*(m+n)) for every L with m, n <= nleaf*b^L. The same holds for matrices built from a dense matrix.", "quantifier": "all kernels, dimensions, block counts, leaf sizes, admissibility constants and ranks", "why_tests_cant": "A test measures a few sizes; that storage grows no faster than N log N for every size and parameter is a statement about all trees.", "anchors": ["src/classes/hierarchical.cpp: Hierarchical(kernel, ...), Hierarchical(Dense&&, ...)", "src/classes/initialization_helpers/cluster_tree.cpp: ClusterTree", "src/classes/initialization_helpers/matrix_initializer.cpp: is_admissible", "src/util/get_memory_usage.cpp: get_memory_usage"]}
{"id": "C73", "title": "The result of an operation depends only on what its operands store", "statement": "Call two matrices alike if they have the same structure (dense, low-rank, hierarchical with the same block grid at every level), dimensions, ranks and tolerances and store the same numbers. Products (gemm in both forms), triangular products (trmm), triangular solves (trsm), LU factorizations (getrf), additions in all three low-rank modes, compressions to low-rank form, scaling, transposition and conversion to a dense matrix, called with alike operands and the same other arguments, both return or both fail in the same way, and their results are alike. In particular no operation reads an element outside the dimensions of an operand.", "quantifier": "all pairs of alike operands of any structure, size and depth (every hierarchical matrix with at least one block), all scalars, flags, addition modes and external factorization kernels that read only their argument", "why_tests_cant": "A test compares a few calls; that nothing but the stored numbers can influence a result, at any depth of the recursion and also when the call fails, is a statement about all of them.", "anchors": ["src/operations/BLAS/gemm.cpp: gemm_omm", "src/operations/BLAS/trmm.cpp: trmm_omm", "src/operations/BLAS/trsm.cpp: trsm_omm", "src/operations/LAPACK/getrf.cpp: getrf_omm", "src/operations/arithmetic/addition.cpp: addition_omm", "src/classes/low_rank.cpp: LowRank", "src/classes/dense.cpp: fill_dense_from"]}
{"id": "C74", "title": "Triangular solves and products into part of a larger matrix", "statement": "trsm(A,B,uplo,side) and trmm(A,B,side,uplo,trans,diag,alpha) with a structured matrix A (stored elsewhere) and a Dense B that may be a part of a larger matrix, or split into parts itself, work in place on views of B and leave in B exactly what they would compute for a separate matrix with the same entries: a solution of tri(A)*X = B or X*tri(A) = B, or alpha*op(tri(A))*B or alpha*B*op(tri(A)). Every matrix that shares elements with B sees the new values, no other stored element changes, and the call fails exactly if it fails on the separate matrix.", "quantifier": "all memories reachable by creating, splitting, copying and updating matrices, all parts of matrices, all structures, depths and entries of A, both sides and triangles, all scalars", "why_tests_cant": "The recursion overwrites blocks that other blocks still need; a test checks a few layouts, but that no block is read after it was overwritten too early or written outside the part must hold for all.", "anchors": ["src/operations/BLAS/trsm.cpp: trsm_omm", "src/operations/BLAS/trmm.cpp: trmm_omm", "src/operations/misc.cpp: split", "src/classes/dense.cpp: split"]}
{"id": "C75", "title": "Products of structured matrices in floating-point arithmetic are as accurate as ordinary products", "statement": "Let every call of BLAS and every multiplication in gemm round, with unit roundoff u (each dgemm having the usual error bound for any order of summation). For operands A and B of any structure without empty leaves and a dense target C, or one split into dense blocks, with inner dimension k: gemm returns exactly if it returns in exact arithmetic, and otherwise fails with the same error; each entry of the result differs from alpha*op(A)*op(B)+beta*C by at most ((1+u)^(k*(3+w))-1) times |alpha|*|op(A)|*|op(B)|+|beta|*|C|, where the absolute values are those of the stored numbers (the factors, for low-rank blocks) and w is, for A and for B, the sum of the dimensions of the middle factor plus four for the largest low-rank block (0 without low-rank blocks). For stored numbers and scalars that are not negative the relative error is at most n*u/(1-n*u) with n = k*(3+w), if n*u < 1. The same for the version that returns a new matrix. (Transposed low-rank times hierarchical operands, which the library gets wrong, are excluded.)", "quantifier": "all structures, depths, sizes and entries of A, B and C, all alpha, beta and other transposition flags, all orders of summation in BLAS, all roundings with relative error u (no overflow or underflow)", "why_tests_cant": "A test sees the rounding errors of a few products; that no block structure, however deep, accumulates errors faster is a statement about all of them.", "anchors": ["src/operations/BLAS/gemm.cpp: gemm_omm", "src/operations/arithmetic/multiplication.cpp: operator*=", "src/operations/arithmetic/addition.cpp: addition_omm"]}
{"id": "C76", "title": "Triangular solves with structured matrices in floating-point arithmetic have small residuals", "statement": "Let every call of BLAS and every multiplication in trsm round, with unit roundoff u (dgemm and dtrsm having the usual error bounds for any order of the operations). For a matrix A of order n of any structure without empty leaves and a right-hand side B that is dense, split into dense blocks, or low-rank: if trsm returns X, then X has the structure of B and each entry of tri(A)*X - B (or X*tri(A) - B) is at most ((1+u)^(n*(3+w))-1) times |tri(A)|*|X|+|B|, where the absolute values are those of the stored numbers and w is the sum of the dimensions of the middle factor plus four for the largest low-rank block of A (0 without low-rank blocks). Without low-rank blocks every column (row) of X is the exact solution of a system whose triangular matrix differs from tri(A) by a relative error of 2g/(1-g) in each entry, g = (1+u)^(3n)-1, if g < 1. For regularly subdivided matrices trsm returns, unless an upper triangle has a zero on the diagonal.", "quantifier": "all structures, depths, sizes and entries of A and B, both triangles and sides, all orders of operations in BLAS, all roundings with relative error u (no overflow or underflow)", "why_tests_cant": "A test sees the residuals of a few systems, usually well conditioned ones; that the residual is small for every matrix and block structure is what makes the solve trustworthy.", "anchors": ["src/operations/BLAS/trsm.cpp: trsm_omm", "src/operations/BLAS/gemm.cpp: gemm_omm"]}
{"id": "C77", "title": "LU factorization of block matrices in floating-point arithmetic has small backward errors", "statement": "Let every call of BLAS and LAPACK and every multiplication in getrf, trsm and gemm round, with unit roundoff u (dgemm, dtrsm and dgetrf having the usual error bounds for any order of the operations). For a matrix A of order n split in any way into dense blocks that are not empty: if getrf returns L and U and no dgetrf interchanged rows, then L is lower triangular with ones on its diagonal, U is upper triangular, and each entry of L*U - A is at most g times |L|*|U|+|A|, g = (1+u)^(3n)-1, and, if g < 1, at most d times |L|*|U|, d = 2g/(1-g). If trsm with L and then with U returns for a right-hand side B split into dense blocks, each column x of the result exactly solves (A+E)x = b for a matrix E with |E| at most (3d+d^2)*|L|*|U|. For regularly subdivided A of fitting dimensions getrf returns or divides by a pivot that is exactly zero, nothing else can happen; once it has returned, the solve with L returns, and the solve with U unless a diagonal entry of U is zero. (Which way A and B are split does not enter the bounds.)", "quantifier": "all ways to split A and B into dense blocks, all depths, sizes and entries, all orders of operations in BLAS and LAPACK, all roundings with relative error u (no overflow or underflow)", "why_tests_cant": "A test sees the errors of a few factorizations, usually of well conditioned matrices; that subdividing a matrix never makes the elimination less stable than on a dense matrix is a statement about all of them.", "anchors": ["src/operations/LAPACK/getrf.cpp: getrf_omm", "src/operations/BLAS/trsm.cpp: trsm_omm", "src/operations/BLAS/gemm.cpp: gemm_omm"]}
{"id": "C78", "title": "Triangular products with structured matrices in floating-point arithmetic are as accurate as ordinary products", "statement": "Let every call of BLAS and every multiplication in trmm round, with unit roundoff u (dgemm and dtrmm having the usual error bounds for any order of the operations). For a matrix A of order n of any structure without empty leaves and a right-hand side B that is dense, split into dense blocks, or low-rank: trmm returns exactly if it returns in exact arithmetic, and otherwise fails with the same error; the result has the structure of B and each of its entries differs from alpha*op(tri(A))*B (or alpha*B*op(tri(A))) by at most ((1+u)^(n*(3+w))-1) times |alpha|*|op(tri(A))|*|B| (with the factors exchanged for the right side), where the absolute values are those of the stored numbers and w is the sum of the dimensions of the middle factor plus four for the largest low-rank block of A (0 without low-rank blocks). For regularly subdivided matrices of fitting dimensions trmm returns.", "quantifier": "all structures, depths, sizes and entries of A and B, both triangles and sides, unit or stored diagonal, all alpha, all orders of operations in BLAS, all roundings with relative error u (no overflow or underflow)", "why_tests_cant": "A test sees the rounding errors of a few products; that no block structure, however deep, accumulates errors faster is a statement about all of them.", "anchors": ["src/operations/BLAS/trmm.cpp: trmm_omm", "src/operations/BLAS/gemm.cpp: gemm_omm"]}
{"id": "C79", "title": "Tiled Householder QR in floating-point arithmetic is backward stable", "statement": "Let the LAPACK routines that factorize a tile and those that apply the reflectors of a tile have the usual backward error bounds with a relative error e, for tiles of the size in use. For a matrix A of p by q dense tiles, q at most p, whose diagonal tiles are at least as high as wide, tiled_householder_blr_qr returns, and there is an exactly orthogonal matrix P such that, with c the number of tiles on and below the diagonal: the upper triangle it leaves in A differs from P^T*A by at most ((1+e)^c-1) times the norm of A; for every block upper triangular C, left_multiply_tiled_reflector returns a matrix that differs from P*C by at most ((1+e)^c-1) times the norm of C; applying the transposed reflectors to this gives back C up to ((1+e)^(2c)-1) times the norm of C. If the diagonal tiles are square, the computed Q (from C the identity) and R satisfy |A-Q*R| <= (g+g*(1+g)*sqrt(N))*|A|, g = (1+e)^c-1, N the number of columns, and the columns of Q are orthonormal up to |Q^T*Q-I| <= 2*g*sqrt(N)+g^2*N. Norms are Frobenius norms.", "quantifier": "all numbers of tiles, all tile sizes and entries, all C, all LAPACK routines with the stated error bounds (no overflow or underflow)", "why_tests_cant": "A test sees the residual and the orthogonality of a few factorizations; that the errors of the tiles never amplify each other, for any number of tiles, is a statement about all of them.", "anchors": ["src/operations/LAPACK/qr.cpp: tiled_householder_blr_qr, left_multiply_tiled_reflector", "src/operations/LAPACK/geqrt.cpp: geqrt_omm", "src/operations/LAPACK/tpqrt.cpp: tpqrt_omm", "src/operations/LAPACK/larfb.cpp: larfb_omm", "src/operations/LAPACK/tpmqrt.cpp: tpmqrt_omm", "examples/tiled_householder_blr_qr.cpp: main"]}
{"id": "C80", "title": "The H-LU program in floating-point arithmetic prints the true error of a solution with a small residual", "statement": "Let every call of BLAS and LAPACK, every multiplication of the library and every operation of l2_error in the program h_lu round, with unit roundoff u. For n0*b^L unknowns, leaf size n0, b subdivisions in each direction and an admissibility condition strong enough that nothing is compressed, whatever the kernel and the vector x: the program returns, unless it divides by a pivot that is exactly zero; no assert fails and nothing else goes wrong. When it returns, the printed compression accuracy is exactly 0, and the printed LU accuracy is the relative distance of the computed solution z from x up to the roundings of the final norm. If no dgetrf interchanged rows, every entry of K*(z-x), K the kernel's matrix, is at most c*(|L|*|U|*|z|)+g*(|K|*|x|), with g = (1+u)^(3n)-1 and c = 3d+d^2, d = 2g/(1-g), n the number of unknowns; hence z-x itself is at most |inverse of K| times this, and for columns diagonally dominant by gamma the sum of |z-x| is at most the sum of these bounds divided by gamma.", "quantifier": "all kernels, all x, all leaf sizes, numbers of subdivisions and depths with g < 1, all orders of operations in BLAS and LAPACK, all roundings with relative error u (no overflow or underflow)", "why_tests_cant": "A run prints one number for one kernel and one vector, and cannot tell an error of the solver from an error of the printed norm; how far off the solution and the printed number may be is a statement about all of them.", "anchors": ["examples/h_lu.cpp: main", "src/operations/LAPACK/getrf.cpp: getrf_omm", "src/operations/BLAS/trsm.cpp: trsm_omm", "src/operations/BLAS/gemm.cpp: gemm_omm", "src/util/l2_error.cpp: l2_error"]}
{"id": "C81", "title": "The tiled QR program in floating-point arithmetic prints the true errors of nearly orthogonal factors", "statement": "Let the four tile routines of the program tiled_householder_blr_qr meet the usual backward error bounds with relative error eps, and let every product and every operation of l2_error round with unit roundoff u. For p-by-q tiles of order b with p at least q, and an admissibility constant for which nothing is compressed, whatever the kernel: the program returns and no assert fails. The printed compression error is exactly 0. With c the number of tiles on and below the diagonal, n = q*b, g = (1+eps)^c-1 and y = (1+u)^(3n)-1, the computed Q is within g*sqrt(n) of n columns of an exactly orthogonal matrix, so that the exact product of its transpose with it is within 2*g*sqrt(n)+g^2*n of the identity, the computed product Q*R is within (g+g*(1+g)*sqrt(n)+y*(1+g)^2*sqrt(n)) times the norm of the matrix of it, and the computed Q^T*Q is within ((1+eps)^(2c)-1)*sqrt(n) of the identity (Frobenius norms). The printed residual and orthogonality error are the relative sizes of these last two differences up to the roundings of the final norms, from above and from below, and so they are at most the displayed factors (without the sqrt(n) of the last one) times the roundings of the norm.", "quantifier": "all kernels, all numbers and orders of tiles, all tile routines that meet the bounds, all orders of operations in BLAS, all roundings with relative error u (no overflow or underflow)", "why_tests_cant": "A run prints three numbers for one kernel, and cannot tell errors of the factorization from errors of the check; how large they can be for any number of tiles is a statement about all runs.", "anchors": ["examples/tiled_householder_blr_qr.cpp: main", "src/operations/LAPACK/qr.cpp: tiled_householder_blr_qr, left_multiply_tiled_reflector", "src/operations/BLAS/trmm.cpp: trmm_omm", "src/util/l2_error.cpp: l2_error"]}
{"id": "C82", "title": "Parallel tiled QR in floating-point arithmetic gives bit for bit the sequential result, with its error bounds", "statement": "Let the four tile routines compute any numbers, rounded or not. Every execution of the task-parallel and of the fork-join program (factorization, construction of Q, product of the transposed reflectors with Q) ends with the same memory, whatever the schedule and whichever of the two programs is used; neither gets stuck. If larfb and tpqrt read only their own half of the diagonal tile, what is left are exactly the numbers of the sequential functions with the same routines; if moreover nothing is compressed and the routines have error bounds, both programs compute and print bit for bit what tiled_householder_blr_qr computes and prints, and always finish. If the routines have the usual backward error bounds with relative error e, then for p by q dense tiles, q at most p, with square diagonal tiles, every execution leaves Q and R with |A-Q*R| <= (g+g*(1+g)*sqrt(N))*|A|, g = (1+e)^c-1, c the number of tiles on and below the diagonal, N the number of columns, and a product of the transposed reflectors with Q that differs from the identity by at most ((1+e)^(2c)-1)*sqrt(N); the columns of Q are orthonormal up to 2*g*sqrt(N)+g^2*N (Frobenius norms).", "quantifier": "all executions (interleavings of the steps of all tasks) of both programs, all numbers of tiles, tile sizes and entries, all tile routines, with any number of steps per task", "why_tests_cant": "Floating-point operations are not associative, so a different schedule might well give different digits; a test sees a few schedules of a few matrices.", "anchors": ["examples/taskbased_tiled_householder_blr_qr.cpp: main", "examples/forkjoin_tiled_householder_blr_qr.cpp: main", "src/operations/LAPACK/qr.cpp: tiled_householder_blr_qr, left_multiply_tiled_reflector"]}
{"id": "C83", "title": "Sums, differences and multiples of matrices in floating-point arithmetic have small entrywise errors", "statement": "Let every floating-point operation round with unit roundoff u. Adding to a matrix A with dense leaves a matrix B (dense, low-rank, or subdivided, of fitting dimensions and subdivision) with += returns, keeps the structure of A, and each entry differs from the exact sum by at most ((1+u)^k-1) times the absolute value of the entry of A plus the sum of absolute values behind the entry of B, where k is 1 without low-rank blocks, and otherwise r+c+4 for the largest r-by-c middle factor in B. Without low-rank blocks in B each entry has relative error at most u. The addition fails exactly for the operands for which it fails in exact arithmetic, in the same way. The difference of two dense matrices of the same dimensions has entries with relative error at most u. Multiplying a matrix of any structure by a number b with *= returns, keeps the structure, and each entry differs from b times the old one by at most u*|b| times the sum of absolute values behind it. Adding two low-rank matrices in mode naive is exact, without any rounding, if the ranks add up to less than both dimensions, so that matrices of the same subdivision with such blocks are added with relative error at most u in each entry, and a low-rank matrix is added to a matrix with such blocks with the first bound above; otherwise what is truncated to the rank of the first is a dense matrix whose entries are off by one rounding and the errors of the two conversions to dense matrices; if the truncation is optimal among the matrices of its rank up to a factor and a multiple of the norm, so is the sum, up to these errors. The difference of dense matrices fails exactly if the dimensions differ.", "quantifier": "all structures and dimensions, all entries, all roundings with relative error u (no overflow or underflow), all orders of operations in BLAS", "why_tests_cant": "A test adds a few matrices and compares with a tolerance; that no entry of any nested sum is off by more than the roundings of its own terms is a statement about all inputs.", "anchors": ["src/operations/arithmetic/addition.cpp: operator+=, operator+", "src/operations/arithmetic/subtraction.cpp: operator-", "src/operations/arithmetic/multiplication.cpp: operator*="]}
