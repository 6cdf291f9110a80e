# Formal model of FRANK in Lean 4

The code under study is the C++ library in `/repo` (hierarchical / low-rank
matrix arithmetic).  The code is never run; it is read as text and modelled
function by function in `lean/Verif/`.  Every definition of the model cites the
file and lines it models.

## Layout

* `Verif/Model/*.lean`   the model (definitions only, each citing `/repo`).
* `Verif/Spec/*.lean`    small independent specifications used in statements.
* `Verif/Lemmas/*.lean`  helper lemmas and proofs.
* `Verif/Props/*.lean`   the property theorems, one file per group, with
  `example`s next to them showing that their hypotheses can be met.

## Modelling decisions

* **Scalars.** `double` is replaced by an arbitrary commutative ring (field,
  ordered field or the reals where division, order or square roots occur).
  Overflow, underflow and NaN are outside the model; rounding is modelled for
  `norm` and `l2_error` (C66) and for products into dense targets (C75), triangular solves (C76), LU factorization (C77), triangular products (C78) and tiled Householder QR on dense tiles (C79), and the programs `h_lu` and `tiled_householder_blr_qr` without compression (C80, C81) and the parallel tiled QR programs (C82), and for sums, differences and multiples of matrices (C83), with the standard model of floating-point
  arithmetic as contract of the operations.
* **Integers.** `int64_t`/`int` become `Int` or `Nat` without wrap-around.
  `IndexRange`/`ClusterTree` use `Int` because the code can produce negative
  lengths.
* **Failure.** Functions return `Except Err _`. `Err.assertFail` is a violated
  `assert`, `Err.abort` is `std::abort` (also after `omm_error_handler`),
  `Err.ub` is undefined behaviour (out-of-bounds access, null dereference,
  vector of negative size), `Err.fuel` means the step budget of the model was
  exhausted (non-termination shows up as exhaustion for every budget).
  Release builds define `NDEBUG`: there a failed assert means undefined
  behaviour, so theorems never claim anything about those runs.
* **Two levels of dense storage.**  `Model/Heap.lean` models `Dense` as it is:
  a view (buffer, stride, start) onto a heap of shared buffers; all aliasing
  properties (copy, assign, shallow copy, split, move) are stated there.  The
  algebraic operations use value-level matrices (`Model/Mat.lean`), where
  `split(C, ..., copy=false)` followed by in-place updates of the blocks is
  modelled by splitting, updating and joining.  The heap theorems (C13) say why
  this is what write-through views do; C63 proves it for whole programs:
  `Model/HeapOps.lean` models the loops and the BLAS/LAPACK calls by the stored
  elements they read and write (address `&A`, dimensions, leading dimension), with
  the contract of BLAS/LAPACK (leading dimension positive and large enough, targets
  disjoint from the other arguments) violated being `Err.ub`.  The value-level
  `Dense.gemm` has no leading dimensions: with an empty inner dimension it returns
  `beta*C`, where the code breaks the contract (`C63_empty_inner_fails`).
* **Multi-methods.** yomm2 dispatch becomes pattern matching on the four
  matrix kinds, the catch-all definition becomes `Err.abort`.
  `Model/Dispatch.lean` transcribes the list of definitions of every
  multi-method with yomm2's rule for choosing the most specific one; C46 shows
  that the choice is always unique and that the pattern matching aborts exactly
  where the table says so.
* **BLAS/LAPACK.** `cblas_dgemm` is modelled by its definition.  Factorizations
  (`dgetrf`, `dgeqrf`, `dgerqf`, `dgesvd`, `dgeqp3`, `dgeqrt3`, `dlarfb`,
  `dtpqrt`, `dtpmqrt`, `dtrsm`, ...) are parameters; each theorem lists as a
  hypothesis the equation it needs (for example `Q*R = A`).  Examples show
  that the hypotheses can be satisfied.
* **Low-rank matrices.** `LowRank.WF` only asks that the factors fit each other
  (`S` may be rectangular, as in products of low-rank matrices of different
  rank); `LowRank.Square` asks in addition for a square `S` of size `rank`.
  Low-rank addition and the compressing constructors enter `gemm` and `+=` as a
  record `LrOps`; `LrOps.Fits` (dimensions) and `LrOps.Exact` (values) are the
  contracts used, `LrOps.Total` the one for success.
* **Recursion of gemm.** `gemm_omm` calls itself through `gemm`; the model takes
  a budget for the recursion depth.  Partial correctness is proved for every
  budget.  `C` does not share storage with `A`, `B`.
* **Construction.** Negative block lengths (invalid equal splittings) are
  reported as `Err.ub`.  Compression is a parameter of the constructors.
* **Low-rank addition.** `Model/LrAdd.lean` models naive, rounded and fast
  rounded addition and the compressing constructors over a record `Lapack` of
  external routines; `Lapack.exists_contract` (via an existence proof of the SVD
  over the reals, `Lemmas/Svd.lean`) shows that the contracts are satisfiable.
  `Lapack.ops` is the resulting instance of `LrOps`; `Lapack.ops_fits` holds in
  all modes without hypotheses.
* **Triangular operations.** `Model/Tri.lean`: `cblas_dtrmm` by its definition,
  `cblas_dtrsm` as substitution (a zero diagonal or a too small triangle is
  `Err.ub`), `dgetrf` as a parameter that also reports whether it interchanged
  rows (`LuContract`).  The in-place block loops of `trsm` are modelled as loops
  over the block row/column; those of `trmm` work on a copy as in the code.
* **Householder QR.** `Model/Qr.lean`: `dlarfb` and `dtprfb` by their definition,
  `dgeqrt3` and `dtpqrt2` as parameters with `QrContract` (orthogonal reflector,
  `H^T A = R`); `QrKernels.exists_contract` proves over the reals that such routines
  exist.  Householder vectors inside low-rank tiles are lifted through the
  orthonormal left factors (`reflOrth_lift`).
* **Gram-Schmidt QR.** `Model/Mgs.lean`: block columns are functions from the block
  row; the split block column is a grid of optional blocks, reading an unassigned one
  is an assertion failure.  `dgeqrf`+`dorgqr` are the parameter `Lapack.qr` with
  contract `Lapack.Qr`; wide inputs are `Err.ub`.  The contents left in `A` are not
  modelled.
* **Heap of dense buffers.** `Model/Heap.lean`: an object is a view (buffer, stride,
  start); buffers are never freed (`shared_ptr` keeps them alive as long as any
  view exists, so freeing is unobservable); using an object that owns no buffer is
  `Err.ub`.  Ids (`unique_id`) are added by `Model/Ids.lean`; `Model/HeapGemm.lean` runs structured products on stored views, `Model/HeapTri.lean` triangular products and solves.  `Model/FloatGemm.lean` runs products in an arithmetic that rounds.  Theorems range over memories reachable by
  any history of operations (`Reach`).  `Model/Handle.lean` puts the handle class
  (`MatrixProxy`) and nested matrices on top of that heap.
* **Utilities.** `Model/Morton.lean` (shifts that leave their C++ type are `Err.ub`;
  `std::sort` is a parameter with the standard's guarantee `SortSpec`),
  `Model/Timer.lean` (a timer is addressed by its path of event names, because map
  nodes keep their address; clock readings are inputs), `Model/TimerReport.lean`
  (conversion of infinite, undefined or too large numbers to `int` is `Err.ub`),
  `Model/File.lean`
  (character-level stream with the good/eof state; number conversion is a
  parameter).
* **Pivoted QR.** `Model/Id.lean` takes `dgeqp3` as a parameter (`PivotedQr.Sound`,
  satisfiable by `PivotedQr.exists_sound`); `Model/Geqp3.lean` models the library's own
  `truncated_geqp3` with `dlarfg` as a parameter (`Geqp3Env.Sound`).  The value read
  through `end()` when all columns are used up is a parameter (`past`).
* **Concurrency.** `Model/OpenMP.lean` gives tasks with `depend` clauses and
  `parallel for` an interleaving semantics: a task is a list of atomic steps, a
  task may run once all earlier tasks with clashing clauses are complete.  Memory
  is sequentially consistent.  All tasks exist from the start, which allows more
  executions than OpenMP.  `Model/ParQr.lean` lists the tasks, clauses and accessed
  blocks of the QR programs; a tile of `A` is two cells, the part below the diagonal
  and the rest, because `larfb` and `tpqrt` share the diagonal tile.  That they use
  different halves holds for the modelled kernels (`larfb_lower`, `tpqrt_upper`) and is
  what LAPACK documents for `dlarfb` and `dtpqrt2`; copies made inside row-major
  LAPACKE wrappers are not modelled.  Global settings are only read and timers are
  not used by the tasks.
* **Example programs.** `Model/HLu.lean`, `BlrQr.lean`, `MgsProgram.lean`, `HQr.lean`,
  `ParProgram.lean`, `LrAddProgram.lean` compose the models of the library functions in
  the order of `main`.  A program returns the pairs (squared error, squared norm) that
  `l2_error` turns into the printed numbers; timing and output are left out.
* **Points.** `Model/Points.lean` reads geometry files with the stream of `Model/File.lean`;
  memory that is never written is `Err.ub` when read.
* **Random numbers, clock, environment, files** are parameters/inputs.

## Trusted base

* Lean 4 kernel; axioms at most `propext`, `Classical.choice`, `Quot.sound`
  (`#print axioms` is recorded for each property theorem in `Verif/Axioms.lean`).
* Mathlib definitions used in statements (`Finset.sum`, ring/field classes,
  `Real.sqrt`, `Equiv.Perm`, `List.Perm`, `Finset`).
* The reading of the C++ source that the citing comments document.
* The contracts of BLAS/LAPACK/standard library quoted as hypotheses.

Not modelled: floating-point rounding (except C66, C75–C83); integer overflow (except the
shifts of the Morton functions); number formats of `print` (C65 models its output as items);
yomm2 run-time initialisation; CMake; visualization scripts; performance.

## Mutation log

`seeded/LOG.jsonl` has one row per attempt, reruns included. An attempt edits one
definition of the model in a scratch copy and rebuilds.

* `claim`: the properties expected to break, as written down before the run. They
  are not edited afterwards. A `note` says where the expectation was wrong.
* `declarations_rejected`: the declarations in which Lean reported an error.
* `theorems_rejected`: the property theorems among them.
* `theorems_failed`: the property theorems that use a rejected declaration. Most
  are listed because a lemma they use no longer checks, not because Lean rejected
  the theorem itself.
* `outcome`: `caught` means that every property in `claim` has a theorem in
  `theorems_failed`. For most rows the theorem was only reached through a lemma.
  Such a row shows that the proof depends on the edited code. It does not show
  that no other proof of the theorem exists for the edited model, so it is weaker
  evidence than a row with a theorem of the claim in `theorems_rejected`.

Rows logged before this section was written kept only the first and last run of an
edit, and one (`gemmDDH`, C21) was labelled caught though C21 was not. The log is
now generated from all recorded runs.

## Plan per property

| id | what is modelled | how it is proved |
|----|------------------|------------------|
| C01 | `IndexRange::split` over `Int` | arithmetic of ceiling division; exact characterisation of when it partitions; counterexample for the rest (negative length) |
| C02 | `split_at`, `split_like` | induction on number of blocks |
| C03 | `ClusterTree` constructor with fuel | induction on the tree, uses C01 |
| C04 | same | decreasing size; for 1x1 blocks exhaustion for every fuel |
| C05 | same | induction on depth, mixed-radix numbering |
| C06 | `is_admissible` position based, `Hierarchical` constructor | equal abs_pos on the diagonal by induction |
| C07 | `is_admissible` geometry based over an ordered field | direct |
| C08 | constructor from a kernel, dense conversion | induction on the cluster tree |
| C09 | constructor from a dense matrix | corollary of C08's induction; counterexample for non-zero offsets |
| C10 | kernels of `functions.cpp` | direct |
| C11-C14 | heap model of `Dense` (buffer, stride, start), all constructors, assignment, views, moves | invariant of reachable memories, simulation for later histories (`Mem.run_sim`); counterexamples for copy assignment of strided views and self-assignment |
| C15-C20 | value model of the recursive matrices | structural induction with a block-location lemma |
| C21-C23 | `gemm_omm` all 27 combinations with fuel | partial correctness by induction on fuel; success for regular structures; counterexamples for the transposed LR x H branches |
| C24-C26 | additions | algebra of block matrices; best approximation by the Eckart-Young theorem (`Lemmas/EckartYoung.lean`) |
| C27 | truncation rank over the reals | loop invariant |
| C28-C31 | trmm, trsm, getrf, all operand kinds, recursion budget | block formulas for products with a triangle, substitution order as an involution, loop invariant of the elimination (`LuInv`), induction on the budget; C31 composes them. Totality (`Props/TriTotal`): the same recursions return on regular operands; for LU the pivots are those of Gaussian elimination (`Lemmas/Elim`), non-zero by diagonal dominance |
| C32 | blocked QR driver, `left_multiply_blocked_reflector` | each block column is a sequence of reflectors (`hops`), reversal of the sequence; success for tile matrices (`C32_returns`) |
| C33 | tiled QR driver, `geqrt`/`larfb`/`tpqrt`/`tpmqrt`, `left_multiply_tiled_reflector` | each block column is a sequence of two-tile reflectors (`thops`), reversal of the sequence; success for tile matrices (`C33_returns`) |
| C34 | Gram-Schmidt QR driver on block and dense matrices (`Model/Mgs.lean`) | loop invariant over block columns (`MgsInv`), induction on the budget for nested diagonal blocks; dense: orthonormality invariant over the reals |
| C35 | `split_block_col`, `restore_block_col` with their running offsets | offsets are partial sums of block rows (`splitLoop_spec`, `restoreBlockCol_spec`) |
| C36, C37 | task graphs and parallel loops of the examples with OpenMP dependence semantics | every conflict is covered by a chain of dependences (`Covered`), hence remaining steps commute (`Inv`); program order equals the sequential drivers (`tiledQr_holds`) |
| C38, C39 | Morton functions | digit induction; permutation of a sorted list |
| C40, C41 | timers, settings as state machines | induction on well-nested histories (`run_history`), invariant of all histories (`Timing.Inv`) |
| C42 | character-level reader | position invariant of the line loop (`read_lines`); counterexample for blanks before a newline |
| C43 | `one_sided_id`, `id`, `rid` over a pivoted-QR parameter | permutation bookkeeping of `interleave_id`, determinant of the leading triangle decides when the solve succeeds; counterexample for rank-deficient inputs |
| C44 | `rsvd`, `old_rsvd`, `rid`, the compressing constructors | projection algebra; `old_rsvd` exchanges two factors, witness `C44_old_rsvd_wrong` |
| C45 | `truncated_geqp3` step by step | loop invariant (`Geqp3.Inv`): permutation, orthogonal transformation, partial triangle |
| C46 | method tables and overload resolution (`Model/Dispatch.lean`); operations as elsewhere | case analysis over the class tuples; induction over nesting (`gemmBoth_touch`, `C46_*_nested`; `Lemmas/TriKinds.lean` for solves and LU) |
| C47 | handles (`MatrixProxy`) and nested matrices over the heap | deep-copy induction; frame argument for later histories |
| C48, C51 | utilities | structural induction |
| C49 | `to_json`/`write_JSON` as a tree of fields (`Model/Export.lean`) | induction on paths; mixed-radix positions are injective for uniform grids; counterexamples for `Empty` and unequal grids |
| C50 | `equallySpacedVector` over the reals | closed form; exact condition for staying inside; counterexample |
| C52 | all value-level operations; `Spec/Built.lean` is the closure of the interface | invariant `Built.wf` over all histories; shape lemmas for addition, gemm (all branches, also those that treat transposition wrongly), trmm, trsm, getrf |
| C53 | `main` of examples/h_lu.cpp (`Model/HLu.lean`) | structure of constructed matrices: sizes and admissibility decide which blocks are divided (`Spec/BuiltLu.lean`: `SizeRule`), so the diagonal is divided at least as far as the blocks beside it; then C22, C30, C29 composed; counterexample for an uneven size |
| C54 | `main` of examples/blocked_householder_blr_qr.cpp and examples/tiled_householder_blr_qr.cpp (`Model/BlrQr.lean`) | structure of the constructed tile grid (`Lemmas/Blr.lean`); the reflectors of C32/C33 as linear maps on tile columns, applied to the upper triangle and to the identity (`Lemmas/QrExplicit.lean`, `QrGrid.lean`, `BlrFacts.lean`); totality of each step; then `trmm` and `l2_error` composed |
| C55 | `mgs_qr` on block matrices (C34/C35's model) and `main` of examples/blocked_mgs_blr_qr.cpp (`Model/MgsProgram.lean`) | independence of the remaining columns as loop invariant, so each tile column handed to `dgeqrf` has full rank and earlier columns stay orthogonal (`Lemmas/MgsKeep.lean`, `MgsLift.lean`, `MgsOrth.lean`, `MgsOrthLoop.lean`); totality (`Lemmas/MgsTotal.lean`); then `trmm`, `transpose`, `gemm`, `l2_error` composed |
| C56 | the kernels of C10 (`Model/Kernels.lean`) and `Dense(kernel, ...)` | `1/(r+c)` as an integral of `1/(v²+r²)`, that as an integral of Gaussians, Gaussians by their power series; strictness from the limit of large exponents (`Lemmas/KernelPd.lean`). Cauchy: a polynomial of degree below `n` with `n` zeros. Used to make the dense part of C55 unconditional |
| C57 | `main` of examples/blocked_mgs_h_qr.cpp (`Model/HQr.lean`), composed of the models of construction, `mgs_qr`, `trmm`, `transpose`, `gemm`, `l2_error` | the cluster tree of `n0·b^L` points is uniform (`Lemmas/BuiltQr.lean`, induction over levels); block Gram-Schmidt returns on regularly nested matrices (`Lemmas/MgsNest.lean`, induction over the depth with a budget of 3 steps per level); then C34/C55 for the factors, C28 for `Q·R`, C56 for the independence of the shipped kernel's columns |
| C58 | `main` of the four parallel examples (`Model/ParProgram.lean`); the blocked jobs act on tile columns (`Model/ParQrCols.lean`) | in program order the jobs compute the sequential drivers (`Lemmas/ParQrCols.lean`: `blockedQr_holds`, `leftMulBlocked_holds`, `mgsFork_holds`); C36/C37 give the same final memory for every schedule; the rest of each program is C54/C55, for Gram-Schmidt with `beta = 1` (`mgsQr_exact`) |
| C59 | `main` of examples/lr_add.cpp (`Model/LrAddProgram.lean`), composed of the models of construction, compression, the three additions, `l2_error` | both summands are equal, so the sum has the rank of one (C26 exactness: `C26_rounded_exact_of_rank`, `C26_fast_exact_of_range`, C25 for naive); the printed error is then that of the compression |
| C60 | `read_geometry_file` on characters, `get_sorted_random_vector`, `get_non_negative_vector` (`Model/Points.lean`) | invariant of the two reading loops (which number the next extraction yields); `Spec/Points.lean` says what a geometry file is |
| C61 | `LowRank(Dense, eps)` calling the modelled `truncated_geqp3` (`Model/Compress.lean`), inside the constructors of C08/C09 and the programs of C54 | C45 bounds each column; induction over the cluster tree adds up the squared errors (`ClusterTree.toMat_error`); `C61_sharp` computes the matrix of ones |
| C62 | `main` of examples/Hmatrix_to_json.cpp (`Model/ExportProgram.lean`), composed of the models of the points (C60), the construction (C08) and `write_JSON` (C49) | induction over the cluster tree along a path (`ClusterTree.toMat_paths`); with two parts per cut the ranges are those of repeated halving (`Spec/ExportProgram.lean`); induction over the document for the cover |
| C63 | in-place operations on stored elements (`Model/HeapOps.lean`): entry loops, argument blocks of the BLAS/LAPACK calls, programs over the objects of a memory | refinement: a memory represents values (`MemRep`), each operation preserves that (`refines_all`), induction over programs; the final memory is reachable by writes (`Reach.same`), so C11-C14 apply to it; tiles of a split are disjoint and read back through the parent |
| C64 | `printTime`, `stopAndPrint`, `print_to_depth`, `get_subtimers` (`Model/TimerReport.lean`); a report is the list of pairs handed to `print` | induction on the depth with an invariant of partial reports (`Lists`, `Shares`); a subtimer's spans lie inside its parent's (`History.Within.sum_le`), so shares are at most 100; the failing case is characterised exactly (`TimeSpent`) |
| C65 | `print(const Matrix&)`, `type` (`Model/Print.lean`), output as items instead of characters | the text of each class ends visibly (`Mat.print_inj`, induction on the matrix with arbitrary text after it); the first item tells the class |
| C66 | `norm` and `l2_error` with rounding operations in source order (`Model/FloatNorm.lean`); the arithmetic is a parameter with the standard contract `FlArith.Sound` | induction over the double loops (`loop2_rel`), over the matrix for `norm`, over the recursion budget for `l2_error`; low-rank blocks through the error of two products (`gemm_gemm`); an arithmetic with `u = 1/4` shows the contract is satisfiable |
| C67 | `random_uniform`, `random_normal` (`Model/Random.lean`) over any generator with state | induction over the two loops with the number of draws so far; every leaf of a built matrix is a filled block or its compression (`toMat_leaves`) |
| C68 | `unique_id` of every object and the counter, on top of the heap of dense buffers (`Model/Ids.lean`) | invariant over all programs (`IdInv`): ids are below the counter, objects with the same id agree except for being moved from; each operation keeps an object with its id, copies both, or draws a new id |
| C69 | `gemm` and `fill_dense_from` with the target as dense objects over the heap, split into views of views (`Model/HeapGemm.lean`); operands are values | refinement: the heap-level run and the run on values go in lockstep (`Both`, `Tgt.Sim`), by induction on the fuel and the structure; a frame (`Heap.Same`) gives what is not written; entries by C21 |
| C70 | `gemm`, `trsm`, `getrf` as for C21, C29, C30 with low-rank operations that truncate (`Spec/Within.lean`); `LrOps.checked τ` gives up when an operation changes an entry by more than `τ` | error versions of the lemmas behind C21, C29, C30 (`Lemmas/ErrGemm.lean`, `ErrTri.lean`, `ErrLu.lean`): the bound is the sum of the inner dimensions of the block products; a run that returns with `checked` returns the same without it, and with any larger budget (`Lemmas/Refine.lean`) |
| C71 | `getrf`, `trsm` and the H-LU program with low-rank operations that truncate by at most `τ` | after `m` elimination steps the remaining blocks are the exact elimination of a matrix within `2 m τ` of `A` (`Lemmas/ErrPivot.lean`); dominance by a gap survives elimination, so the leaves never interchange rows and C70 applies; forward error from the residual by `dominant_bound`; no block is empty (`C71_filled`) by induction over the construction |
| C72 | construction of hierarchical matrices and `get_memory_usage` as for C08, C48 | the storage of a subtree is charged to its nodes near the diagonal, by induction on the number of levels (`Lemmas/Storage.lean`); every row meets at most `2a+1` near nodes per level (`nearCount_le`) |
| C73 | operations as elsewhere; `Mat.Same` (`Spec/Same.lean`) relates two values of the model that store the same numbers and may differ outside their dimensions | both runs side by side, by induction on fuel and structure (`Lemmas/Same.lean`, `SameGemm.lean`, `SameTri.lean`, `SameOps.lean`). The model represents entries by total functions; C73 shows that the values outside the dimensions, which no C++ object has, never reach a result |
| C74 | `trsm` and `trmm` on the heap of C13 (`Model/HeapTri.lean`): the target is a tree of `Dense` objects as in C69, the triangle a value; a block of the target that is a factor of a product is read when the product starts | the run on the heap and the run on values side by side (`Lemmas/HeapTri.lean`): blocks not yet treated keep their values because views of different blocks share no element; the operand read from the heap is alike the value (C73), products are those of C69 |
| C75 | `gemm` into targets with dense leaves with every BLAS call and every scaling an operation of an unspecified arithmetic (`Model/FloatGemm.lean`); method bodies that only select and split blocks are those of C21; the assumption on the arithmetic is `FlBlas.Sound` (`Spec/FloatGemm.lean`) | each number carries a count of roundings and a bound with absolute values (`FlNear`, `Lemmas/FloatGemm.lean`), the recursion adds up the counts of its blocks, which sum to the inner dimension (`Lemmas/FloatGemmRec.lean`); returning: the rounded and the exact run side by side, which branch on dimensions only (`Lemmas/FloatReturns.lean`); the assumption is met by sequential summation with any rounding of relative error `u`, for instance to 53 bits (`Props/FloatGemm.lean`) |
| C76 | `trsm` with the products of C75 and `dtrsm` an operation of an unspecified arithmetic (`Model/FloatTri.lean`); method bodies that only select and split blocks are those of C24; the assumption on the arithmetic is `FlLapack.Sound` (`Spec/FloatTri.lean`) | counts of roundings as in C75; along a block row the updates add up the counts of the blocks before and the solve with the diagonal block adds its own (`Lemmas/FloatTri.lean`); backward errors by the Oettli–Prager argument; returning: shapes alone decide, as in C46 (`Lemmas/FloatTriTotal.lean`); the assumptions are met by textbook substitution and elimination with any rounding of relative error `u` (`Lemmas/FloatRound.lean`) |
| C77 | `getrf` with the products of C75, the solves of C76 and `dgetrf` an operation of an unspecified arithmetic (`Model/FloatTri.lean`); the elimination loop is that of C25 | invariant of the elimination: each block of the remaining matrix is the original one minus the products so far, with as many roundings as columns eliminated, three for each (`Lemmas/FloatLu.lean`); the solution by the backward errors of C76; that runs return or meet a zero pivot by an invariant on shapes alone, with the solves of C76 cut short at the first zero (`Lemmas/FloatLuTotal.lean`) |
| C78 | `trmm` with the products of C75 and `dtrmm` an operation of an unspecified arithmetic (`Model/FloatTrmm.lean`, `Spec/FloatTrmm.lean`); method bodies that only select and split blocks are those of C28 | counts of roundings as in C75; a block of the result takes those of its diagonal block and of the blocks in its row or column, which sum to the order of the matrix; returning: the rounded and the exact run side by side (`Lemmas/FloatTrmm.lean`) |
| C79 | the drivers of tiled QR over any four tile kernels (`Model/FloatQr.lean`; with the exact kernels they are those of C33, `C79_drivers`), and the kernels on dense tiles with `dgeqrt3`, `dtpqrt2`, `dlarfb` and `dtprfb` unspecified routines that meet backward error bounds (`FlQr.Sound`, `Spec/FloatQr.lean`); low-rank tiles are not modelled in floating-point arithmetic | each kernel acts on a block column like one orthogonal matrix of the full order up to a factor `1+ε` (`Lemmas/FloatQrOrth.lean`, `FloatQr.lean`); induction over the kernels of a column (`FloatQrRun.lean`), over the columns (`FloatQrAll.lean`), then the block columns together (`FloatQrGlobal.lean`) |
| C80 | `main` of examples/h_lu.cpp with the operations of C75–C77 and the norms of C66 (`Model/FloatHLu.lean`); the kernel returns the stored numbers; only position-based admissibility that compresses nothing | the matrix built is regular, of dense leaves and has the kernel's entries (C57, C08); right-hand side by C75, factorization and solves by C77, printed numbers by C66; the error of the solution from the residual by a left inverse or `dominant_bound` |
| C81 | `main` of examples/tiled_householder_blr_qr.cpp with the tile kernels of C79, the product of C78 and the norms of C66 (`Model/FloatBlrQr.lean`); the kernels return the stored numbers; only position-based admissibility that compresses nothing | the matrices built are grids of dense tiles with the kernel's entries (C54); factorization, `Q` and `Q^T Q` by C79; `trmm` does not read the blocks below the diagonal, so its result is bounded by C78 with the masked triangle of C79; printed numbers by C66 |
| C82 | tasks and parallel loops of the two parallel programs as in C36, with the tile kernels as a parameter (`Model/FloatParQr.lean`); the floating-point kernels of C79 | as in C36: tasks whose blocks overlap are ordered by their dependences, so every execution equals the sequential order of the jobs; this order is the sequential function, for any kernels that read only their half of the diagonal tile; then the bounds of C79; the programs around them as in C58, with the sequential parts of C81 |
| C83 | `operator+=` on targets with dense leaves, `operator-` of dense matrices and `operator*=` with rounded operations (`Model/FloatAdd.lean`, `FlArith.subtract`); `naive_addition` of two low-rank matrices, and `operator+=` in that mode on targets of any structure, with the truncation as a parameter; the other two modes of low-rank addition are not in this model | induction on the structure with the bound for low-rank updates from C75; the exact addition (C24) shows that it returns and which failures there are (`Props/FloatAdd.lean`) |
