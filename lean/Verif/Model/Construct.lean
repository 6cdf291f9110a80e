import Verif.Model.ClusterTree
import Verif.Model.Admissible
import Verif.Model.Mat

/-
Construction of matrices from kernels and dense matrices:
src/classes/initialization_helpers/matrix_initializer*.cpp, src/classes/hierarchical.cpp:49-146,
src/classes/dense.cpp:115-128.
-/

namespace Verif
variable {R : Type}

/-- A kernel function (the function pointer type of
include/FRANK/classes/dense.h / hierarchical.h): it is given the memory it writes
to (`A`, here a function of the offset from the pointer), the numbers of rows and
columns, the stride and the global index of the first row and column.  The
`params` argument is fixed.  `uint64_t` sizes become `Nat`. -/
abbrev KernelFn (R : Type) :=
  (Nat → R) → (rows cols stride : Nat) → (rowStart colStart : Int) → Except Err (Nat → R)

/-- `Dense(kernel, params, n_rows, n_cols, row_start, col_start)`,
dense.cpp:115-128: a zero-initialised contiguous buffer (dense.cpp:108-113, stride
`dim[1]`) is handed to the kernel; entry `(i,j)` is element `i*stride+j`
(dense.cpp:182-192). -/
def Dense.ofKernel [Zero R] (k : KernelFn R) (m n : Nat) (rs cs : Int) : Except Err (Dense R) := do
  let mem ← k (fun _ => 0) m n n rs cs
  .ok ⟨m, n, fun i j => mem (i * n + j)⟩

/-- `fill_dense_representation` of an initializer, together with the allocation
of `get_dense_representation`, matrix_initializer.cpp:28-34. -/
abbrev FillFn (R : Type) := (rows cols : IndexRange) → Except Err (Dense R)

/-- `get_dense_representation` with
`MatrixInitializerKernel::fill_dense_representation`,
matrix_initializer_kernel.cpp:24-29.  A negative length makes the vector of
dense.cpp:110 impossible to allocate; this is reported as undefined behaviour
(also if both lengths are negative, where the code allocates their product). -/
def kernelFill [Zero R] (k : KernelFn R) : FillFn R := fun rows cols =>
  if 0 ≤ rows.n ∧ 0 ≤ cols.n then
    Dense.ofKernel k rows.n.toNat cols.n.toNat rows.start cols.start
  else .error .ub

/-- `get_dense_representation` with `MatrixInitializerBlock::fill_dense_representation`,
matrix_initializer_block.cpp:22-30 (of the file): entries are read through
`Dense::operator()`, which asserts `i < dim[0]` and `j < dim[1]`
(dense.cpp:188-192); a negative index is an access outside the buffer. -/
def blockFill [Inhabited R] (A : Dense R) : FillFn R := fun rows cols =>
  if 0 ≤ rows.n ∧ 0 ≤ cols.n then do
    let g ← collect2 rows.n.toNat cols.n.toNat (fun i j =>
      if rows.start + i < A.rows ∧ cols.start + j < A.cols then
        if 0 ≤ rows.start + i ∧ 0 ≤ cols.start + j then
          .ok (A.val (rows.start + i).toNat (cols.start + j).toNat)
        else .error .ub
      else .error .assertFail)
    .ok ⟨rows.n.toNat, cols.n.toNat, g⟩
  else .error .ub

namespace ClusterTree
variable {K : Type} [Field K] [LinearOrder K]

/-- One block assignment `(*this)[pos] = b`, hierarchical.cpp:56-61 with
`operator[]`, hierarchical.cpp:154-156, 176-180: the element at position
`pos[0]*dim[1]+pos[1]`. The asserts bound the position from above. -/
def assign (br bc : Nat) (s : Nat → Nat → Mat R) (pi pj : Int) (b : Mat R) :
    Except Err (Nat → Nat → Mat R) :=
  if pi < br ∧ pj < bc then
    if 0 ≤ pi ∧ 0 ≤ pj then .ok (fun i j => if (i : Int) = pi ∧ (j : Int) = pj then b else s i j)
    else .error .ub
  else .error .assertFail

/-- `Hierarchical(const ClusterTree& node, const MatrixInitializer&, bool fixed_rank)`,
hierarchical.cpp:49-65.  The loop runs over the children in the row-major order
of the `children` vector and stores the block of a child at its `rel_pos`.
`compress` is the `LowRank` constructor called by
`get_compressed_representation` (matrix_initializer.cpp:36-42, with the rank or
the tolerance of the initializer fixed).  Called on a node without children the
code returns a matrix of null blocks, whose first use is undefined; reported here
right away. -/
def toMat (a : Admis K) (fill : FillFn R) (compress : Dense R → Except Err (LowRank R)) :
    ClusterTree → Except Err (Mat R)
  | .leaf _ => .error .ub
  | .node t ch => do
    let blk ← loop t.br (fun i s => loop t.bc (fun j s => do
      let b ← (do
        let adm ← isAdmissible a (ch i j).info
        if adm then do
          let d ← fill (ch i j).info.rows (ch i j).info.cols
          let l ← compress d
          .ok (.lowRank l)
        else if isLeaf (ch i j).info then do
          let d ← fill (ch i j).info.rows (ch i j).info.cols
          .ok (.dense d)
        else (ch i j).toMat a fill compress : Except Err (Mat R))
      assign t.br t.bc s (ch i j).info.relRow (ch i j).info.relCol b) s) (fun _ _ => default)
    .ok (.hier t.br t.bc blk)

end ClusterTree

variable {K : Type} [Field K] [LinearOrder K]

/-- `Hierarchical(kernel, params, n_rows, n_cols, rank | nleaf.., ...)`,
hierarchical.cpp:67-109 (both constructors: `compress` is the fixed-rank or the
fixed-accuracy compression).  `fuel` bounds the depth of the cluster tree. -/
def hierOfKernel [Zero R] (fuel : Nat) (k : KernelFn R) (compress : Dense R → Except Err (LowRank R))
    (nRows nCols : Nat) (nleaf : Int) (a : Admis K) (br bc : Nat) (rs cs : Int) :
    Except Err (Mat R) := do
  let tr ← ClusterTree.build fuel true
    (ClusterTree.rootInfo ⟨rs, nRows⟩ ⟨cs, nCols⟩ br bc nleaf)
  tr.toMat a (kernelFill k) compress

/-- `Hierarchical(Dense&& A, ...)`, hierarchical.cpp:112-146 (both constructors).
The ranges of the tree are `{row_start, A.dim[0]}` and `{col_start, A.dim[1]}`. -/
def hierOfDense [Inhabited R] (fuel : Nat) (A : Dense R) (compress : Dense R → Except Err (LowRank R))
    (nleaf : Int) (a : Admis K) (br bc : Nat) (rs cs : Int) : Except Err (Mat R) := do
  let tr ← ClusterTree.build fuel true
    (ClusterTree.rootInfo ⟨rs, A.rows⟩ ⟨cs, A.cols⟩ br bc nleaf)
  tr.toMat a (blockFill A) compress

end Verif
