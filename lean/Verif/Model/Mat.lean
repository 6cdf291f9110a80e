import Verif.Model.IndexRange
import Mathlib.Algebra.BigOperators.Ring.Finset

/-
Value-level model of the matrix classes (include/FRANK/classes/*.h) and of the
basic operations on them.  Sharing of storage is not visible at this level; see
`Verif/Model/Heap.lean` for it.
-/

namespace Verif
open Finset

/-- `class Dense` (include/FRANK/classes/dense.h) as a value: dimensions and
entries.  `val i j` is meaningful for `i < rows`, `j < cols`. Stride, sharing and
the unique id are left out (see `Verif/Model/Heap.lean`).  Dimensions are
natural numbers: a negative dimension makes the allocation of dense.cpp:111
(`vector` of negative size) undefined. -/
structure Dense (R : Type) where
  rows : Nat
  cols : Nat
  val : Nat → Nat → R

/-- `class LowRank` (include/FRANK/classes/low_rank.h:30-75): recorded
dimensions, rank, `eps` and the three factors. -/
structure LowRank (R : Type) where
  dim0 : Nat
  dim1 : Nat
  rank : Nat
  eps : R
  U : Dense R
  S : Dense R
  V : Dense R

/-- The matrix classes `Dense`, `LowRank`, `Hierarchical`
(include/FRANK/classes/hierarchical.h:43-50, the row-major `data` vector is a
function of `(i,j)`, meaningful for `i < br`, `j < bc`) and `Empty`
(include/FRANK/classes/empty.h).  `MatrixProxy` is not represented: a block of a
`Hierarchical` that was never assigned (null proxy) does not exist here. -/
inductive Mat (R : Type) where
  | dense (d : Dense R)
  | lowRank (l : LowRank R)
  | hier (br bc : Nat) (blk : Nat → Nat → Mat R)
  | empty (m n : Nat)

variable {R : Type}

instance : Inhabited (Mat R) := ⟨.empty 0 0⟩

namespace Mat

/-- Value of `get_n_rows`, src/operations/misc/get_dim.cpp:24-36 (first block
column of a `Hierarchical`).  `getNRows` below is the version that can fail. -/
def nRows : Mat R → Nat
  | .dense d => d.rows
  | .lowRank l => l.dim0
  | .hier br _ blk => ∑ i ∈ range br, (blk i 0).nRows
  | .empty m _ => m

/-- Value of `get_n_cols`, src/operations/misc/get_dim.cpp:48-60 (first block row
of a `Hierarchical`). -/
def nCols : Mat R → Nat
  | .dense d => d.cols
  | .lowRank l => l.dim1
  | .hier _ bc blk => ∑ j ∈ range bc, (blk 0 j).nCols
  | .empty _ n => n

/-- `get_n_rows`, get_dim.cpp:24-36, as executed: the loop reads `A(i,0)`, which
does not exist if there is no block column. -/
def getNRows : Mat R → Except Err Nat
  | .dense d => .ok d.rows
  | .lowRank l => .ok l.dim0
  | .hier br bc blk => do
    let f ← collect br (fun i => if 0 < bc then (blk i 0).getNRows else .error .ub)
    .ok (∑ i ∈ range br, f i)
  | .empty m _ => .ok m

/-- `get_n_cols`, get_dim.cpp:48-60, as executed. -/
def getNCols : Mat R → Except Err Nat
  | .dense d => .ok d.cols
  | .lowRank l => .ok l.dim1
  | .hier br bc blk => do
    let f ← collect bc (fun j => if 0 < br then (blk 0 j).getNCols else .error .ub)
    .ok (∑ j ∈ range bc, f j)
  | .empty _ n => .ok n

end Mat

namespace Dense

/-- `Dense(n_rows, n_cols)`, src/classes/dense.cpp:108-113: zero filled. -/
def zero [Zero R] (m n : Nat) : Dense R := ⟨m, n, fun _ _ => 0⟩

instance [Zero R] : Inhabited (Dense R) := ⟨Dense.zero 0 0⟩

/-- The entries of the sub-matrix that starts at `(r,c)`; what a child of
`Dense::split` sees (dense.cpp:218-249). -/
def sub (A : Dense R) (r c m n : Nat) : Dense R := ⟨m, n, fun i j => A.val (r + i) (c + j)⟩

/-- `transpose` of a `Dense`, src/operations/misc/transpose.cpp:24-32. -/
def transpose (A : Dense R) : Dense R := ⟨A.cols, A.rows, fun i j => A.val j i⟩

/-- `operator*=(Dense&, double)`, src/operations/arithmetic/multiplication.cpp:28-37. -/
def scale [Mul R] (A : Dense R) (b : R) : Dense R := ⟨A.rows, A.cols, fun i j => A.val i j * b⟩

/-- `Dense::operator=(double)`, dense.cpp:151-158. -/
def fill (A : Dense R) (a : R) : Dense R := ⟨A.rows, A.cols, fun _ _ => a⟩

/-- `operator+(const Dense&, const Dense&)`, addition.cpp:210-218: the loops run
over the dimensions of `A` and read `B(i,j)`, whose asserts (dense.cpp:189-190)
fail if `B` is smaller. -/
def add [Add R] (A B : Dense R) : Except Err (Dense R) := do
  assertM (decide (A.rows = 0 ∨ A.cols = 0 ∨ (A.rows ≤ B.rows ∧ A.cols ≤ B.cols)))
  .ok ⟨A.rows, A.cols, fun i j => A.val i j + B.val i j⟩

/-- `subtraction_omm(Dense, Dense)` with the asserts of `operator-`,
src/operations/arithmetic/subtraction.cpp:26-40. -/
def subtract [Sub R] (A B : Dense R) : Except Err (Dense R) := do
  assertM (decide (A.rows = B.rows))
  assertM (decide (A.cols = B.cols))
  .ok ⟨A.rows, A.cols, fun i j => A.val i j - B.val i j⟩

/-- `resize`, src/operations/misc/resize.cpp:27-35, through `Dense::copy_to`,
dense.cpp:141-149. -/
def resize (A : Dense R) (m n : Nat) : Except Err (Dense R) := do
  assertM (decide (m ≤ A.rows))
  assertM (decide (n ≤ A.cols))
  .ok ⟨m, n, fun i j => A.val (0 + i) (0 + j)⟩

/-- Entry `(i,j)` of `op(A)`. -/
def opVal (t : Bool) (A : Dense R) (i j : Nat) : R := if t then A.val j i else A.val i j

/-- `gemm` on three `Dense` matrices: asserts of `gemm`,
src/operations/BLAS/gemm.cpp:44-49, followed by `D D D`, gemm.cpp:126-146, which
is one call of `cblas_dgemm`, modelled by its definition. -/
def gemm [CommRing R] (A B C : Dense R) (α β : R) (ta tb : Bool) : Except Err (Dense R) := do
  assertM (decide ((if ta then A.cols else A.rows) = C.rows))
  assertM (decide ((if ta then A.rows else A.cols) = (if tb then B.cols else B.rows)))
  assertM (decide ((if tb then B.rows else B.cols) = C.cols))
  let k := if ta then A.rows else A.cols
  .ok ⟨C.rows, C.cols, fun i j =>
    α * (∑ l ∈ range k, A.opVal ta i l * B.opVal tb l j) + β * C.val i j⟩

/-- `gemm` on two `Dense` matrices returning a new one: assert of `gemm`,
gemm.cpp:65-68, then `* * New(D)`, gemm.cpp:110-124. -/
def gemmNew [CommRing R] (A B : Dense R) (α : R) (ta tb : Bool) : Except Err (Dense R) := do
  assertM (decide ((if ta then A.rows else A.cols) = (if tb then B.cols else B.rows)))
  Dense.gemm A B (Dense.zero (if ta then A.cols else A.rows) (if tb then B.rows else B.cols))
    α 0 ta tb

end Dense

namespace LowRank

/-- `LowRank(const Matrix& U, const Dense& S, const Matrix& V, bool copy)`,
src/classes/low_rank.cpp:71-75, and `LowRank(Dense&&, Dense&&, Dense&&)`,
low_rank.cpp:77-79: dimensions from the outer factors, rank from `S`, `eps` is
the default 0 (low_rank.h:43). -/
def ofFactors [Zero R] (U S V : Dense R) : LowRank R :=
  { dim0 := U.rows, dim1 := V.cols, rank := S.rows, eps := 0, U, S, V }

/-- `operator*=(LowRank&, double)`, multiplication.cpp:39-44. -/
def scale [Mul R] (A : LowRank R) (b : R) : LowRank R := { A with S := A.S.scale b }

/-- `transpose` of a `LowRank`, transpose.cpp:34-37 (the `eps` member is not
carried over). -/
def transpose [Zero R] (A : LowRank R) : LowRank R :=
  ofFactors A.V.transpose A.S.transpose A.U.transpose

/-- `fill_dense_from(LowRank, Dense)`, dense.cpp:73-75: the product of the three
factors written into a matrix of the dimensions of `B`. -/
def fillDense [CommRing R] (A : LowRank R) (B : Dense R) : Except Err (Dense R) := do
  let US ← Dense.gemmNew A.U A.S 1 false false
  Dense.gemm US A.V B 1 0 false false

/-- `Dense(const Matrix&)` applied to a `LowRank`, dense.cpp:56-62. -/
def toDense [CommRing R] (A : LowRank R) : Except Err (Dense R) :=
  A.fillDense (Dense.zero A.dim0 A.dim1)

end LowRank

namespace Mat

/-! ### splitting -/

/-- Are all ranges inside `[0,n)`?  A child created by `Dense::split` from any
other range refers to memory outside its parent. -/
def rangesInside (n : Nat) (l : List IndexRange) : Bool :=
  l.all (fun r => decide (0 ≤ r.start ∧ 0 ≤ r.n ∧ r.start + r.n ≤ n))

/-- Element `i` of a vector of ranges. -/
def rangeAt (l : List IndexRange) (i : Nat) : IndexRange := l.getD i default

/-- `split_omm(Dense)`, misc.cpp:180-197, with `Dense::split`, dense.cpp:218-249.
Ranges that leave the matrix are reported as undefined behaviour here, the code
creates the bad child and runs into it on first access. -/
def splitDense (A : Dense R) (rs cs : List IndexRange) : Except Err (Mat R) :=
  if rangesInside A.rows rs ∧ rangesInside A.cols cs then
    .ok (.hier rs.length cs.length (fun i j =>
      .dense (A.sub (rangeAt rs i).start.toNat (rangeAt cs j).start.toNat
        (rangeAt rs i).n.toNat (rangeAt cs j).n.toNat)))
  else .error .ub

/-- `split_omm(LowRank)`, misc.cpp:199-241: `U` is split by rows, `V` by columns,
`S` is shared.  A single row (column) range keeps the whole of `U` (`V`),
whatever the range is (misc.cpp:214-221, 227-234); the `eps` member of the
children is the default 0. `U_splits[i]` is `Hierarchical::operator[]`
(hierarchical.cpp:158-162). With no row range `U_splits` has one block, but the
loop does not run. -/
def splitLowRank [Zero R] (A : LowRank R) (rs cs : List IndexRange) : Except Err (Mat R) :=
  if (rs.length ≤ 1 ∨ rangesInside A.U.rows rs) ∧ (cs.length ≤ 1 ∨ rangesInside A.V.cols cs) then
    .ok (.hier rs.length cs.length (fun i j =>
      let Ui := if 1 < rs.length then
          A.U.sub (rangeAt rs i).start.toNat 0 (rangeAt rs i).n.toNat A.U.cols
        else A.U
      let Vj := if 1 < cs.length then
          A.V.sub 0 (rangeAt cs j).start.toNat A.V.rows (rangeAt cs j).n.toNat
        else A.V
      .lowRank (LowRank.ofFactors Ui A.S Vj)))
  else .error .ub

/-- Does the matrix contain an `Empty` block?  `shallow_copy` (misc.cpp:286-316)
aborts on exactly these matrices (`shallowCopy_abort_iff` in
`Verif/Lemmas/Split.lean`). -/
def hasEmpty : Mat R → Bool
  | .dense _ => false
  | .lowRank _ => false
  | .hier br bc blk =>
    (List.range br).any (fun i => (List.range bc).any (fun j => (blk i j).hasEmpty))
  | .empty _ _ => true

/-- `split_omm(Hierarchical)`, misc.cpp:243-273, with the default `copy=false`:
only the own partition is accepted.  The block `shallow_copy(A(i,j))` has the
value of `A(i,j)`; it aborts if there is an `Empty` block inside. -/
def splitHier (br bc : Nat) (blk : Nat → Nat → Mat R) (rs cs : List IndexRange) :
    Except Err (Mat R) := do
  if rs.length ≠ br ∨ cs.length ≠ bc then .error .abort
  else
    let g ← collect2 br bc (fun i j =>
      if (rangeAt rs i).n ≠ ((blk i j).nRows : Int) ∨ (rangeAt cs j).n ≠ ((blk i j).nCols : Int)
      then .error .abort else if (blk i j).hasEmpty then .error .abort else .ok (blk i j))
    .ok (.hier br bc g)

/-- `split_omm`, misc.cpp:149-284. -/
def splitOmm [Zero R] (A : Mat R) (rs cs : List IndexRange) : Except Err (Mat R) :=
  match A with
  | .dense d => splitDense d rs cs
  | .lowRank l => splitLowRank l rs cs
  | .hier br bc blk => splitHier br bc blk rs cs
  | .empty _ _ => .error .abort

/-- `split(A, n_row_blocks, n_col_blocks)`, misc.cpp:158-167. -/
def split [Zero R] (A : Mat R) (nr nc : Nat) : Except Err (Mat R) :=
  A.splitOmm ((⟨0, A.nRows⟩ : IndexRange).split nr) ((⟨0, A.nCols⟩ : IndexRange).split nc)

/-- Heights of the block rows as read by `split_like(like, ALONG_COL)`,
index_range.cpp:30-43. -/
def blockHeights (br : Nat) (blk : Nat → Nat → Mat R) : List Int :=
  (List.range br).map (fun i => ((blk i 0).nRows : Int))

/-- Widths of the block columns as read by `split_like(like, ALONG_ROW)`,
index_range.cpp:30-43. -/
def blockWidths (bc : Nat) (blk : Nat → Nat → Mat R) : List Int :=
  (List.range bc).map (fun j => ((blk 0 j).nCols : Int))

/-- `split(A, like)`, misc.cpp:169-178. -/
def splitLikeH [Zero R] (A : Mat R) (br bc : Nat) (blk : Nat → Nat → Mat R) :
    Except Err (Mat R) := do
  assertM (decide (A.nRows = (Mat.hier br bc blk).nRows))
  assertM (decide (A.nCols = (Mat.hier br bc blk).nCols))
  A.splitOmm ((⟨0, A.nRows⟩ : IndexRange).splitLike (blockHeights br blk))
    ((⟨0, A.nCols⟩ : IndexRange).splitLike (blockWidths bc blk))

/-! ### reading blocks back -/

/-- Sum of the first `n` sizes: where block `n` starts. -/
def _root_.Verif.psum (h : Nat → Nat) (n : Nat) : Nat := ∑ a ∈ range n, h a

/-- Position of global index `i` among consecutive blocks of sizes
`h 0, h 1, ..., h (n-1)`: block number and offset in the block. -/
def locate (h : Nat → Nat) : Nat → Nat → Nat × Nat
  | 0, i => (0, i)
  | n + 1, i =>
    if i < psum h n then locate h n i else (n, i - psum h n)

/-- Contents of a dense matrix whose children of a non-copying split have the
values `g i j` (a block grid with row heights `h` and column widths `w`): the
children are views, so writing them is writing the parent. -/
def joinVal (br bc : Nat) (h w : Nat → Nat) (g : Nat → Nat → Dense R) (i j : Nat) : R :=
  let p := locate h br i
  let q := locate w bc j
  (g p.1 q.1).val p.2 q.2

/-- The dense matrix held by a block that the code knows to be `Dense`. -/
def asDense : Mat R → Except Err (Dense R)
  | .dense d => .ok d
  | _ => .error .abort

/-- `fill_dense_from`, dense.cpp:64-92, writing into `B`.  The hierarchical case
splits `B` like `A` (views) and fills the blocks; the new contents of `B` are
read off the blocks with `joinVal`. -/
def fillDenseFrom [CommRing R] : Mat R → Dense R → Except Err (Dense R)
  | .dense d, B => do
    assertM (decide (d.rows = B.rows))
    assertM (decide (d.cols = B.cols))
    .ok ⟨B.rows, B.cols, fun i j => d.val (0 + i) (0 + j)⟩
  | .lowRank l, B => l.fillDense B
  | .hier br bc blk, B => do
    let BH ← splitLikeH (.dense B) br bc blk
    match BH with
    | .hier _ _ b =>
      let g ← collect2 br bc (fun i j => (b i j).asDense >>= (blk i j).fillDenseFrom)
      .ok ⟨B.rows, B.cols,
        joinVal br bc (fun i => (blk i 0).nRows) (fun j => (blk 0 j).nCols) g⟩
    | _ => .error .abort
  | .empty m n, B => do
    assertM (decide (m = B.rows))
    assertM (decide (n = B.cols))
    .ok (B.fill 0)

/-- `Dense(const Matrix&)`, dense.cpp:56-62. -/
def toDense [CommRing R] (A : Mat R) : Except Err (Dense R) :=
  A.fillDenseFrom (Dense.zero A.nRows A.nCols)

/-! ### entrywise operations -/

/-- `transpose_omm`, transpose.cpp:20-52. -/
def transpose [Zero R] : Mat R → Except Err (Mat R)
  | .dense d => .ok (.dense d.transpose)
  | .lowRank l => .ok (.lowRank l.transpose)
  | .hier br bc blk => do
    let g ← collect2 br bc (fun i j => (blk i j).transpose)
    .ok (.hier bc br (fun j i => g i j))
  | .empty _ _ => .error .abort

/-- `operator*=(Matrix&, double)`, multiplication.cpp:19-60. -/
def scale [Mul R] : Mat R → R → Except Err (Mat R)
  | .dense d, b => .ok (.dense (d.scale b))
  | .lowRank l, b => .ok (.lowRank (l.scale b))
  | .hier br bc blk, b => do
    let g ← collect2 br bc (fun i j => (blk i j).scale b)
    .ok (.hier br bc g)
  | .empty _ _, _ => .error .abort

/-- `zero_all`, misc.cpp:28-60. The low-rank case writes ones on the diagonals of
`U` and `V`. -/
def zeroAll [Zero R] [One R] : Mat R → Except Err (Mat R)
  | .dense d => .ok (.dense (d.fill 0))
  | .lowRank l =>
    .ok (.lowRank { l with
      U := ⟨l.U.rows, l.U.cols, fun i j => if i = j then 1 else 0⟩
      S := l.S.fill 0
      V := ⟨l.V.rows, l.V.cols, fun i j => if i = j then 1 else 0⟩ })
  | .hier br bc blk => do
    let g ← collect2 br bc (fun i j => (blk i j).zeroAll)
    .ok (.hier br bc g)
  | .empty _ _ => .error .abort

/-- `zero_lower`, misc.cpp:63-88.  For a `Hierarchical` with no block column the
bound `std::min(i, dim[1]-1)` is -1 and the loop does not run. Blocks above the
diagonal are not touched. -/
def zeroLower [Zero R] [One R] : Mat R → Except Err (Mat R)
  | .dense d => .ok (.dense ⟨d.rows, d.cols, fun i j => if j < i then 0 else d.val i j⟩)
  | .hier br bc blk => do
    let g ← collect2 br bc (fun i j =>
      if j = i then (blk i j).zeroLower
      else if j < i then (blk i j).zeroAll
      else .ok (blk i j))
    .ok (.hier br bc g)
  | .lowRank _ => .error .abort
  | .empty _ _ => .error .abort

/-- `zero_upper`, misc.cpp:91-116. -/
def zeroUpper [Zero R] [One R] : Mat R → Except Err (Mat R)
  | .dense d => .ok (.dense ⟨d.rows, d.cols, fun i j => if i < j then 0 else d.val i j⟩)
  | .hier br bc blk => do
    let g ← collect2 br bc (fun i j =>
      if j = i then (blk i j).zeroUpper
      else if i < j then (blk i j).zeroAll
      else .ok (blk i j))
    .ok (.hier br bc g)
  | .lowRank _ => .error .abort
  | .empty _ _ => .error .abort

/-- `norm_omm(Dense)`, src/operations/misc/norm.cpp:24-32. -/
def normDense [CommRing R] (A : Dense R) : R :=
  ∑ i ∈ range A.rows, ∑ j ∈ range A.cols, A.val i j * A.val i j

/-- `norm_omm`, norm.cpp:20-49 (the sum of squares, no square root). -/
def norm [CommRing R] [Inhabited R] : Mat R → Except Err R
  | .dense d => .ok (normDense d)
  | .lowRank l => do
    let d ← l.toDense
    .ok (normDense d)
  | .hier br bc blk => do
    let g ← collect2 br bc (fun i j => (blk i j).norm)
    .ok (∑ i ∈ range br, ∑ j ∈ range bc, g i j)
  | .empty _ _ => .error .abort

/-- `collect_diff_norm_omm`, src/util/l2_error.cpp:26-108, with a budget for the
recursion depth. Returns `{diff, mat_norm}`. -/
def collectDiffNorm [CommRing R] [Inhabited R] : Nat → Mat R → Mat R → Except Err (R × R)
  | 0, _, _ => .error .fuel
  | fuel + 1, A, B =>
    let dd (a b : Dense R) : Except Err (R × R) := do
      let d ← a.subtract b
      .ok (normDense d, normDense a)
    match A, B with
    | .dense a, .dense b => dd a b
    | .dense a, .lowRank b => do dd a (← b.toDense)
    | .lowRank a, .dense b => do dd (← a.toDense) b
    | .lowRank a, .lowRank b => do
      let a' ← a.toDense
      let b' ← b.toDense
      dd a' b'
    | .hier br bc blk, .hier br' bc' blk' =>
      if br = br' ∧ bc = bc' then do
        let g ← collect2 br bc (fun i j => collectDiffNorm fuel (blk i j) (blk' i j))
        .ok (∑ i ∈ range br, ∑ j ∈ range bc, (g i j).1,
             ∑ i ∈ range br, ∑ j ∈ range bc, (g i j).2)
      else do
        let a' ← (Mat.hier br bc blk).toDense
        let b' ← (Mat.hier br' bc' blk').toDense
        dd a' b'
    | .hier br bc blk, B => do
      let BH ← B.split br bc
      collectDiffNorm fuel (.hier br bc blk) BH
    | A, .hier br bc blk => do
      let AH ← A.split br bc
      collectDiffNorm fuel AH (.hier br bc blk)
    | _, _ => .error .abort

/-- The value under the square root of `l2_error`, l2_error.cpp:35-41, before
the division: the asserts and `collect_diff_norm`.  The final
`sqrt(diff/(mat_norm + epsilon))` is applied in `Verif.l2Error`
(`Verif/Model/RealOps.lean`). -/
def l2ErrorParts [CommRing R] [Inhabited R] (fuel : Nat) (A B : Mat R) : Except Err (R × R) := do
  assertM (decide (A.nRows = B.nRows))
  assertM (decide (A.nCols = B.nCols))
  collectDiffNorm fuel A B

/-- `shallow_copy_omm`, misc.cpp:286-316, as a value. -/
def shallowCopy : Mat R → Except Err (Mat R)
  | .dense d => .ok (.dense d)
  | .lowRank l => .ok (.lowRank { l with dim0 := l.U.rows, dim1 := l.V.cols, rank := l.S.rows })
  | .hier br bc blk => do
    let g ← collect2 br bc (fun i j => (blk i j).shallowCopy)
    .ok (.hier br bc g)
  | .empty _ _ => .error .abort

/-- `get_memory_usage`, src/util/get_memory_usage.cpp:22-77.  `szD`, `szL`, `szH`,
`szP` are `sizeof` of `Dense`, `LowRank`, `Hierarchical`, `MatrixProxy`; a
`double` has 8 bytes. -/
def memUsage (szD szL szH szP : Nat) (struc : Bool) : Mat R → Except Err Nat
  | .dense d => .ok (d.rows * d.cols * 8 + if struc then szD else 0)
  | .lowRank l =>
    .ok ((l.U.rows * l.U.cols * 8 + if struc then szD else 0)
      + (l.S.rows * l.S.cols * 8 + if struc then szD else 0)
      + (l.V.rows * l.V.cols * 8 + if struc then szD else 0)
      + if struc then szL - szD else 0)
  | .hier br bc blk => do
    let g ← collect2 br bc (fun i j => (blk i j).memUsage szD szL szH szP struc)
    .ok ((∑ i ∈ range br, ∑ j ∈ range bc, g i j) + if struc then br * bc * szP + szH else 0)
  | .empty _ _ => .error .abort

/-- `resize`, resize.cpp:23-40: only implemented for `Dense`. -/
def resize : Mat R → Nat → Nat → Except Err (Mat R)
  | .dense d, m, n => do
    let r ← d.resize m n
    .ok (.dense r)
  | _, _, _ => .error .abort

end Mat
end Verif
