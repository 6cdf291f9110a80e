import Verif.Model.Tri
import Verif.Model.LrAdd
import Verif.Model.Construct
import Verif.Spec.Mat

/-
The matrices a program can obtain from the library: the closure of dense
matrices under the operations of the interface.
-/

namespace Verif
variable {R : Type} [Field R] [DecidableEq R] [Inhabited R] {K : Type} [Field K] [LinearOrder K]

/-- `Built L lu A`: the matrix `A` results from some history of library calls.
`L` and `lu` are the external routines.  Every rule is one call; `fuel` is the
recursion budget of the model.  Calls that fail produce nothing. -/
inductive Built (K : Type) [Field K] [LinearOrder K] (L : Lapack R)
    (lu : Dense R → Dense R × Bool) : Mat R → Prop where
  /-- any dense matrix, `Dense(...)` -/
  | dense (d : Dense R) : Built K L lu (.dense d)
  /-- `Empty(m, n)` -/
  | empty (m n : Nat) : Built K L lu (.empty m n)
  /-- `LowRank(U, S, V)` from factors that fit -/
  | factors (U S V : Dense R) (h1 : U.cols = S.rows) (h2 : S.rows = S.cols) (h3 : S.cols = V.rows) :
      Built K L lu (.lowRank (LowRank.ofFactors U S V))
  /-- `LowRank(A, rank)` -/
  | ofRank (d : Dense R) (rank : Nat) {l : LowRank R} (h : L.ofRank d rank = .ok l) :
      Built K L lu (.lowRank l)
  /-- `LowRank(A, eps)` -/
  | ofEps (d : Dense R) (eps : R) {l : LowRank R} (h : L.ofEps d eps = .ok l) :
      Built K L lu (.lowRank l)
  /-- `LowRank(H, rank)` -/
  | ofHier (fuel : Nat) {A : Mat R} (rank : Nat) {l : LowRank R} (hA : Built K L lu A)
      (h : L.ofHier fuel A rank = .ok l) : Built K L lu (.lowRank l)
  /-- `Hierarchical(kernel, ..., rank, ...)` -/
  | kernelRank (fuel : Nat) (k : KernelFn R) (rank m n : Nat) (nleaf : Int) (a : Admis K) (br bc : Nat)
      (rs cs : Int) {A : Mat R} (hr : 1 ≤ br) (hc : 1 ≤ bc)
      (h : hierOfKernel fuel k (fun d => L.ofRank d rank) m n nleaf a br bc rs cs = .ok A) :
      Built K L lu A
  /-- `Hierarchical(kernel, ..., eps, ...)` -/
  | kernelEps (fuel : Nat) (k : KernelFn R) (eps : R) (m n : Nat) (nleaf : Int) (a : Admis K)
      (br bc : Nat) (rs cs : Int) {A : Mat R} (hr : 1 ≤ br) (hc : 1 ≤ bc)
      (h : hierOfKernel fuel k (fun d => L.ofEps d eps) m n nleaf a br bc rs cs = .ok A) :
      Built K L lu A
  /-- `Hierarchical(Dense, ..., rank, ...)` -/
  | denseRank (fuel : Nat) (d : Dense R) (rank : Nat) (nleaf : Int) (a : Admis K) (br bc : Nat)
      (rs cs : Int) {A : Mat R} (hr : 1 ≤ br) (hc : 1 ≤ bc)
      (h : hierOfDense fuel d (fun d => L.ofRank d rank) nleaf a br bc rs cs = .ok A) : Built K L lu A
  /-- `Hierarchical(Dense, ..., eps, ...)` -/
  | denseEps (fuel : Nat) (d : Dense R) (eps : R) (nleaf : Int) (a : Admis K) (br bc : Nat)
      (rs cs : Int) {A : Mat R} (hr : 1 ≤ br) (hc : 1 ≤ bc)
      (h : hierOfDense fuel d (fun d => L.ofEps d eps) nleaf a br bc rs cs = .ok A) : Built K L lu A
  /-- the block `A(i, j)` -/
  | block {br bc : Nat} {blk : Nat → Nat → Mat R} (h : Built K L lu (.hier br bc blk)) (i j : Nat)
      (hi : i < br) (hj : j < bc) : Built K L lu (blk i j)
  /-- `Hierarchical(br, bc)` with its blocks assigned, blocks in a row being
  equally high and blocks in a column equally wide -/
  | container {br bc : Nat} {blk : Nat → Nat → Mat R} (hr : 1 ≤ br) (hc : 1 ≤ bc)
      (h : ∀ i < br, ∀ j < bc, Built K L lu (blk i j))
      (rows : ∀ i < br, ∀ j < bc, (blk i j).nRows = (blk i 0).nRows)
      (cols : ∀ i < br, ∀ j < bc, (blk i j).nCols = (blk 0 j).nCols) :
      Built K L lu (.hier br bc blk)
  /-- `split(A, row_ranges, col_ranges)` -/
  | split {A M : Mat R} (hA : Built K L lu A) (rs cs : List IndexRange) (hr : rs ≠ []) (hc : cs ≠ [])
      (h : A.splitOmm rs cs = .ok M) : Built K L lu M
  /-- `transpose(A)` -/
  | transpose {A M : Mat R} (hA : Built K L lu A) (h : A.transpose = .ok M) : Built K L lu M
  /-- `A *= b` -/
  | scale {A M : Mat R} (hA : Built K L lu A) (b : R) (h : A.scale b = .ok M) : Built K L lu M
  /-- `zero_all(A)` -/
  | zeroAll {A M : Mat R} (hA : Built K L lu A) (h : A.zeroAll = .ok M) : Built K L lu M
  /-- `zero_lower(A)` -/
  | zeroLower {A M : Mat R} (hA : Built K L lu A) (h : A.zeroLower = .ok M) : Built K L lu M
  /-- `zero_upper(A)` -/
  | zeroUpper {A M : Mat R} (hA : Built K L lu A) (h : A.zeroUpper = .ok M) : Built K L lu M
  /-- `shallow_copy(A)` -/
  | shallowCopy {A M : Mat R} (hA : Built K L lu A) (h : A.shallowCopy = .ok M) : Built K L lu M
  /-- `A += B` in any of the low-rank addition modes -/
  | add (mode : LraMode) (fuel : Nat) {A B M : Mat R} (hA : Built K L lu A) (hB : Built K L lu B)
      (h : A.addAssign (L.ops mode fuel) B = .ok M) : Built K L lu M
  /-- `gemm(A, B, C, alpha, beta, transA, transB)` -/
  | gemm (mode : LraMode) (f fuel : Nat) {A B C M : Mat R} (hA : Built K L lu A)
      (hB : Built K L lu B) (hC : Built K L lu C) (α β : R) (ta tb : Bool)
      (h : Mat.gemm (L.ops mode f) fuel A B C α β ta tb = .ok M) : Built K L lu M
  /-- `gemm(A, B, alpha, transA, transB)` -/
  | gemmNew (mode : LraMode) (f fuel : Nat) {A B M : Mat R} (hA : Built K L lu A)
      (hB : Built K L lu B) (α : R) (ta tb : Bool)
      (h : Mat.gemmNew (L.ops mode f) fuel A B α ta tb = .ok M) : Built K L lu M
  /-- `trmm(A, B, ...)` -/
  | trmm (mode : LraMode) (f fuel : Nat) {A B M : Mat R} (hA : Built K L lu A) (hB : Built K L lu B)
      (side : Side) (uplo : Uplo) (trans unit : Bool) (α : R)
      (h : Mat.trmm (L.ops mode f) fuel A B side uplo trans unit α = .ok M) : Built K L lu M
  /-- `trsm(A, B, ...)` -/
  | trsm (mode : LraMode) (f fuel : Nat) {A B M : Mat R} (hA : Built K L lu A) (hB : Built K L lu B)
      (uplo : Uplo) (side : Side)
      (h : Mat.trsm (L.ops mode f) fuel A B uplo side = .ok M) : Built K L lu M
  /-- the lower factor of `getrf(A)` -/
  | luLower (mode : LraMode) (f fuel : Nat) {A X Y : Mat R} {flag : Bool} (hA : Built K L lu A)
      (h : Mat.getrf lu (L.ops mode f) fuel A = .ok (X, Y, flag)) : Built K L lu X
  /-- the upper factor of `getrf(A)` -/
  | luUpper (mode : LraMode) (f fuel : Nat) {A X Y : Mat R} {flag : Bool} (hA : Built K L lu A)
      (h : Mat.getrf lu (L.ops mode f) fuel A = .ok (X, Y, flag)) : Built K L lu Y

end Verif
