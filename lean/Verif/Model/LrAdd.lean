import Verif.Model.Gemm

/-
Compression of matrices and addition of low-rank matrices:
src/classes/low_rank.cpp, src/operations/randomized/rsvd.cpp,
src/operations/arithmetic/addition.cpp:68-203.

LAPACK is a parameter of the model.
-/

namespace Verif
open Finset

variable {R : Type}

/-- The external routines behind `qr`, `rq`, `svd`, `truncated_geqp3` and
`random_uniform`, as arbitrary functions.  What is assumed about them is stated in
`Verif/Spec/Lapack.lean`, separately for each theorem.  The dimensions of the
results are not part of this record: they are those of the matrices the callers
allocate. -/
structure Lapack (R : Type) where
  /-- `dgeqrf` + `dorgqr` as called by `qr(A, Q, R)`,
  src/operations/LAPACK/qr.cpp:65-91; the number is the column count of `Q`. -/
  qr : Dense R → Nat → (Nat → Nat → R) × (Nat → Nat → R)
  /-- `dgerqf` + `dorgrq` as called by `rq(A, R, Q)`,
  src/operations/LAPACK/rq.cpp:43-73; the number is the row count of `Q`. -/
  rq : Dense R → Nat → (Nat → Nat → R) × (Nat → Nat → R)
  /-- `dgesvd` as called by `svd(A)`, src/operations/LAPACK/svd.cpp:23-45: left
  vectors, singular values, right vectors (transposed). -/
  svd : Dense R → (Nat → Nat → R) × (Nat → R) × (Nat → Nat → R)
  /-- `find_svd_truncation_rank(S, eps)`, src/operations/misc/misc.cpp:134-147;
  the concrete definition over the reals is `findSvdTruncationRank`. -/
  truncRank : Dense R → R → Nat
  /-- `truncated_geqp3(A, eps)`, src/operations/LAPACK/geqp3.cpp: number of
  columns kept, `Q` and `R`. -/
  geqp3 : Dense R → R → Nat × (Nat → Nat → R) × (Nat → Nat → R)
  /-- `random_uniform` filling a matrix of the given dimensions while `A` is being
  compressed.  The numbers may depend on `A`; in the code they depend only on the
  dimensions (C67), since `random_uniform` starts from the same seed in every call. -/
  random : Dense R → Nat → Nat → Nat → Nat → R

namespace Dense

/-- Contents of a matrix with `a.cols + b.cols` columns after its two children of
`split({rows}, cols.split_at(a.cols), false)` were filled with `a` and `b`
(addition.cpp:95-100, 147-152). -/
def hcat (a b : Dense R) : Dense R :=
  ⟨a.rows, a.cols + b.cols, fun i j => if j < a.cols then a.val i j else b.val i (j - a.cols)⟩

/-- The same for two children one above the other (addition.cpp:106-111,
162-167). -/
def vcat (a b : Dense R) : Dense R :=
  ⟨a.rows + b.rows, a.cols, fun i j => if i < a.rows then a.val i j else b.val (i - a.rows) j⟩

/-- `Dense::copy_to(B)` for an `m x n` matrix `B`, dense.cpp:141-149: the new
contents of `B`. -/
def copyTo (A : Dense R) (m n : Nat) : Except Err (Dense R) := do
  assertM (decide (m ≤ A.rows))
  assertM (decide (n ≤ A.cols))
  .ok ⟨m, n, A.val⟩

end Dense

namespace Lapack

/-- `qr(A, Q, R)` with `Q: qr x qc`, `R: rr x rc`, asserts of qr.cpp:66-68. -/
def qrInto (L : Lapack R) (A : Dense R) (qr qc rr rc : Nat) : Except Err (Dense R × Dense R) := do
  assertM (decide (qr = A.rows))
  assertM (decide (qc = rr))
  assertM (decide (rc = A.cols))
  .ok (⟨qr, qc, (L.qr A qc).1⟩, ⟨rr, rc, (L.qr A qc).2⟩)

/-- `rq(A, R, Q)` with `R: rr x rc`, `Q: qr x qc`, asserts of rq.cpp:44-46. -/
def rqInto (L : Lapack R) (A : Dense R) (rr rc qr qc : Nat) : Except Err (Dense R × Dense R) := do
  assertM (decide (rr = A.rows))
  assertM (decide (rc = qr))
  assertM (decide (qc = A.cols))
  .ok (⟨rr, rc, (L.rq A rc).1⟩, ⟨qr, qc, (L.rq A rc).2⟩)

/-- `svd(A)`, src/operations/LAPACK/svd.cpp:23-45: `U: m x k`, `S: k x k`
diagonal, `V: k x n`, `k = min(m,n)`. -/
def svdNew [Zero R] (L : Lapack R) (A : Dense R) : Dense R × Dense R × Dense R :=
  let k := min A.rows A.cols
  (⟨A.rows, k, (L.svd A).1⟩, ⟨k, k, fun i j => if i = j then (L.svd A).2.1 i else 0⟩,
    ⟨k, A.cols, (L.svd A).2.2⟩)

variable [CommRing R]

/-- `rsvd(const Dense&, sample_size)`, src/operations/randomized/rsvd.cpp:18-30. -/
def rsvd (L : Lapack R) (A : Dense R) (k : Nat) : Except Err (Dense R × Dense R × Dense R) := do
  let Y ← Dense.gemmNew A ⟨A.cols, k, L.random A A.cols k⟩ 1 false false
  let q ← L.qrInto Y Y.rows Y.cols Y.cols Y.cols
  let QtA ← Dense.gemmNew q.1 A 1 true false
  let s := L.svdNew QtA
  let U ← Dense.gemmNew q.1 s.1 1 false false
  .ok (U, s.2.1, s.2.2)

/-- `old_rsvd(const Dense&, sample_size)`, rsvd.cpp:46-63. -/
def oldRsvd (L : Lapack R) (A : Dense R) (k : Nat) : Except Err (Dense R × Dense R × Dense R) := do
  let Y ← Dense.gemmNew A ⟨A.cols, k, L.random A A.cols k⟩ 1 false false
  let q ← L.qrInto Y Y.rows Y.cols Y.cols Y.cols
  let Bt ← Dense.gemmNew A q.1 1 true false
  let qb ← L.qrInto Bt A.cols k k k
  let s := L.svdNew qb.2
  let U ← Dense.gemmNew q.1 s.1 1 false true
  let V ← Dense.gemmNew s.2.2 qb.1 1 true true
  .ok (U, s.2.1, V)

/-- `LowRank(const Dense&, int64_t rank)`, low_rank.cpp:40-48. -/
def ofRank (L : Lapack R) (A : Dense R) (rank : Nat) : Except Err (LowRank R) := do
  let f ← L.rsvd A (min (min (rank + 5) A.rows) A.cols)
  let U ← f.1.resize A.rows rank
  let V ← f.2.2.resize rank A.cols
  let S ← f.2.1.resize rank rank
  .ok { dim0 := A.rows, dim1 := A.cols, rank := rank, eps := 0, U, S, V }

/-- `LowRank(const Dense&, double eps)`, low_rank.cpp:60-69. -/
def ofEps (L : Lapack R) (A : Dense R) (eps : R) : Except Err (LowRank R) := do
  let g := L.geqp3 A eps
  let r := g.1
  let f ← L.rqInto ⟨r, A.cols, g.2.2⟩ r r r A.cols
  .ok { dim0 := A.rows, dim1 := A.cols, rank := r, eps := eps, U := ⟨A.rows, r, g.2.1⟩,
        S := f.1, V := f.2 }

/-- Low-rank operations that are never called: a product with dense target. -/
def noOps (R : Type) : LrOps R where
  add _ _ := .error .abort
  ofRank _ _ := .error .abort
  ofEps _ _ := .error .abort
  ofHier _ _ := .error .abort

/-- `rsvd(const Hierarchical&, sample_size)`, rsvd.cpp:32-44.  `A.dim[1]` is the
number of block columns.  `fuel` bounds the recursion of the two products, whose
results are converted to `Dense` (`Dense(MatrixProxy&&)`, dense.cpp:94-106, aborts
on other types). -/
def rsvdHier [DecidableEq R] (L : Lapack R) (fuel : Nat) (A : Mat R) (bc k : Nat) :
    Except Err (Dense R × Dense R × Dense R) := do
  let RN : Dense R := ⟨bc, k, L.random (Dense.zero A.nRows A.nCols) bc k⟩
  let Y ← Mat.gemmNew (noOps R) fuel A (.dense RN) 1 false false
  let Y ← Y.asDense
  let q ← L.qrInto Y Y.rows Y.cols Y.cols Y.cols
  let QtA ← Mat.gemmNew (noOps R) fuel (.dense q.1) A 1 true false
  let QtA ← QtA.asDense
  let s := L.svdNew QtA
  let U ← Dense.gemmNew q.1 s.1 1 false false
  .ok (U, s.2.1, s.2.2)

/-- `LowRank(const Hierarchical&, int64_t rank)`, low_rank.cpp:50-58: the recorded
dimensions are the numbers of blocks. -/
def ofHier [DecidableEq R] (L : Lapack R) (fuel : Nat) (A : Mat R) (rank : Nat) :
    Except Err (LowRank R) :=
  match A with
  | .hier br bc _ => do
    let f ← L.rsvdHier fuel A bc (min (min (rank + 5) br) bc)
    let U ← f.1.resize br rank
    let V ← f.2.2.resize rank bc
    let S ← f.2.1.resize rank rank
    .ok { dim0 := br, dim1 := bc, rank := rank, eps := 0, U, S, V }
  | _ => .error .abort

end Lapack

namespace LowRank

variable [CommRing R]

/-- `naive_addition`, addition.cpp:68-89. The merged factors are converted with
`Dense(const Matrix&)`. -/
def naiveAdd (L : Lapack R) (A B : LowRank R) : Except Err (LowRank R) :=
  if A.rank + B.rank ≥ min A.dim0 A.dim1 then do
    let a ← A.toDense
    let b ← B.toDense
    let s ← a.add b
    L.ofRank s A.rank
  else do
    let U ← (Mat.hier 1 2 (fun _ j => .dense (if j = 0 then A.U else B.U))).toDense
    let S ← (Mat.hier 2 2 (fun i j => .dense (
      if i = 0 then (if j = 0 then A.S else Dense.zero A.rank B.rank)
      else (if j = 0 then Dense.zero B.rank A.rank else B.S)))).toDense
    let V ← (Mat.hier 2 1 (fun i _ => .dense (if i = 0 then A.V else B.V))).toDense
    .ok { A with rank := A.rank + B.rank, U := U, S := S, V := V }

/-- `rounded_addition`, addition.cpp:93-127. -/
def roundedAdd [DecidableEq R] (L : Lapack R) (A B : LowRank R) : Except Err (LowRank R) := do
  let u0 ← Dense.gemm A.U A.S (Dense.zero A.U.rows A.S.cols) 1 0 false false
  let u1 ← Dense.gemm B.U B.S (Dense.zero A.U.rows B.S.cols) 1 0 false false
  let Uc := Dense.hcat u0 u1
  let qu ← L.qrInto Uc Uc.rows (min Uc.rows Uc.cols) (min Uc.rows Uc.cols) Uc.cols
  let v0 ← A.V.copyTo A.V.rows A.V.cols
  let v1 ← B.V.copyTo B.V.rows A.V.cols
  let Vc := Dense.vcat v0 v1
  let qv ← L.rqInto Vc Vc.rows (min Vc.rows Vc.cols) (min Vc.rows Vc.cols) Vc.cols
  let RR ← Dense.gemmNew qu.2 qv.1 1 false false
  let s := L.svdNew RR
  let rank := if A.eps ≠ 0 then L.truncRank s.2.1 A.eps else A.rank
  let S ← s.2.1.resize rank rank
  let u ← s.1.resize s.1.rows rank
  let U ← Dense.gemmNew qu.1 u 1 false false
  let v ← s.2.2.resize rank s.2.2.cols
  let V ← Dense.gemmNew v qv.2 1 false false
  .ok { A with rank := rank, U := U, S := S, V := V }

/-- `fast_rounded_addition`, addition.cpp:133-189. -/
def fastAdd [DecidableEq R] (L : Lapack R) (A B : LowRank R) : Except Err (LowRank R) :=
  if A.eps ≠ 0 then roundedAdd L A B
  else do
    let Zu ← Dense.gemmNew A.U B.U 1 true false
    let Yu ← Dense.gemm A.U Zu B.U (-1) 1 false false
    let qu ← L.qrInto Yu Yu.rows (min Yu.rows Yu.cols) (min Yu.rows Yu.cols) Yu.cols
    let u0 ← A.U.copyTo A.U.rows A.U.cols
    let u1 ← qu.1.copyTo A.U.rows qu.1.cols
    let Uc := Dense.hcat u0 u1
    let Zv ← Dense.gemmNew B.V A.V 1 false true
    let Yv ← Dense.gemm Zv A.V B.V (-1) 1 false false
    let qv ← L.rqInto Yv Yv.rows (min Yv.rows Yv.cols) (min Yv.rows Yv.cols) Yv.cols
    let v0 ← A.V.copyTo A.V.rows A.V.cols
    let v1 ← qv.2.copyTo qv.2.rows A.V.cols
    let Vc := Dense.vcat v0 v1
    let ZuS ← Dense.gemmNew Zu B.S 1 false false
    let RuS ← Dense.gemmNew qu.2 B.S 1 false false
    let m00 ← A.S.copyTo A.S.rows A.S.cols
    let m00 ← Dense.gemm ZuS Zv m00 1 1 false false
    let m01 ← Dense.gemm ZuS qv.1 (Dense.zero A.S.rows B.S.cols) 1 0 false false
    let m10 ← Dense.gemm RuS Zv (Dense.zero B.S.rows A.S.cols) 1 0 false false
    let m11 ← Dense.gemm RuS qv.1 (Dense.zero B.S.rows B.S.cols) 1 0 false false
    let M := Dense.vcat (Dense.hcat m00 m01) (Dense.hcat m10 m11)
    let s := L.svdNew M
    let S ← s.2.1.resize A.rank A.rank
    let u ← s.1.resize s.1.rows A.rank
    let U ← Dense.gemmNew Uc u 1 false false
    let v ← s.2.2.resize A.rank s.2.2.cols
    let V ← Dense.gemmNew v Vc 1 false false
    .ok { A with U := U, S := S, V := V }

end LowRank

/-- Value of `FRANK_LRA` (addition.cpp:194-200); every other string selects fast
rounded addition. -/
inductive LraMode where
  | naive | rounded | fast

/-- The low-rank operations of the library. `fuel` bounds the products in the
constructor from hierarchical matrices. -/
def Lapack.ops [CommRing R] [DecidableEq R] (L : Lapack R) (mode : LraMode) (fuel : Nat) : LrOps R where
  add A B := match mode with
    | .naive => A.naiveAdd L B
    | .rounded => A.roundedAdd L B
    | .fast => A.fastAdd L B
  ofRank := L.ofRank
  ofEps := L.ofEps
  ofHier := L.ofHier fuel

end Verif
