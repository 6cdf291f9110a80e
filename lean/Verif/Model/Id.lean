import Verif.Model.LrAdd
import Verif.Model.Tri
import Verif.Model.Qr

/-
The interpolative decomposition and its randomized variants,
src/operations/LAPACK/id.cpp and src/operations/randomized/rid.cpp.
-/

namespace Verif

variable {R : Type}

/-- `LAPACKE_dgeqp3`, called by `geqp3`, geqp3.cpp:38-61: the overwritten matrix and
the column order (0-based, as after geqp3.cpp:50-51).  External routine; what is
assumed of it is `IsPivotedQr`. -/
abbrev PivotedQr (R : Type) := Dense R → (Nat → Nat → R) × List Nat

namespace Dense

/-- `geqp3(A)`, src/operations/LAPACK/geqp3.cpp:38-61: the upper triangle of the
first `min(m,n)` rows in an `n`-by-`n` matrix, and the column order. -/
def geqp3 [Zero R] (pqr : PivotedQr R) (A : Dense R) : Dense R × List Nat :=
  (⟨A.cols, A.cols, fun i j => if i < min A.rows A.cols ∧ i ≤ j then (pqr A).1 i j else 0⟩,
    (pqr A).2)

/-- Row `i` of the result of `interleave_id` after the assignments of the first `n`
iterations of the inner loop, id.cpp:34-36. -/
def interleaveRow [Zero R] [One R] (A : Dense R) (P : List Nat) (k i : Nat) : Nat → Nat → R
  | 0 => fun _ => 0
  | j + 1 => fun c => if c = P.getD j 0 then
      (if j < k then (if i = j then 1 else 0) else A.val i (j - k))
    else interleaveRow A P k i j c

/-- `interleave_id(A, P)`, id.cpp:29-39.  The second check is the assert of
`Dense::operator()`, dense.cpp:182-192, for the column index. -/
def interleaveId [Zero R] [One R] (A : Dense R) (P : List Nat) : Except Err (Dense R) := do
  assertM (decide (A.cols ≤ P.length))
  assertM (decide (A.rows = 0 ∨ ∀ c ∈ P, c < P.length))
  .ok ⟨A.rows, P.length, fun i => interleaveRow A P (P.length - A.cols) i P.length⟩

/-- `std::vector::resize(k)` as used in id.cpp:68. -/
def resizeIdx (P : List Nat) (k : Nat) : List Nat := P.take k ++ List.replicate (k - P.length) 0

/-- `get_cols(A, P)`, id.cpp:85-93, with the assert of `Dense::operator()`. -/
def getCols (A : Dense R) (P : List Nat) : Except Err (Dense R) := do
  assertM (decide (A.rows = 0 ∨ ∀ c ∈ P, c < A.cols))
  .ok ⟨A.rows, P.length, fun i j => A.val i (P.getD j 0)⟩

/-- `get_rows(A, P)`, id.cpp:95-103. -/
def getRows (A : Dense R) (P : List Nat) : Except Err (Dense R) := do
  assertM (decide (A.cols = 0 ∨ ∀ c ∈ P, c < A.rows))
  .ok ⟨P.length, A.cols, fun i j => A.val (P.getD i 0) j⟩

variable [Field R] [DecidableEq R]

/-- `one_sided_id(A, k)` for a dense matrix, id.cpp:49-71: `V` and the selected
columns.  `R.split` with `split_at(k)` (id.cpp:59-61) yields the leading `k`-by-`k`
block and the block to its right. -/
def oneSidedId (pqr : PivotedQr R) (A : Dense R) (k : Nat) : Except Err (Dense R × List Nat) := do
  assertM (decide (k ≤ min A.rows A.cols))
  let F := (A.geqp3 pqr).1
  let P := (A.geqp3 pqr).2
  if k < min A.rows A.cols ∨ A.rows < A.cols then do
    let X ← Dense.trsm .upper .left ⟨k, k, F.val⟩ ⟨k, F.cols - k, fun i j => F.val i (k + j)⟩
    let V ← interleaveId X P
    .ok (V, resizeIdx P k)
  else do
    let V ← interleaveId (Dense.ident k k) P
    .ok (V, resizeIdx P k)

/-- `id(A, k)` for a dense matrix, id.cpp:105-116. -/
def id (pqr : PivotedQr R) (A : Dense R) (k : Nat) : Except Err (Dense R × Dense R × Dense R) := do
  let v ← oneSidedId pqr A k
  let AC ← getCols A v.2
  let u ← oneSidedId pqr AC.transpose k
  let S ← getRows AC u.2
  .ok (u.1.transpose, S, v.1)

end Dense

namespace Lapack
variable [Field R] [DecidableEq R]

/-- `rid(A, sample_size, rank)`, src/operations/randomized/rid.cpp:18-31. -/
def rid (L : Lapack R) (pqr : PivotedQr R) (A : Dense R) (k rank : Nat) :
    Except Err (Dense R × Dense R × Dense R) := do
  let Y ← Dense.gemmNew A ⟨A.cols, k, L.random A A.cols k⟩ 1 false false
  let q ← L.qrInto Y Y.rows Y.cols Y.cols Y.cols
  let QtA ← Dense.gemmNew q.1 A 1 true false
  let f ← Dense.id pqr QtA rank
  let U ← Dense.gemmNew q.1 f.1 1 false false
  .ok (U, f.2.1, f.2.2)

/-- `one_sided_rid(A, sample_size, rank, column)`, rid.cpp:33-52. -/
def oneSidedRid (L : Lapack R) (pqr : PivotedQr R) (A : Dense R) (k rank : Nat) (column : Bool) :
    Except Err (Dense R × List Nat) :=
  if column then do
    let Y ← Dense.gemmNew ⟨A.rows, k, L.random A A.rows k⟩ A 1 true false
    Dense.oneSidedId pqr Y rank
  else do
    let Y ← Dense.gemmNew A ⟨A.cols, k, L.random A A.cols k⟩ 1 false false
    Dense.oneSidedId pqr Y.transpose rank

/-- `old_one_sided_rid(A, sample_size, rank, transA)`, rid.cpp:54-70. -/
def oldOneSidedRid (L : Lapack R) (pqr : PivotedQr R) (A : Dense R) (k rank : Nat) (transA : Bool) :
    Except Err (Dense R × List Nat) := do
  let n := if transA then A.rows else A.cols
  let Y ← Dense.gemmNew A ⟨n, k, L.random A n k⟩ 1 transA false
  let q ← L.qrInto Y Y.rows Y.cols Y.cols Y.cols
  let QtA ← Dense.gemmNew q.1 A 1 true transA
  Dense.oneSidedId pqr QtA rank

end Lapack
end Verif
