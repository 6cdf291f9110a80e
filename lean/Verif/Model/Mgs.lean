import Verif.Model.Qr
import Verif.Model.LrAdd
import Mathlib.Analysis.Real.Sqrt

/-
Block Gram-Schmidt QR, src/operations/LAPACK/mgs_qr.cpp.

Value-level model as in `Verif/Model/Qr.lean`.  Block columns are functions from
the block row; `mgs_qr` returns the new values of `Q` and `R`, what is left in `A`
is not modelled.
-/

namespace Verif
open Finset

variable {R : Type}

namespace Mat

section
variable [CommRing R]

/-- `make_left_orthogonal`, mgs_qr.cpp:37-62. -/
def makeLeftOrthogonal : Mat R → Except Err (Dense R × Dense R)
  | .dense d => .ok (Dense.ident d.rows d.rows, d)
  | .lowRank l => do
    let sv ← Dense.gemmNew l.S l.V 1 false false
    .ok (l.U, sv)
  | _ => .error .abort

/-! ### splitting a block column -/

/-- A block container under construction; `none` is a block that is not assigned. -/
abbrev Cells (R : Type) := Nat → Nat → Option (Mat R)

/-- `for (j<n) storage(r, j) = g(j)` on a `rows`-by-`cols` container; element access
is checked, hierarchical.cpp:176-180. -/
def writeRow (rows cols : Nat) (r n : Nat) (g : Nat → Mat R) (S : Cells R) : Except Err (Cells R) :=
  loop n (fun j S => do
    assertM (decide (r < rows))
    assertM (decide (j < cols))
    .ok (fun a b => if a = r ∧ b = j then some (g j) else S a b)) S

/-- The blocks of a hierarchical matrix. -/
def blocksOf : Mat R → Nat → Nat → Mat R
  | .hier _ _ blk => blk
  | _ => fun _ _ => .empty 0 0

/-- `split_by_column(A, storage, currentRow)`, mgs_qr.cpp:65-120, on a
`rows`-by-`cols` container: the returned left factor, the container and the next
row. -/
def splitByColumn (rows cols : Nat) : Mat R → Cells R × Nat → Except Err (Dense R × Cells R × Nat)
  | .dense d, st => do
    let s ← split (.dense d) 1 cols
    let S ← writeRow rows cols st.2 cols (s.blocksOf 0) st.1
    .ok (Dense.zero 0 0, S, st.2 + 1)
  | .lowRank l, st => do
    let x ← makeLeftOrthogonal (.lowRank l)
    let s ← split (.dense x.2) 1 cols
    let S ← writeRow rows cols st.2 cols (s.blocksOf 0) st.1
    .ok (x.1, S, st.2 + 1)
  | .hier br bc blk, st => do
    let S ← loop br (fun i S => writeRow rows cols (st.2 + i) bc (blk i) S) st.1
    .ok (Dense.zero 0 0, S, st.2 + br)
  | .empty _ _, _ => .error .abort

/-- `update_splitted_size(A, rows, cols)`, mgs_qr.cpp:208-229. -/
def updateSplittedSize : Mat R → Nat × Nat → Nat × Nat
  | .hier br bc _, s => (s.1 + br, bc)
  | _, s => (s.1 + 1, s.2)

/-- Number of block rows and columns of the split block column,
mgs_qr.cpp:235-239. -/
def splitSize (p : Nat) (A : Nat → Mat R) : Nat × Nat :=
  (List.range p).foldl (fun s i => updateSplittedSize (A i) s) (0, 1)

/-- Result of `split_block_col`: a `rows`-by-`cols` grid of blocks and the left
factors. -/
structure SplitCol (R : Type) where
  rows : Nat
  cols : Nat
  blk : Nat → Nat → Mat R
  left : Nat → Dense R

/-- `split_block_col(j, A)`, mgs_qr.cpp:232-247, on block column `A` with `p`
blocks.  Using a block that was not assigned violates an assertion
(`Hierarchical Q_splitA(splitA)`, mgs_qr.cpp:315, copies all of them). -/
def splitBlockCol (p : Nat) (A : Nat → Mat R) : Except Err (SplitCol R) := do
  let s := splitSize p A
  let x ← loop p (fun i (st : (Cells R × Nat) × (Nat → Dense R)) => do
    let y ← splitByColumn s.1 s.2 (A i) st.1
    .ok (y.2, fun a => if a = i then y.1 else st.2 a))
    (((fun _ _ => none), 0), fun _ => Dense.zero 0 0)
  let blk ← collect2 s.1 s.2 (fun i j => (x.1.1 i j).elim (.error .assertFail) .ok)
  .ok ⟨s.1, s.2, blk, x.2⟩

/-! ### restoring a block column -/

/-- Row `r` of the split block column as one dense matrix, mgs_qr.cpp:143-147 and
163-167. -/
def concatRow (rows cols : Nat) (S : Nat → Nat → Mat R) (r : Nat) : Except Err (Dense R) := do
  let row ← collect cols (fun i => blockAt rows cols S r i)
  (Mat.hier 1 cols (fun _ i => row i)).toDense

/-- `concat_columns(A, splitted, Q, currentRow)`, mgs_qr.cpp:123-205, for a
`rows`-by-`cols` matrix `splitted`: the restored block and the next row. -/
def concatColumns (rows cols : Nat) (S : Nat → Nat → Mat R) :
    Mat R → Dense R → Nat → Except Err (Mat R × Nat)
  | .dense a, _, r => do
    let d ← concatRow rows cols S r
    assertM (decide (a.rows = d.rows))
    assertM (decide (a.cols = d.cols))
    .ok (.dense d, r + 1)
  | .lowRank a, q, r => do
    let d ← concatRow rows cols S r
    assertM (decide (a.dim0 = q.rows))
    assertM (decide (a.dim1 = d.cols))
    assertM (decide (q.cols = d.rows))
    .ok (.lowRank { LowRank.ofFactors q (Dense.ident q.cols q.cols) d with eps := a.eps }, r + 1)
  | .hier br bc _, _, r => do
    assertM (decide (cols = bc))
    let g ← collect2 br bc (fun i j => blockAt rows cols S (r + i) j)
    .ok (.hier br bc g, r + br)
  | .empty _ _, _, _ => .error .abort

/-- `restore_block_col(j, Q_splitA, QL, Q)`, mgs_qr.cpp:249-258, on block column `Q`
with `p` blocks: the new block column. -/
def restoreBlockCol (p rows cols : Nat) (S : Nat → Nat → Mat R) (left : Nat → Dense R) (Q : Nat → Mat R) :
    Except Err (Nat → Mat R) := do
  let x ← loop p (fun i (st : (Nat → Mat R) × Nat) => do
    let y ← concatColumns rows cols S (st.1 i) (left i) st.2
    .ok (fun a => if a = i then y.1 else st.1 a, y.2)) (Q, 0)
  .ok x.1

/-! ### orthogonalization -/

variable [DecidableEq R]

/-- `orthogonalize_block_col(j, A, Q, R)` for `Dense` `R`, mgs_qr.cpp:275-306, on
block columns with `p` blocks: the new block column of `Q` and the new `R`.
`dorgqr` rejects matrices with more columns than rows and leaves `Q` undefined; the
model reports that as `ub`. -/
def orthogonalizeDense (L : Lapack R) (o : LrOps R) (fuel p : Nat) (A Q : Nat → Mat R) :
    Except Err ((Nat → Mat R) × Mat R) := do
  let B ← collect p (fun i => makeLeftOrthogonal (A i))
  let D ← (Mat.hier p 1 (fun i _ => .dense (B i).2)).toDense
  if D.cols ≤ D.rows then do
    let x ← L.qrInto D D.rows D.cols D.cols D.cols
    let new ← collect p (fun i => do
      assertM (decide ((B i).2.rows ≤ x.1.rows - psum (fun a => (B a).2.rows) i))
      assertM (decide ((B i).2.cols ≤ x.1.cols))
      gemm o fuel (.dense (B i).1)
        (.dense (x.1.sub (psum (fun a => (B a).2.rows) i) 0 (B i).2.rows (B i).2.cols)) (Q i) 1 0 false false)
    .ok (fun i => if i < p then new i else Q i, .dense x.2)
  else .error .ub

/-- Type of `mgs_qr` on hierarchical matrices: `A` and `Q` with their block counts,
then `R`. -/
abbrev MgsT (R : Type) := Nat → Nat → (Nat → Nat → Mat R) → Nat → Nat → (Nat → Nat → Mat R) →
  Nat → Nat → (Nat → Nat → Mat R) → Except Err ((Nat → Nat → Mat R) × (Nat → Nat → Mat R))

/-- `orthogonalize_block_col(j, A, Q, R)`, mgs_qr.cpp:270-318; `mgs` is the recursive
call.  There is no fallback method, yomm2 aborts on other kinds of `R`. -/
def orthogonalizeBlockCol (L : Lapack R) (o : LrOps R) (fuel : Nat) (mgs : MgsT R) (p : Nat)
    (A Q : Nat → Mat R) : Mat R → Except Err ((Nat → Mat R) × Mat R)
  | .dense _ => orthogonalizeDense L o fuel p A Q
  | .hier rr rc Rb => do
    let s ← splitBlockCol p A
    let x ← mgs s.rows s.cols s.blk s.rows s.cols s.blk rr rc Rb
    let Q' ← restoreBlockCol p s.rows s.cols x.1 s.left Q
    .ok (Q', .hier rr rc x.2)
  | _ => .error .abort

/-- `R(j,k) = Q(:,j)^T * A(:,k)` and `A(:,k) -= Q(:,j) * R(j,k)`, mgs_qr.cpp:352-357,
on block column `A(:,k)` with `p` blocks: the new `R(j,k)` and the new column.  `beta`
is the factor of the old `R(j,k)`: 0 in `mgs_qr`, 1 in
examples/forkjoin_blocked_mgs_blr_qr.cpp:62. -/
def projectCol (o : LrOps R) (fuel : Nat) (beta : R) (p : Nat) (q qt : Nat → Mat R) (r : Mat R) (a : Nat → Mat R) :
    Except Err (Mat R × (Nat → Mat R)) := do
  let r ← loop p (fun i r => gemm o fuel (qt i) (a i) r 1 (if i = 0 then beta else 1) false false) r
  let new ← collect p (fun i => gemm o fuel (q i) r (a i) (-1) 1 false false)
  .ok (r, fun i => if i < p then new i else a i)

/-- Step `j` of the loop of `mgs_qr`, mgs_qr.cpp:345-359, on the blocks of `A`, `Q`
and `R`; `beta` as in `projectCol`. -/
def mgsStep (L : Lapack R) (o : LrOps R) (fuel : Nat) (mgs : MgsT R) (beta : R) (p n j : Nat)
    (st : (Nat → Nat → Mat R) × (Nat → Nat → Mat R) × (Nat → Nat → Mat R)) :
    Except Err ((Nat → Nat → Mat R) × (Nat → Nat → Mat R) × (Nat → Nat → Mat R)) := do
  let x ← orthogonalizeBlockCol L o fuel mgs p (fun i => st.1 i j) (fun i => st.2.1 i j) (st.2.2 j j)
  let qt ← collect p (fun i => (x.1 i).transpose)
  let y ← loop (n - (j + 1)) (fun u (s : (Nat → Nat → Mat R) × (Nat → Nat → Mat R)) => do
    let z ← projectCol o fuel beta p x.1 qt (s.2 j (j + 1 + u)) (fun i => s.1 i (j + 1 + u))
    .ok (putCol s.1 (j + 1 + u) z.2, putBlk s.2 j (j + 1 + u) z.1)) (st.1, putBlk st.2.2 j j x.2)
  .ok (y.1, putCol st.2.1 j x.1, y.2)

/-- The body of `mgs_qr(A, Q, R)` on hierarchical matrices, mgs_qr.cpp:340-360: the new
blocks of `Q` and `R`.  `mgs` is the recursive call, `beta` as in `projectCol`. -/
def mgsWith (L : Lapack R) (o : LrOps R) (gfuel : Nat) (mgs : MgsT R) (beta : R) : MgsT R :=
  fun p n A qp qn Q rr rc Rb => do
    assertM (decide (qp = p))
    assertM (decide (qn = n))
    assertM (decide (rr = n))
    assertM (decide (rc = n))
    let x ← loop n (fun j st => mgsStep L o gfuel mgs beta p n j st) (A, Q, Rb)
    .ok x.2

/-- `mgs_qr(A, Q, R)` on hierarchical matrices, mgs_qr.cpp:340-360.  `gfuel` bounds the
recursion of the products, the last budget that of `mgs_qr` itself. -/
def mgsHier (L : Lapack R) (o : LrOps R) (gfuel : Nat) : Nat → MgsT R
  | 0 => fun _ _ _ _ _ _ _ _ _ => .error .fuel
  | fuel + 1 => mgsWith L o gfuel (mgsHier L o gfuel fuel) 0

end

end Mat

namespace Dense

open Classical in
/-- Step `j` of `mgs_qr` on `Dense`, mgs_qr.cpp:325-336, on the contents of `A`
(`m`-by-`n`) and `R`.  A zero column makes the code divide by zero and go on with
values that are not numbers; the model reports that as `ub`. -/
noncomputable def mgsStep (m n j : Nat) (st : (Nat → Nat → ℝ) × (Nat → Nat → ℝ)) :
    Except Err ((Nat → Nat → ℝ) × (Nat → Nat → ℝ)) :=
  let nrm := Real.sqrt (∑ i ∈ range m, st.1 i j ^ 2)
  if nrm = 0 then .error .ub else
    loop (n - (j + 1)) (fun u s =>
      let d := ∑ i ∈ range m, s.1 i j * s.1 i (j + 1 + u)
      .ok (fun a b => if b = j + 1 + u then s.1 a b - d * s.1 a j else s.1 a b,
        fun a b => if a = j ∧ b = j + 1 + u then d else s.2 a b))
      (fun a b => if b = j then 1 / nrm * st.1 a b else st.1 a b,
        fun a b => if a = j ∧ b = j then nrm else st.2 a b)

/-- `mgs_qr(A, Q, R)` on `Dense`, mgs_qr.cpp:320-338: the new `Q` and `R`.  The code
passes `A.dim[1]` as leading dimension to BLAS; the model is about matrices for which
that is the stride. -/
noncomputable def mgsQr (A Q Rm : Dense ℝ) : Except Err (Dense ℝ × Dense ℝ) := do
  assertM (decide (Q.rows = A.rows))
  assertM (decide (Q.cols = A.cols))
  assertM (decide (Rm.rows = A.cols))
  assertM (decide (Rm.cols = A.cols))
  let x ← loop A.cols (fun j st => mgsStep A.rows A.cols j st) (A.val, Rm.val)
  .ok (⟨A.rows, A.cols, x.1⟩, ⟨Rm.rows, Rm.cols, x.2⟩)

end Dense

end Verif
