import Verif.Model.FloatGemm
import Verif.Model.FloatNorm

/-
Model of sums and multiples of matrices in floating-point arithmetic,
src/operations/arithmetic/addition.cpp and multiplication.cpp, sums for targets with `Dense` leaves.
-/

namespace Verif.FlArith

/-- `addition_omm(Dense, Dense)`, addition.cpp:39-46, as `Dense.addAssign`; each `+=` rounds.
`operator+(const Dense&, const Dense&)`, addition.cpp:210-218, computes the same into a copy. -/
def addDense (G : FlArith) (A B : Dense ℝ) : Except Err (Dense ℝ) := do
  assertM (decide (A.rows = 0 ∨ A.cols = 0 ∨ (A.rows ≤ B.rows ∧ A.cols ≤ B.cols)))
  .ok ⟨A.rows, A.cols, fun i j => G.add (A.val i j) (B.val i j)⟩

/-- `operator+=(Matrix&, const Matrix&)`, addition.cpp:32-66, as `Mat.addAssign`, on a target with
`Dense` leaves; sums by `G`, products by `F`.  Simplified: `LowRank` targets (addition.cpp:191-203;
`naiveAdd` for the first mode) are not covered here and reported as an abort. -/
def addAssign (G : FlArith) (F : FlBlas) : Mat ℝ → Mat ℝ → Except Err (Mat ℝ)
  | .dense a, .dense b => do
    let d ← G.addDense a b
    .ok (.dense d)
  | .hier br bc blk, .hier br' bc' blk' => do
    let g ← collect2 br bc (fun i j => do
      assertM (decide (i < br'))
      assertM (decide (j < bc'))
      addAssign G F (blk i j) (blk' i j))
    .ok (.hier br bc g)
  -- addition.cpp:48-51, 62-66
  | A, .lowRank b => F.addAssign A (.lowRank b)
  | _, _ => .error .abort

/-- `naive_addition`, addition.cpp:68-89, as `LowRank.naiveAdd`; `trunc` is the truncation
`LowRank(Dense&&, rank)` with whatever its factorization computes. -/
def naiveAdd (G : FlArith) (trunc : Dense ℝ → Nat → Except Err (LowRank ℝ)) (A B : LowRank ℝ) :
    Except Err (LowRank ℝ) :=
  if A.rank + B.rank ≥ min A.dim0 A.dim1 then do
    let a ← G.toDense (.lowRank A)
    let b ← G.toDense (.lowRank B)
    let s ← G.addDense a b
    trunc s A.rank
  else do
    let U ← G.toDense (Mat.hier 1 2 (fun _ j => .dense (if j = 0 then A.U else B.U)))
    let S ← G.toDense (Mat.hier 2 2 (fun i j => .dense (
      if i = 0 then (if j = 0 then A.S else Dense.zero A.rank B.rank)
      else (if j = 0 then Dense.zero B.rank A.rank else B.S))))
    let V ← G.toDense (Mat.hier 2 1 (fun i _ => .dense (if i = 0 then A.V else B.V)))
    .ok { A with rank := A.rank + B.rank, U := U, S := S, V := V }

/-- `operator+=(Matrix&, const Matrix&)` in mode "naive", addition.cpp:32-66, 191-203, on targets of any
structure. -/
def addNaive (G : FlArith) (F : FlBlas) (trunc : Dense ℝ → Nat → Except Err (LowRank ℝ)) :
    Mat ℝ → Mat ℝ → Except Err (Mat ℝ)
  | .dense a, .dense b => do
    let d ← G.addDense a b
    .ok (.dense d)
  | .lowRank a, .lowRank b => do
    assertM (decide (a.dim0 = b.dim0))
    assertM (decide (a.dim1 = b.dim1))
    let c ← G.naiveAdd trunc a b
    .ok (.lowRank c)
  | .hier br bc blk, .hier br' bc' blk' => do
    let g ← collect2 br bc (fun i j => do
      assertM (decide (i < br'))
      assertM (decide (j < bc'))
      addNaive G F trunc (blk i j) (blk' i j))
    .ok (.hier br bc g)
  | .dense a, .lowRank b => do
    let d ← F.addLowRank a b
    .ok (.dense d)
  | .hier br bc blk, .lowRank b => do
    let BH ← (Mat.lowRank b).split br bc
    match BH with
    | .hier br' bc' blk' =>
      let g ← collect2 br bc (fun i j => do
        assertM (decide (i < br'))
        assertM (decide (j < bc'))
        addNaive G F trunc (blk i j) (blk' i j))
      .ok (.hier br bc g)
    | _ => .error .abort
  | _, _ => .error .abort

end Verif.FlArith

namespace Verif.FlBlas

/-- `operator*=(Matrix&, double)`, multiplication.cpp:24-58; in a `LowRank` the middle factor is
multiplied. -/
def scaleMat (F : FlBlas) : Mat ℝ → ℝ → Except Err (Mat ℝ)
  | .dense d, b => .ok (.dense ⟨d.rows, d.cols, fun i j => F.mul (d.val i j) b⟩)
  | .lowRank l, b => .ok (.lowRank { l with S := ⟨l.S.rows, l.S.cols, fun i j => F.mul (l.S.val i j) b⟩ })
  | .hier br bc blk, b => do
    let g ← collect2 br bc (fun i j => scaleMat F (blk i j) b)
    .ok (.hier br bc g)
  | .empty _ _, _ => .error .abort

end Verif.FlBlas
