import Verif.Model.Mat

/-
In-place addition of matrices, src/operations/arithmetic/addition.cpp.
-/

namespace Verif
open Finset

variable {R : Type}

/-- The operations on low-rank matrices that compress, as parameters of the model
of addition and multiplication.  Their concrete models are in
`Verif/Model/LrAdd.lean`. -/
structure LrOps (R : Type) where
  /-- `naive_addition`, `rounded_addition` or `fast_rounded_addition`,
  addition.cpp:68-189, whichever `FRANK_LRA` selects. -/
  add : LowRank R → LowRank R → Except Err (LowRank R)
  /-- `LowRank(const Dense&, int64_t rank)`, low_rank.cpp:40-48. -/
  ofRank : Dense R → Nat → Except Err (LowRank R)
  /-- `LowRank(const Dense&, double eps)`, low_rank.cpp:60-69. -/
  ofEps : Dense R → R → Except Err (LowRank R)
  /-- `LowRank(const Hierarchical&, int64_t rank)`, low_rank.cpp:50-58. -/
  ofHier : Mat R → Nat → Except Err (LowRank R)

namespace LrOps

/-- `addition_omm(LowRank, LowRank)`, addition.cpp:191-203. -/
def addAssign (o : LrOps R) (A B : LowRank R) : Except Err (LowRank R) := do
  assertM (decide (A.dim0 = B.dim0))
  assertM (decide (A.dim1 = B.dim1))
  o.add A B

end LrOps

namespace Dense

/-- `addition_omm(Dense, Dense)`, addition.cpp:39-46: the loops run over the
dimensions of `A` and read `B(i,j)`, whose asserts (dense.cpp:189-190) fail if
`B` is smaller. -/
def addAssign [Add R] (A B : Dense R) : Except Err (Dense R) := do
  assertM (decide (A.rows = 0 ∨ A.cols = 0 ∨ (A.rows ≤ B.rows ∧ A.cols ≤ B.cols)))
  .ok ⟨A.rows, A.cols, fun i j => A.val i j + B.val i j⟩

/-- `addition_omm(Dense, LowRank)`, addition.cpp:48-51. -/
def addLowRank [CommRing R] (A : Dense R) (B : LowRank R) : Except Err (Dense R) := do
  let US ← Dense.gemmNew B.U B.S 1 false false
  Dense.gemm US B.V A 1 1 false false

end Dense

namespace Mat

/-- `operator+=(Matrix&, const Matrix&)`, `addition_omm`, addition.cpp:32-66 and
191-208.  The hierarchical cases read `B(i,j)`, which fails an assert
(hierarchical.cpp:171-172) outside `B`; `Hierarchical += LowRank` splits `B` into
as many blocks as `A` has and adds blockwise. -/
def addAssign [CommRing R] (o : LrOps R) : Mat R → Mat R → Except Err (Mat R)
  | .dense a, .dense b => do
    let d ← a.addAssign b
    .ok (.dense d)
  | .dense a, .lowRank b => do
    let d ← a.addLowRank b
    .ok (.dense d)
  | .hier br bc blk, .hier br' bc' blk' => do
    let g ← collect2 br bc (fun i j => do
      assertM (decide (i < br'))
      assertM (decide (j < bc'))
      (blk i j).addAssign o (blk' i j))
    .ok (.hier br bc g)
  | .hier br bc blk, .lowRank b => do
    let BH ← (Mat.lowRank b).split br bc
    match BH with
    | .hier br' bc' blk' =>
      let g ← collect2 br bc (fun i j => do
        assertM (decide (i < br'))
        assertM (decide (j < bc'))
        (blk i j).addAssign o (blk' i j))
      .ok (.hier br bc g)
    | _ => .error .abort
  | .lowRank a, .lowRank b => do
    let l ← o.addAssign a b
    .ok (.lowRank l)
  | _, _ => .error .abort

end Mat
end Verif
