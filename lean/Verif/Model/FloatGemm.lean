import Verif.Model.Gemm
import Mathlib.Data.Real.Basic

/-
`gemm` into `Dense` targets (and targets split into `Dense` blocks) as it runs on
`double`: every call of BLAS and every multiplication that rounds is an operation of
an unspecified floating-point arithmetic, in the order of the source.  Method bodies
that only select and split blocks are those of `Verif.Model.Gemm`.
-/

namespace Verif

open Finset

/-- The operations that round.  `dgemm m n k alpha a b beta c i j` is entry
`(i,j)` of `cblas_dgemm` for a target of `m` rows and `n` columns and inner dimension
`k`, `a` and `b` being the operands after transposition; BLAS may add the products in
any order, which is why it is not built from single operations.  `mul` is the multiplication of `operator*=`.  `double` values
are represented by the real numbers they denote; overflow, underflow, infinities and
NaN are not modelled. -/
structure FlBlas where
  dgemm : Nat → Nat → Nat → ℝ → (Nat → Nat → ℝ) → (Nat → Nat → ℝ) → ℝ → (Nat → Nat → ℝ) →
    Nat → Nat → ℝ
  mul : ℝ → ℝ → ℝ

namespace FlBlas

variable (F : FlBlas)

/-- `gemm` on `Dense`: asserts of gemm.cpp:44-49, call of gemm.cpp:134-146. -/
def gemmDense (A B C : Dense ℝ) (α β : ℝ) (ta tb : Bool) : Except Err (Dense ℝ) := do
  assertM (decide ((if ta then A.cols else A.rows) = C.rows))
  assertM (decide ((if ta then A.rows else A.cols) = (if tb then B.cols else B.rows)))
  assertM (decide ((if tb then B.rows else B.cols) = C.cols))
  let k := if ta then A.rows else A.cols
  .ok ⟨C.rows, C.cols, F.dgemm C.rows C.cols k α (A.opVal ta) (B.opVal tb) β C.val⟩

/-- `gemm` on two `Dense` matrices returning a new one, gemm.cpp:65-68 and 110-124. -/
def gemmDenseNew (A B : Dense ℝ) (α : ℝ) (ta tb : Bool) : Except Err (Dense ℝ) := do
  assertM (decide ((if ta then A.rows else A.cols) = (if tb then B.cols else B.rows)))
  F.gemmDense A B (Dense.zero (if ta then A.cols else A.rows) (if tb then B.rows else B.cols))
    α 0 ta tb

/-- `LR D D`, gemm.cpp:148-162. -/
def gemmLrDD (a : LowRank ℝ) (b c : Dense ℝ) (α β : ℝ) (ta tb : Bool) : Except Err (Dense ℝ) := do
  let x ← F.gemmDenseNew (if ta then a.U else a.V) b α ta tb
  let y ← F.gemmDenseNew a.S x 1 ta false
  F.gemmDense (if ta then a.V else a.U) y c 1 β ta false

/-- `D LR D`, gemm.cpp:164-178. -/
def gemmDLrD (a : Dense ℝ) (b : LowRank ℝ) (c : Dense ℝ) (α β : ℝ) (ta tb : Bool) :
    Except Err (Dense ℝ) := do
  let x ← F.gemmDenseNew a (if tb then b.V else b.U) α ta tb
  let y ← F.gemmDenseNew x b.S 1 false tb
  F.gemmDense y (if tb then b.U else b.V) c 1 β false tb

/-- `LR LR D`, gemm.cpp:180-200. -/
def gemmLrLrD (a b : LowRank ℝ) (c : Dense ℝ) (α β : ℝ) (ta tb : Bool) : Except Err (Dense ℝ) := do
  let x ← F.gemmDenseNew (if ta then a.U else a.V) (if tb then b.V else b.U) α ta tb
  let y ← F.gemmDenseNew a.S x 1 ta false
  let z ← F.gemmDenseNew y b.S 1 false tb
  let w ← F.gemmDenseNew (if ta then a.V else a.U) z 1 ta false
  F.gemmDense w (if tb then b.U else b.V) c 1 β false tb

/-- `operator*=`, multiplication.cpp:28-52, on a target with `Dense` leaves; other
leaves are not modelled here. -/
def scale : Mat ℝ → ℝ → Except Err (Mat ℝ)
  | .dense d, b => .ok (.dense ⟨d.rows, d.cols, fun i j => F.mul (d.val i j) b⟩)
  | .hier br bc blk, b => do
    let g ← collect2 br bc (fun i j => scale (blk i j) b)
    .ok (.hier br bc g)
  | _, _ => .error .abort

/-- `addition_omm(Dense, LowRank)`, addition.cpp:48-51. -/
def addLowRank (A : Dense ℝ) (B : LowRank ℝ) : Except Err (Dense ℝ) := do
  let US ← F.gemmDenseNew B.U B.S 1 false false
  F.gemmDense US B.V A 1 1 false false

/-- `operator+=` of a `LowRank`, addition.cpp:48-66, on a target with `Dense` leaves;
other leaves are not modelled here. -/
def addAssign : Mat ℝ → Mat ℝ → Except Err (Mat ℝ)
  | .dense a, .lowRank b => do
    let d ← F.addLowRank a b
    .ok (.dense d)
  | .hier br bc blk, .lowRank b => do
    let BH ← (Mat.lowRank b).split br bc
    match BH with
    | .hier br' bc' blk' =>
      let g ← collect2 br bc (fun i j => do
        assertM (decide (i < br'))
        assertM (decide (j < bc'))
        addAssign (blk i j) (blk' i j))
      .ok (.hier br bc g)
    | _ => .error .abort
  | _, _ => .error .abort

/-- `C *= beta; C += AxB;` with `AxB` a `LowRank` (for instance gemm.cpp:370-371). -/
def scaleAdd (C : Mat ℝ) (β : ℝ) (X : LowRank ℝ) : Except Err (Mat ℝ) := do
  let C' ← F.scale C β
  F.addAssign C' (.lowRank X)

/-- `LR D H`, gemm.cpp:358-373. -/
def gemmLrD (a : LowRank ℝ) (b : Dense ℝ) (C : Mat ℝ) (α β : ℝ) (ta tb : Bool) :
    Except Err (Mat ℝ) := do
  let V ← F.gemmDenseNew (if ta then a.U else a.V) b α ta tb
  F.scaleAdd C β (LowRank.ofFactors (if ta then a.V.transpose else a.U)
    (if ta then a.S.transpose else a.S) V)

/-- `D LR H`, gemm.cpp:341-356. -/
def gemmDLr (a : Dense ℝ) (b : LowRank ℝ) (C : Mat ℝ) (α β : ℝ) (ta tb : Bool) :
    Except Err (Mat ℝ) := do
  let U ← F.gemmDenseNew a (if tb then b.V else b.U) α ta tb
  F.scaleAdd C β (LowRank.ofFactors U (if tb then b.S.transpose else b.S)
    (if tb then b.U.transpose else b.V))

/-- `LR LR H`, gemm.cpp:375-394. -/
def gemmLrLr (a b : LowRank ℝ) (C : Mat ℝ) (α β : ℝ) (ta tb : Bool) : Except Err (Mat ℝ) := do
  let x ← F.gemmDenseNew a.S (if ta then a.U else a.V) 1 ta ta
  let y ← F.gemmDenseNew (if tb then b.V else b.U) b.S 1 tb tb
  let S ← F.gemmDenseNew x y α false false
  F.scaleAdd C β (LowRank.ofFactors (if ta then a.V.transpose else a.U) S
    (if tb then b.U.transpose else b.V))

/-- `LR H H`, gemm.cpp:468-492. -/
def gemmLrHH (g : GemmT ℝ) (gn : GemmNewT ℝ) (a : LowRank ℝ) (r s : Nat)
    (B : Nat → Nat → Mat ℝ) (m n : Nat) (C : Nat → Nat → Mat ℝ) (α β : ℝ) (ta tb : Bool) :
    Except Err (Mat ℝ) := do
  assertM (decide (Mat.opDim1 tb r s = n))
  if r = 1 ∧ s = 1 then g (.lowRank a) (B 0 0) (.hier m n C) α β ta tb
  else if Mat.opDim0 tb r s = 1 ∧ m = 1 then Mat.gemmRowLoop g (.lowRank a) r s B m n C α β ta tb
  else do
    let V ← gn (.dense a.V) (.hier r s B) α false tb
    let V ← V.asDense
    F.scaleAdd (.hier m n C) β (LowRank.ofFactors a.U a.S V)

/-- `H LR H`, gemm.cpp:522-545. -/
def gemmHLrH (g : GemmT ℝ) (gn : GemmNewT ℝ) (p q : Nat) (A : Nat → Nat → Mat ℝ)
    (b : LowRank ℝ) (m n : Nat) (C : Nat → Nat → Mat ℝ) (α β : ℝ) (ta tb : Bool) :
    Except Err (Mat ℝ) :=
  if p = 1 ∧ q = 1 then g (A 0 0) (.lowRank b) (.hier m n C) α β ta tb
  else if Mat.opDim1 ta p q = 1 ∧ n = 1 then Mat.gemmColLoop g p q A (.lowRank b) m n C α β ta tb
  else do
    let U ← gn (.hier p q A) (.dense b.U) α false tb
    let U ← U.asDense
    F.scaleAdd (.hier m n C) β (LowRank.ofFactors U b.S b.V)

/-- `gemm_omm` with a `Dense` target: the products of leaves round, gemm.cpp:126-200;
the others select and split blocks, gemm.cpp:574-638. -/
def gemmToDense (g : GemmT ℝ) (A B : Mat ℝ) (c : Dense ℝ) (α β : ℝ) (ta tb : Bool) :
    Except Err (Mat ℝ) :=
  match A, B with
  | .dense a, .dense b => do
    let d ← F.gemmDense a b c α β ta tb
    .ok (.dense d)
  | .lowRank a, .dense b => do
    let d ← F.gemmLrDD a b c α β ta tb
    .ok (.dense d)
  | .dense a, .lowRank b => do
    let d ← F.gemmDLrD a b c α β ta tb
    .ok (.dense d)
  | .lowRank a, .lowRank b => do
    let d ← F.gemmLrLrD a b c α β ta tb
    .ok (.dense d)
  | A, B => Mat.gemmToDense g A B c α β ta tb

/-- `gemm_omm` with a `Hierarchical` target, gemm.cpp:341-394 and 420-572. -/
def gemmToHier (g : GemmT ℝ) (gn : GemmNewT ℝ) (A B : Mat ℝ) (m n : Nat)
    (C : Nat → Nat → Mat ℝ) (α β : ℝ) (ta tb : Bool) : Except Err (Mat ℝ) :=
  match A, B with
  | .dense a, .dense b => Mat.gemmDDH g a b m n C α β ta tb
  | .lowRank a, .dense b => F.gemmLrD a b (.hier m n C) α β ta tb
  | .dense a, .lowRank b => F.gemmDLr a b (.hier m n C) α β ta tb
  | .lowRank a, .lowRank b => F.gemmLrLr a b (.hier m n C) α β ta tb
  | .hier p q A, .lowRank b => F.gemmHLrH g gn p q A b m n C α β ta tb
  | .lowRank a, .hier r s B => F.gemmLrHH g gn a r s B m n C α β ta tb
  | .dense a, .hier r s B => Mat.gemmDHH g a r s B m n C α β ta tb
  | .hier p q A, .dense b => Mat.gemmHDH g p q A b m n C α β ta tb
  | .hier p q A, .hier r s B => Mat.gemmHHH g p q A r s B m n C α β ta tb
  | _, _ => .error .abort

/-- `gemm` in its two versions, gemm.cpp:39-51 and 61-70; targets with `LowRank` leaves
are not modelled here.  The first argument bounds the depth of the recursion. -/
def gemmBoth : Nat → GemmT ℝ × GemmNewT ℝ
  | 0 => (fun _ _ _ _ _ _ _ => .error .fuel, fun _ _ _ _ _ => .error .fuel)
  | fuel + 1 =>
    (fun A B C α β ta tb => do
      assertM (decide (A.opRows ta = C.nRows))
      assertM (decide (A.opCols ta = B.opRows tb))
      assertM (decide (B.opCols tb = C.nCols))
      match C with
      | .dense c => F.gemmToDense (gemmBoth fuel).1 A B c α β ta tb
      | .hier m n C => F.gemmToHier (gemmBoth fuel).1 (gemmBoth fuel).2 A B m n C α β ta tb
      | _ => .error .abort,
     fun A B α ta tb => do
      assertM (decide (A.opCols ta = B.opRows tb))
      Mat.gemmNewOmm (gemmBoth fuel).1 (gemmBoth fuel).2 A B α ta tb)

/-- `gemm(A, B, C, alpha, beta, TransA, TransB)`, gemm.cpp:39-51. -/
def gemm (fuel : Nat) : GemmT ℝ := (F.gemmBoth fuel).1

/-- `gemm(A, B, alpha, TransA, TransB)`, gemm.cpp:61-70. -/
def gemmNew (fuel : Nat) : GemmNewT ℝ := (F.gemmBoth fuel).2

end FlBlas
end Verif
