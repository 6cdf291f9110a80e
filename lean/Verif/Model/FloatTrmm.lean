import Verif.Model.FloatGemm
import Verif.Model.Tri
import Mathlib.Data.Real.Basic

/-
Triangular multiplication as it runs on `double`: the products are those of
`Verif.Model.FloatGemm`, `cblas_dtrmm` is an operation of an unspecified floating-point
arithmetic.  Method bodies that only select and split blocks are those of
`Verif.Model.Tri`.
-/

namespace Verif

/-- The operations that round.  `dtrmm side T alpha B i j` is entry `(i,j)` of the result of
`cblas_dtrmm` for the matrix `T` (the triangle BLAS reads, with ones on the diagonal for
`CblasUnit`, transposed for `CblasTrans`). -/
structure FlTrmm extends FlBlas where
  dtrmm : Side → (Nat → Nat → ℝ) → ℝ → Dense ℝ → Nat → Nat → ℝ

namespace FlTrmm

variable (F : FlTrmm)

/-- `D D` of `trmm`, trmm.cpp:53-72. -/
noncomputable def trmmDense (side : Side) (uplo : Uplo) (trans unit : Bool) (α : ℝ) (A B : Dense ℝ) :
    Except Err (Dense ℝ) := do
  assertM (decide (A.rows = A.cols))
  assertM (decide (A.rows = side.pick B.rows B.cols))
  let T := fun i j => if trans then A.tri uplo unit j i else A.tri uplo unit i j
  .ok ⟨B.rows, B.cols, F.dtrmm side T α B⟩

/-- The method bodies of `trmm`, trmm.cpp:53-229, with the recursive call as parameter `t`;
those for a dense triangle and a dense (trmm.cpp:53-72) or low-rank (trmm.cpp:74-98)
right-hand side call BLAS. -/
noncomputable def trmmOmm (g : GemmT ℝ) (t : Mat ℝ → Mat ℝ → Except Err (Mat ℝ)) (side : Side)
    (uplo : Uplo) (trans unit : Bool) (α : ℝ) (A B : Mat ℝ) : Except Err (Mat ℝ) :=
  match A, B with
  | .dense a, .dense b => do
    let d ← F.trmmDense side uplo trans unit α a b
    .ok (.dense d)
  | .dense a, .lowRank b => do
    assertM (decide (a.rows = a.cols))
    assertM (decide (a.rows = side.pick b.dim0 b.dim1))
    let d ← F.trmmDense side uplo trans unit α a (b.outer side)
    .ok (.lowRank (b.setOuter side d))
  | A, B => Mat.trmmOmm g t side uplo trans unit α A B

/-- `trmm` with a given `gemm`; the last argument bounds the depth of the recursion. -/
noncomputable def trmmWith (g : GemmT ℝ) (side : Side) (uplo : Uplo) (trans unit : Bool) (α : ℝ) :
    Nat → Mat ℝ → Mat ℝ → Except Err (Mat ℝ)
  | 0, _, _ => .error .fuel
  | fuel + 1, A, B => F.trmmOmm g (trmmWith g side uplo trans unit α fuel) side uplo trans unit α A B

/-- `trmm(A, B, side, uplo, trans, diag, alpha)`, trmm.cpp:37-43. -/
noncomputable def trmm (fuel : Nat) (A B : Mat ℝ) (side : Side) (uplo : Uplo) (trans unit : Bool)
    (α : ℝ) : Except Err (Mat ℝ) :=
  F.trmmWith (F.gemm fuel) side uplo trans unit α fuel A B

end FlTrmm
end Verif
