import Verif.Model.FloatGemm
import Verif.Model.Tri
import Mathlib.Data.Real.Basic

/-
Triangular solves and LU factorization as they run on `double`: the products are those of
`Verif.Model.FloatGemm`, the calls of BLAS and LAPACK on dense blocks are operations of an
unspecified floating-point arithmetic.  Method bodies that only select and split blocks
are those of `Verif.Model.Tri`.
-/

namespace Verif

/-- The operations that round.  `dtrsm uplo side T B i j` is entry `(i,j)` of the result of
`cblas_dtrsm` for the triangular matrix `T` (the triangle BLAS reads, with ones on the
diagonal for `CblasUnit`) and the right-hand sides `B`; `dgetrf` is `LAPACKE_dgetrf`: the
packed factors and whether `ipiv` records any row interchange. -/
structure FlLapack extends FlBlas where
  dtrsm : Uplo → Side → (Nat → Nat → ℝ) → Dense ℝ → Nat → Nat → ℝ
  dgetrf : Dense ℝ → Dense ℝ × Bool

namespace FlLapack

variable (F : FlLapack)

/-- `D D` of `trsm`, trsm.cpp:92-104.  As in exact arithmetic, a triangle that is smaller
than needed and a zero on its diagonal are reported as `ub`. -/
noncomputable def trsmDense (uplo : Uplo) (side : Side) (A B : Dense ℝ) : Except Err (Dense ℝ) :=
  let n := side.pick B.rows B.cols
  let T := A.tri uplo (decide (uplo = .lower))
  if B.rows = 0 ∨ B.cols = 0 then .ok B
  else if n ≤ A.rows ∧ n ≤ A.cols ∧ (List.range n).all (fun i => decide (T i i ≠ 0)) then
    .ok ⟨B.rows, B.cols, F.dtrsm uplo side T B⟩
  else .error .ub

/-- The method bodies of `trsm`, trsm.cpp:40-131, with the recursive call as parameter
`t`; only the one for two dense matrices calls BLAS. -/
noncomputable def trsmOmm (g : GemmT ℝ) (t : Mat ℝ → Mat ℝ → Except Err (Mat ℝ)) (uplo : Uplo)
    (side : Side) (A B : Mat ℝ) : Except Err (Mat ℝ) :=
  match A, B with
  | .dense a, .dense b => do
    let d ← F.trsmDense uplo side a b
    .ok (.dense d)
  | A, B => Mat.trsmOmm g t uplo side A B

/-- `trsm` with a given `gemm`; the last argument bounds the depth of the recursion. -/
noncomputable def trsmWith (g : GemmT ℝ) (uplo : Uplo) (side : Side) :
    Nat → Mat ℝ → Mat ℝ → Except Err (Mat ℝ)
  | 0, _, _ => .error .fuel
  | fuel + 1, A, B => F.trsmOmm g (trsmWith g uplo side fuel) uplo side A B

/-- `trsm(A, B, uplo, side)`, trsm.cpp:34-38. -/
noncomputable def trsm (fuel : Nat) (A B : Mat ℝ) (uplo : Uplo) (side : Side) : Except Err (Mat ℝ) :=
  F.trsmWith (F.gemm fuel) uplo side fuel A B

/-- `getrf(A)`, getrf.cpp:40-89: the loops are those of `Mat.getrfWith`, with the
factorization of dense blocks, the products and the solves in floating-point
arithmetic. -/
noncomputable def getrf (fuel : Nat) (A : Mat ℝ) : Except Err (Mat ℝ × Mat ℝ × Bool) :=
  Mat.getrfWith F.dgetrf (F.gemm fuel) (fun A B => F.trsm fuel A B .upper .right)
    (fun A B => F.trsm fuel A B .lower .left) fuel A

end FlLapack
end Verif
