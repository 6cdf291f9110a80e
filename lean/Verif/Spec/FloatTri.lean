import Verif.Spec.FloatGemm
import Verif.Spec.Tri
import Verif.Model.FloatTri

/-
What is assumed of triangular solves and factorizations of dense blocks in floating-point
arithmetic with unit roundoff `u`, and the structures the error bounds are stated for.
-/

namespace Verif

open Finset

/-- The usual bounds of substitution and elimination, for any order of the operations: the
computed solution of a triangular system of order `n`, multiplied by the triangle, differs
from the right-hand side by no more than `n + 2` rounding errors of the terms involved;
the computed factors of a matrix of order `n`, if no rows were exchanged, multiply to the
matrix up to `n + 2` rounding errors. -/
structure FlLapack.Sound (F : FlLapack) (u : ℝ) : Prop extends F.toFlBlas.Sound u where
  dtrsm_left : ∀ uplo T B, (∀ i j, (uplo = .upper ∧ j < i ∨ uplo = .lower ∧ i < j) → T i j = 0) →
    (∀ i < B.rows, T i i ≠ 0) → ∀ i < B.rows, ∀ j < B.cols,
    |∑ l ∈ range B.rows, T i l * F.dtrsm uplo .left T B l j - B.val i j| ≤
      ((1 + u) ^ (B.rows + 2) - 1) *
      (∑ l ∈ range B.rows, |T i l| * |F.dtrsm uplo .left T B l j| + |B.val i j|)
  dtrsm_right : ∀ uplo T B, (∀ i j, (uplo = .upper ∧ j < i ∨ uplo = .lower ∧ i < j) → T i j = 0) →
    (∀ i < B.cols, T i i ≠ 0) → ∀ i < B.rows, ∀ j < B.cols,
    |∑ l ∈ range B.cols, F.dtrsm uplo .right T B i l * T l j - B.val i j| ≤
      ((1 + u) ^ (B.cols + 2) - 1) *
      (∑ l ∈ range B.cols, |F.dtrsm uplo .right T B i l| * |T l j| + |B.val i j|)
  dgetrf : ∀ D : Dense ℝ, D.rows = D.cols → (F.dgetrf D).2 = false →
    ∀ i < D.rows, ∀ j < D.cols,
    |∑ l ∈ range D.rows,
        (if l < i then (F.dgetrf D).1.val i l else if i = l then 1 else 0) *
        (if j < l then 0 else (F.dgetrf D).1.val l j) - D.val i j| ≤
      ((1 + u) ^ (D.rows + 2) - 1) *
      (∑ l ∈ range D.rows,
        |if l < i then (F.dgetrf D).1.val i l else if i = l then 1 else 0| *
        |if j < l then 0 else (F.dgetrf D).1.val l j| + |D.val i j|)

namespace Mat

/-- Right-hand sides for which solves are modelled in floating-point arithmetic: dense
leaves, or a single low-rank matrix. -/
def SolveTarget : Mat ℝ → Prop
  | .lowRank _ => True
  | B => B.DenseLeaves

end Mat
end Verif
