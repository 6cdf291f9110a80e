import Verif.Spec.FloatGemm
import Verif.Spec.Tri
import Verif.Model.FloatTrmm

/-
What is assumed of triangular multiplication of dense blocks in floating-point arithmetic
with unit roundoff `u`.
-/

namespace Verif

open Finset

/-- The usual error bound of a product with a triangular matrix of order `n`, for any order
of the operations: every product passes through at most `n + 2` of them. -/
structure FlTrmm.Sound (F : FlTrmm) (u : ℝ) : Prop extends F.toFlBlas.Sound u where
  dtrmm_left : ∀ T α (B : Dense ℝ), ∀ i < B.rows, ∀ j < B.cols,
    |F.dtrmm .left T α B i j - α * ∑ l ∈ range B.rows, T i l * B.val l j| ≤
      ((1 + u) ^ (B.rows + 2) - 1) * (|α| * ∑ l ∈ range B.rows, |T i l| * |B.val l j|)
  dtrmm_right : ∀ T α (B : Dense ℝ), ∀ i < B.rows, ∀ j < B.cols,
    |F.dtrmm .right T α B i j - α * ∑ l ∈ range B.cols, B.val i l * T l j| ≤
      ((1 + u) ^ (B.cols + 2) - 1) * (|α| * ∑ l ∈ range B.cols, |B.val i l| * |T l j|)

end Verif
