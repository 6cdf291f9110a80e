import Verif.Spec.Qr
import Verif.Model.Geqp3

/-
Truncated QR factorization with column pivoting, and what is assumed of `dlarfg`.
-/

namespace Verif
open Finset

/-- What is assumed of `dlarfg` on a vector `x` of length `len ≥ 1`: with
`v = (1, v_1, ..., v_{len-1})` the matrix `I - tau v v^T` is orthogonal and maps `x`
to `(beta, 0, ..., 0)`; vectors of length one are left alone. -/
structure Geqp3Env.Sound (E : Geqp3Env) : Prop where
  orth : ∀ len x, (E.larfg (len + 1) x).2.2 * ((E.larfg (len + 1) x).2.2 *
    (1 + ∑ i ∈ range len, (E.larfg (len + 1) x).2.1 (i + 1) * (E.larfg (len + 1) x).2.1 (i + 1))) =
      2 * (E.larfg (len + 1) x).2.2
  head : ∀ len x, x 0 - (E.larfg (len + 1) x).2.2 *
    (x 0 + ∑ i ∈ range len, (E.larfg (len + 1) x).2.1 (i + 1) * x (i + 1)) = (E.larfg (len + 1) x).1
  tail : ∀ len x, ∀ i < len, x (i + 1) - (E.larfg (len + 1) x).2.2 * (E.larfg (len + 1) x).2.1 (i + 1) *
    (x 0 + ∑ p ∈ range len, (E.larfg (len + 1) x).2.1 (p + 1) * x (p + 1)) = 0
  one : ∀ x, (E.larfg 1 x).2.2 = 0

/-- `Q`, `R` is a QR factorization of `A` with column order `P` that was stopped after
`r` steps: `H` is an orthogonal matrix whose first `r` columns are `Q`, `R` is upper
triangular in the order `P`, and `A` in the order `P` is `Q * R` plus the remaining
columns of `H` times the trailing block `B`, which is zero in the first `r`
columns. -/
structure IsTruncatedQr (A Q R : Dense ℝ) (r : Nat) (P : List Nat) (H B : Nat → Nat → ℝ) : Prop where
  le : r ≤ min A.rows A.cols
  Qdims : Q.rows = A.rows ∧ Q.cols = r
  Rdims : R.rows = r ∧ R.cols = A.cols
  perm : P.Perm (List.range A.cols)
  orth : Orthogonal A.rows H
  basis : ∀ i < A.rows, ∀ l < r, Q.val i l = H i l
  tri : ∀ l < r, ∀ j < l, R.val l (P.getD j 0) = 0
  factor : ∀ i < A.rows, ∀ j < A.cols, A.val i (P.getD j 0) =
    ∑ l ∈ range r, Q.val i l * R.val l (P.getD j 0) + ∑ l ∈ Ico r A.rows, H i l * B l j
  trailing : ∀ l < A.rows, r ≤ l → ∀ j < r, B l j = 0

/-- The columns of `A` are short: at most `tol`. -/
def ColumnsLe (A : Dense ℝ) (tol : ℝ) : Prop :=
  ∀ j < A.cols, Real.sqrt (∑ i ∈ range A.rows, A.val i j * A.val i j) ≤ tol

end Verif
