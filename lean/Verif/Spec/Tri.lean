import Verif.Spec.Gemm
import Verif.Model.Tri

/-
Specification side of triangular multiplication, triangular solves and LU
factorization.
-/

namespace Verif
open Finset

variable {R : Type}

namespace Mat

/-- Entry `(i,j)` of the triangle of the represented matrix: the selected part,
zero in the other part, and ones on the diagonal if `unit`. -/
def triEntry [CommRing R] (uplo : Uplo) (unit : Bool) (A : Mat R) (i j : Nat) : R :=
  if i = j then (if unit then 1 else A.entry i j)
  else match uplo with
    | .upper => if i < j then A.entry i j else 0
    | .lower => if j < i then A.entry i j else 0

/-- Entry `(i,j)` of `T * X` or `X * T` for a matrix `T` of order `n`. -/
def sideProd [CommRing R] (side : Side) (n : Nat) (T : Nat → Nat → R) (X : Mat R) (i j : Nat) : R :=
  match side with
  | .left => ∑ l ∈ range n, T i l * X.entry l j
  | .right => ∑ l ∈ range n, X.entry i l * T l j

/-- Square diagonal: the matrix is dense and square, or has as many block rows as
block columns and all its diagonal blocks are of this kind.  Nothing is required
of the other blocks. -/
def DiagSquare : Mat R → Prop
  | .dense a => a.rows = a.cols
  | .lowRank _ => False
  | .hier p q A => p = q ∧ ∀ i < p, (A i i).DiagSquare
  | .empty _ _ => False

/-- Where a subdivided triangular matrix meets a subdivided right-hand side, both
have the same number of blocks along the common dimension (and so on for the
blocks that meet). -/
def TriFits (side : Side) : Mat R → Mat R → Prop
  | .hier p _ A, .hier r s B => p = side.pick r s ∧
      ∀ i < r, ∀ j < s, TriFits side (A (side.pick i j) (side.pick i j)) (B i j)
  | _, _ => True

/-- Structures that LU factorization accepts: square diagonal, and every diagonal
block meets the blocks to its right and below as in `TriFits`. -/
def LuFits : Mat R → Prop
  | .dense a => a.rows = a.cols
  | .lowRank _ => False
  | .hier p q A => p = q ∧ (∀ i < p, (A i i).LuFits) ∧
      ∀ i < p, ∀ k < p, i < k → TriFits .right (A i i) (A k i) ∧ TriFits .left (A i i) (A i k)
  | .empty _ _ => False

end Mat

/-- What is assumed about the external LU factorization of a dense matrix: if it
made no row interchange, the unit lower triangle times the upper triangle of its
result is the matrix. -/
def LuContract [Field R] (lu : Dense R → Dense R × Bool) : Prop :=
  ∀ D : Dense R, D.rows = D.cols → (lu D).2 = false →
    ∀ i < D.rows, ∀ j < D.cols, ∑ l ∈ range D.rows,
      (if l < i then (lu D).1.val i l else if i = l then 1 else 0) *
        (if j < l then 0 else (lu D).1.val l j) = D.val i j

end Verif
