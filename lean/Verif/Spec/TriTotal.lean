import Verif.Spec.Tri
import Mathlib.Algebra.Order.Group.Unbundled.Abs

/-
Specification side of "triangular multiplication, triangular solves and LU
factorization return": block structures the code handles.
-/

namespace Verif
open Finset

variable {R : Type}

namespace Mat

/-- Off-diagonal position in the selected triangle. -/
def InTri (uplo : Uplo) (i k : Nat) : Prop :=
  match uplo with
  | .upper => i < k
  | .lower => k < i

/-- A triangular operand with `b`-by-`b` subdivisions: the diagonal is square, the
blocks of the selected triangle are dense or low-rank or again subdivided
`b`-by-`b`.  Nothing is required of the blocks in the other triangle. -/
def TriSubdiv (b : Nat) (uplo : Uplo) : Mat R → Prop
  | .dense a => a.rows = a.cols
  | .lowRank _ => False
  | .hier p q A => p = b ∧ q = b ∧ (∀ i < p, (A i i).TriSubdiv b uplo) ∧
      ∀ i < p, ∀ k < q, InTri uplo i k → (A i k).Subdiv b
  | .empty _ _ => False

/-- Consistent, evenly subdivided, with `b`-by-`b` subdivisions in the selected
triangle. -/
structure TriRegular (b : Nat) (uplo : Uplo) (A : Mat R) : Prop where
  wf : A.WF
  even : A.Even
  sub : A.TriSubdiv b uplo

/-- No zero on the diagonal of an upper triangle (lower triangles count as unit
triangles). -/
def DiagNonzero [CommRing R] (uplo : Uplo) (A : Mat R) : Prop :=
  uplo = .upper → ∀ i < A.nRows, A.entry i i ≠ 0

/-- Right-hand sides for which a triangular solve is implemented: a solve with a
subdivided upper triangle from the left supports subdivided right-hand sides with
a single block column only, and a solve with a subdivided lower triangle from the
right is not implemented.  A subdivided right-hand side needs a subdivided
triangular matrix. -/
def Solvable (b : Nat) (uplo : Uplo) (side : Side) : Mat R → Mat R → Prop
  | .dense _, .dense _ => True
  | .dense _, .lowRank _ => True
  | .hier _ _ _, .dense _ => ¬(uplo = .lower ∧ side = .right)
  | .hier _ _ _, .lowRank _ => ¬(uplo = .lower ∧ side = .right)
  | .hier p _ A, .hier r s B => ¬(uplo = .lower ∧ side = .right) ∧ (uplo = .upper ∧ side = .left → s = 1) ∧
      p = side.pick r s ∧
      ∀ i < r, ∀ j < s, (B i j).Regular b ∧ Solvable b uplo side (A (side.pick i j) (side.pick i j)) (B i j)
  | _, _ => False

/-- Matrices that LU factorization handles: square diagonal, and wherever a block
to the right of or below a diagonal block is subdivided, so is the diagonal
block. -/
def LuSolvable (b : Nat) : Mat R → Prop
  | .dense a => a.rows = a.cols
  | .lowRank _ => False
  | .hier p q A => p = q ∧ (∀ i < p, (A i i).LuSolvable b) ∧
      ∀ i < p, ∀ k < p, i < k →
        Solvable b .upper .right (A i i) (A k i) ∧ Solvable b .lower .left (A i i) (A i k)
  | .empty _ _ => False

/-- Replacing the outer factor of a low-rank block by one of the same dimensions
keeps `Q`. -/
def OuterStable (Q : LowRank R → Prop) : Prop :=
  ∀ (side : Side) (l : LowRank R) (X : Dense R), Q l → X.rows = (l.outer side).rows →
    X.cols = (l.outer side).cols → Q (l.setOuter side X)

/-- Strictly diagonally dominant columns: the absolute value of every diagonal
entry exceeds the sum of the other absolute values in its column. -/
def ColDominant [Field R] [LinearOrder R] (A : Mat R) : Prop :=
  ∀ j < A.nCols, ∑ i ∈ (range A.nRows).erase j, |A.entry i j| < |A.entry j j|

end Mat

/-- Partial pivoting makes no row interchange on a matrix with strictly
diagonally dominant columns. -/
def LuNoPivot [Field R] [LinearOrder R] (lu : Dense R → Dense R × Bool) : Prop :=
  ∀ D : Dense R, D.rows = D.cols → (Mat.dense D).ColDominant → (lu D).2 = false

end Verif
