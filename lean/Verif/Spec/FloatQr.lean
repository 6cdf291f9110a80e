import Verif.Spec.Qr
import Verif.Model.FloatQr
import Mathlib.Analysis.InnerProductSpace.PiL2

/-
What is assumed of the LAPACK routines of Householder QR in floating-point arithmetic.
-/

namespace Verif

open Finset

/-- Frobenius norm of the `m`-by-`n` matrix `X`. -/
noncomputable def frob (m n : Nat) (X : Nat → Nat → ℝ) : ℝ :=
  √(∑ i ∈ range m, ∑ j ∈ range n, X i j ^ 2)

/-- Entry `(i,j)` of `P * X`, or of `P^T * X`, for `P` of order `m`. -/
def applyOrth (m : Nat) (trans : Bool) (P X : Nat → Nat → ℝ) (i j : Nat) : ℝ :=
  ∑ l ∈ range m, (if trans then P l i else P i l) * X l j

/-- The usual backward error bounds of Householder QR: the computed reflectors belong to an
exactly orthogonal matrix `P`; the computed triangle, and every later product with the
computed reflectors or their transposes, is within a relative error `ε`, in the Frobenius
norm, of what `P` gives.  This for tiles of at most `nb` rows: `ε` grows with `nb`. -/
structure FlQr.Sound (F : FlQr) (nb : Nat) (ε : ℝ) : Prop where
  geqrt : ∀ A : Dense ℝ, A.cols ≤ A.rows → A.rows ≤ nb → ∃ P, Orthogonal A.rows P ∧
    frob A.rows A.cols (fun i j => (if i ≤ j then (F.geqrt3 A).1 i j else 0) -
      applyOrth A.rows true P A.val i j) ≤ ε * frob A.rows A.cols A.val ∧
    ∀ trans (C : Dense ℝ), C.rows = A.rows →
      frob C.rows C.cols (fun i j =>
        F.dlarfb A.cols (Dense.tri ⟨A.rows, A.cols, (F.geqrt3 A).1⟩ .lower true)
          (upperPart A.cols (F.geqrt3 A).2) trans C i j - applyOrth A.rows trans P C.val i j) ≤
      ε * frob C.rows C.cols C.val
  tpqrt : ∀ A B : Dense ℝ, A.rows = B.cols → A.cols = B.cols → B.cols ≤ nb → B.rows ≤ nb →
    ∃ P, Orthogonal (B.cols + B.rows) P ∧
    frob (B.cols + B.rows) B.cols (fun i j => (if i ≤ j then (F.tpqrt2 A B).1 i j else 0) -
      applyOrth (B.cols + B.rows) true P (stack B.cols (A.tri .upper false) B.val) i j) ≤
      ε * frob (B.cols + B.rows) B.cols (stack B.cols (A.tri .upper false) B.val) ∧
    ∀ trans (C D : Dense ℝ), C.rows = B.cols → D.rows = B.rows → C.cols = D.cols →
      let x := F.dtprfb B.cols (F.tpqrt2 A B).2.1 (upperPart B.cols (F.tpqrt2 A B).2.2) trans C D
      frob (B.cols + B.rows) D.cols (fun i j => stack B.cols x.1 x.2 i j -
        applyOrth (B.cols + B.rows) trans P (stack B.cols C.val D.val) i j) ≤
      ε * frob (B.cols + B.rows) D.cols (stack B.cols C.val D.val)

/-- A grid of `p`-by-`q` dense tiles; block row `i` has `h i` rows, block column `j` has `w j`
columns. -/
def DenseTiles (p q : Nat) (h w : Nat → Nat) (A : Nat → Nat → Mat ℝ) : Prop :=
  ∀ i < p, ∀ j < q, ∃ d : Dense ℝ, A i j = .dense d ∧ d.rows = h i ∧ d.cols = w j

/-- Room for the triangular factors of the reflectors, on and below the diagonal. -/
def TriangleTiles (p q : Nat) (w : Nat → Nat) (T : Nat → Nat → Mat ℝ) : Prop :=
  ∀ k < q, ∀ i, k ≤ i → i < p → ∃ t : Dense ℝ, T i k = .dense t ∧ t.rows = w k ∧ t.cols = w k

/-- The tiles below the block diagonal are zero. -/
def BlockUpper (p q : Nat) (h w : Nat → Nat) (C : Nat → Nat → Mat ℝ) : Prop :=
  ∀ i < p, ∀ j < q, j < i → ∀ r < h i, ∀ s < w j, (C i j).entry r s = 0

/-- Number of tiles on and below the diagonal of a grid with `p` rows and `q` columns. -/
def tileCount (p q : Nat) : Nat := ∑ k ∈ range q, (p - k)

end Verif
