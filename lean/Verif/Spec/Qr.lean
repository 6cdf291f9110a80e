import Verif.Spec.Lapack
import Verif.Spec.Tri
import Verif.Model.Qr

/-
Specification side of the Householder QR factorizations: block reflectors and
what is assumed of the LAPACK routines that compute them.
-/

namespace Verif
open Finset

variable {R : Type}

/-- Entry `(i,j)` of the block reflector `I - V T V^T`, with `k` columns in `V`. -/
def reflector [CommRing R] (k : Nat) (V T : Nat → Nat → R) (i j : Nat) : R :=
  (if i = j then 1 else 0) - ∑ a ∈ range k, V i a * ∑ b ∈ range k, T a b * V j b

/-- The `m`-by-`m` matrix `H` is orthogonal. -/
def Orthogonal [CommRing R] (m : Nat) (H : Nat → Nat → R) : Prop :=
  ∀ i < m, ∀ j < m,
    ∑ l ∈ range m, H l i * H l j = (if i = j then 1 else 0) ∧
    ∑ l ∈ range m, H i l * H j l = (if i = j then 1 else 0)

/-- `V` on top of each other: the first `n` rows of `X`, then the rows of `Y`. -/
def stack (n : Nat) (X Y : Nat → Nat → R) (i j : Nat) : R := if i < n then X i j else Y (i - n) j

/-- What is assumed of `dgeqrt3` and `dtpqrt2`: the reflector `H = I - V T V^T` they
return is orthogonal, and `H^T` times the given matrix is the returned triangle on
top of zeros.  `V` is the unit lower trapezoid of the result of `dgeqrt3`, and the
identity on top of the new `B` for `dtpqrt2`. -/
structure QrContract [CommRing R] (K : QrKernels R) : Prop where
  geqrt_orth : ∀ A : Dense R, A.cols ≤ A.rows → Orthogonal A.rows
    (reflector A.cols (Dense.tri ⟨A.rows, A.cols, (K.geqrt3 A).1⟩ .lower true)
      (Dense.tri ⟨A.cols, A.cols, (K.geqrt3 A).2⟩ .upper false))
  geqrt_factor : ∀ A : Dense R, A.cols ≤ A.rows → ∀ i < A.rows, ∀ j < A.cols,
    ∑ l ∈ range A.rows,
      reflector A.cols (Dense.tri ⟨A.rows, A.cols, (K.geqrt3 A).1⟩ .lower true)
        (Dense.tri ⟨A.cols, A.cols, (K.geqrt3 A).2⟩ .upper false) l i * A.val l j =
    if i ≤ j then (K.geqrt3 A).1 i j else 0
  tpqrt_orth : ∀ A B : Dense R, A.rows = B.cols → A.cols = B.cols → Orthogonal (B.cols + B.rows)
    (reflector B.cols (stack B.cols (fun i j => if i = j then 1 else 0) (K.tpqrt2 A B).2.1)
      (Dense.tri ⟨B.cols, B.cols, (K.tpqrt2 A B).2.2⟩ .upper false))
  tpqrt_factor : ∀ A B : Dense R, A.rows = B.cols → A.cols = B.cols →
    ∀ i < B.cols + B.rows, ∀ j < B.cols,
    ∑ l ∈ range (B.cols + B.rows),
      reflector B.cols (stack B.cols (fun i j => if i = j then 1 else 0) (K.tpqrt2 A B).2.1)
        (Dense.tri ⟨B.cols, B.cols, (K.tpqrt2 A B).2.2⟩ .upper false) l i *
        stack B.cols (A.tri .upper false) B.val l j =
    if i ≤ j then (K.tpqrt2 A B).1 i j else 0

namespace LowRank

/-- The columns of the left factor are orthonormal. -/
def LeftOrth [CommRing R] (l : LowRank R) : Prop := OrthoCols l.dim0 l.rank l.U.val

end LowRank

namespace LrOps

/-- Low-rank addition returns a left factor with orthonormal columns. -/
def LeftOrth [CommRing R] (o : LrOps R) : Prop := ∀ A B C, o.add A B = .ok C → C.LeftOrth

/-- `Q` depends only on the dimensions, the rank and the tolerance. -/
def ShapeOnly (Q : LowRank R → Prop) : Prop :=
  ∀ l l' : LowRank R, l'.WF → l'.Square → l'.dim0 = l.dim0 → l'.dim1 = l.dim1 → l'.rank = l.rank →
    l'.eps = l.eps → Q l → Q l'

end LrOps

namespace Mat

/-- If the tile is low-rank, its left factor has orthonormal columns. -/
def LrO [CommRing R] (M : Mat R) : Prop := ∀ l, M = .lowRank l → l.LeftOrth

/-- What is needed of the `p`-by-`q` block matrix that is factored: consistent
block structure; if there are low-rank tiles, low-rank addition must be exact and
return orthonormal left factors; and the low-rank tiles below the diagonal must
have orthonormal left factors to begin with. -/
structure QrInput [CommRing R] (o : LrOps R) (p q : Nat) (A : Nat → Nat → Mat R) : Prop where
  wf : (Mat.hier p q A).WF
  sqr : (Mat.hier p q A).Square
  fine : (∀ i < p, ∀ j < q, ∃ d, A i j = .dense d) ∨ (o.Exact False ∧ o.LeftOrth)
  orth : ∀ i < p, ∀ j < i, j < q → (A i j).LrO

/-- What is needed of the `T` passed to the tiled factorization of a matrix whose
block columns have widths `w`: the tiles below the diagonal are dense and square of
the order of their block column. -/
def TInput (p q : Nat) (w : Nat → Nat) (T : Nat → Nat → Mat R) : Prop :=
  ∀ k < q, ∀ i, k < i → i < p → ∃ t : Dense R, T i k = .dense t ∧ t.rows = w k ∧ t.cols = w k

end Mat

end Verif
