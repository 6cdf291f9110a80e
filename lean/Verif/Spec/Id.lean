import Verif.Spec.Lapack
import Verif.Model.Id

/-
What is assumed of the pivoted QR routine, and the vocabulary of the
interpolative decomposition.
-/

namespace Verif
open Finset

variable {R : Type} [CommRing R]

/-- `f` is the overwritten matrix and `P` the column order of a QR factorization of
`A` with column pivoting: `P` is a permutation of the columns, the permuted matrix is
an orthonormal basis times the upper triangle of `f`, and a zero on the diagonal
only occurs if everything that is left to eliminate is zero. -/
structure IsPivotedQr (A : Dense R) (f : Nat → Nat → R) (P : List Nat) : Prop where
  perm : P.Perm (List.range A.cols)
  factor : ∃ Q : Nat → Nat → R, OrthoCols A.rows (min A.rows A.cols) Q ∧
    ∀ i < A.rows, ∀ j < A.cols, A.val i (P.getD j 0) =
      ∑ l ∈ range (min A.rows A.cols), Q i l * if l ≤ j then f l j else 0
  pivot : ∀ l < min A.rows A.cols, f l l = 0 →
    ∀ i < min A.rows A.cols, l ≤ i → ∀ j < A.cols, i ≤ j → f i j = 0

/-- A routine that always returns such a factorization. -/
def PivotedQr.Sound (pqr : PivotedQr R) : Prop := ∀ A, IsPivotedQr A (pqr A).1 (pqr A).2

/-- `A` is a product of an `m`-by-`r` and an `r`-by-`n` matrix. -/
def Dense.RankLe (A : Dense R) (r : Nat) : Prop :=
  ∃ X Y : Nat → Nat → R, ∀ i < A.rows, ∀ j < A.cols, A.val i j = ∑ l ∈ range r, X i l * Y l j

/-- `V` is an interpolation matrix for the columns `P` of `A`: `P` lists `k`
different columns of `A`, `V` has the dimensions `k`-by-`n` and is the identity in
the listed columns. -/
structure Interp (A : Dense R) (k : Nat) (V : Dense R) (P : List Nat) : Prop where
  length : P.length = k
  nodup : P.Nodup
  inside : ∀ c ∈ P, c < A.cols
  rows : V.rows = k
  cols : V.cols = A.cols
  ident : ∀ i < k, ∀ j < k, V.val i (P.getD j 0) = if i = j then 1 else 0

/-- `A = A[:,P] * V`. -/
def Reproduces (A : Dense R) (k : Nat) (V : Dense R) (P : List Nat) : Prop :=
  ∀ i < A.rows, ∀ c < A.cols, A.val i c = ∑ l ∈ range k, A.val i (P.getD l 0) * V.val l c

end Verif
