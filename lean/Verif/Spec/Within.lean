import Verif.Spec.Gemm
import Mathlib.Algebra.Order.Field.Basic
import Mathlib.Algebra.Order.BigOperators.Group.Finset

/-
Specification side of products, solves and factorizations whose low-rank
operations truncate.
-/

namespace Verif
open Finset

namespace LrOps

/-- No low-rank operation changes an entry by more than `τ`. -/
structure Within {K : Type} [Field K] [LinearOrder K] (o : LrOps K) (τ : K) : Prop where
  add : ∀ A B C, A.WF → A.Square → B.WF → A.dim0 = B.dim0 → A.dim1 = B.dim1 → o.add A B = .ok C →
    ∀ i < A.dim0, ∀ j < A.dim1, |C.entry i j - (A.entry i j + B.entry i j)| ≤ τ
  ofRank : ∀ D r C, o.ofRank D r = .ok C → ∀ i < D.rows, ∀ j < D.cols, |C.entry i j - D.val i j| ≤ τ
  ofEps : ∀ D e C, o.ofEps D e = .ok C → ∀ i < D.rows, ∀ j < D.cols, |C.entry i j - D.val i j| ≤ τ
  ofHier : ∀ M r C, M.WF → o.ofHier M r = .ok C → C.dim0 = M.nRows → C.dim1 = M.nCols →
    ∀ i < M.nRows, ∀ j < M.nCols, |C.entry i j - M.entry i j| ≤ τ

/-- The same low-rank operations, giving up as soon as one of them changes an
entry by more than `τ`.  A program that returns with these operations is one in
which no low-rank operation changed an entry by more than `τ`. -/
def checked {K : Type} [Field K] [LinearOrder K] (o : LrOps K) (τ : K) : LrOps K where
  add A B := do
    let C ← o.add A B
    if ∀ i < A.dim0, ∀ j < A.dim1, |C.entry i j - (A.entry i j + B.entry i j)| ≤ τ then .ok C
    else .error .abort
  ofRank D r := do
    let C ← o.ofRank D r
    if ∀ i < D.rows, ∀ j < D.cols, |C.entry i j - D.val i j| ≤ τ then .ok C else .error .abort
  ofEps D e := do
    let C ← o.ofEps D e
    if ∀ i < D.rows, ∀ j < D.cols, |C.entry i j - D.val i j| ≤ τ then .ok C else .error .abort
  ofHier M r := do
    let C ← o.ofHier M r
    if ∀ i < M.nRows, ∀ j < M.nCols, |C.entry i j - M.entry i j| ≤ τ then .ok C else .error .abort

end LrOps

namespace Mat

variable {R : Type}

/-- No leaf of `op(A)` has zero columns. -/
def Wide (t : Bool) : Mat R → Prop
  | .dense a => 0 < opCols t (.dense a)
  | .lowRank a => 0 < opCols t (.lowRank a)
  | .empty m n => 0 < opCols t (.empty m n : Mat R)
  | .hier p q A => ∀ i < p, ∀ j < q, Wide t (A i j)

/-- No leaf is empty. -/
def Filled (A : Mat R) : Prop := A.Wide false ∧ A.Wide true

/-- Where the recursion of a product meets a leaf, the inner dimension there is
positive. -/
def Innr (ta tb : Bool) : Mat R → Mat R → Prop
  | .hier p q A, .hier r s B => ∀ i < p, ∀ j < q, ∀ k < r, ∀ l < s,
      (if ta then i else j) = (if tb then l else k) → Innr ta tb (A i j) (B k l)
  | .hier p q A, _ => (Mat.hier p q A).Wide ta
  | _, .hier r s B => (Mat.hier r s B).Wide (!tb)
  | A, B => 0 < A.opCols ta ∨ 0 < B.opRows tb

end Mat
end Verif
