import Verif.Spec.Mat
import Verif.Model.Gemm

/-
Specification side of addition and multiplication.
-/

namespace Verif
open Finset

variable {R : Type}

namespace Mat

/-- Entry `(i,j)` of `op(A)`: the matrix itself or its transpose. -/
def opEntry [CommRing R] (t : Bool) (A : Mat R) (i j : Nat) : R :=
  if t then A.entry j i else A.entry i j

/-- Entry `(i,j)` of the product `op(A) * op(B)`. -/
def prodEntry [CommRing R] (ta tb : Bool) (A B : Mat R) (i j : Nat) : R :=
  ∑ l ∈ range (A.opCols ta), A.opEntry ta i l * B.opEntry tb l j

/-- Same block structure: same kinds of blocks of the same dimensions at the same
places.  The ranks of low-rank blocks may differ. -/
def SameShape : Mat R → Mat R → Prop
  | .dense a, .dense b => a.rows = b.rows ∧ a.cols = b.cols
  | .lowRank a, .lowRank b => a.dim0 = b.dim0 ∧ a.dim1 = b.dim1
  | .hier br bc blk, .hier br' bc' blk' =>
    br = br' ∧ bc = bc' ∧ ∀ i < br, ∀ j < bc, (blk i j).SameShape (blk' i j)
  | .empty m n, .empty m' n' => m = m' ∧ n = n'
  | _, _ => False

/-- Structures for which the code of addition is meant: nested blocks are paired
with nested blocks of the same counts, dense with dense of the same dimensions.
A low-rank right operand may meet anything. -/
def Conform : Mat R → Mat R → Prop
  | .dense a, .dense b => a.rows = b.rows ∧ a.cols = b.cols
  | .hier br bc blk, .hier br' bc' blk' =>
    br = br' ∧ bc = bc' ∧ ∀ i < br, ∀ j < bc, (blk i j).Conform (blk' i j)
  | _, _ => True

/-- Transposition flags for which no product of a low-rank with a hierarchical
matrix runs into the branches that ignore the flags (gemm.cpp:485-490,
538-543). -/
def TransSafe (ta tb : Bool) : Mat R → Mat R → Prop
  | .lowRank _, .hier _ _ _ => ta = false
  | .hier _ _ _, .lowRank _ => ta = false ∧ tb = false
  | .hier p q A, .hier r s B => ∀ i < p, ∀ j < q, ∀ k < r, ∀ l < s,
      (if ta then i else j) = (if tb then l else k) → TransSafe ta tb (A i j) (B k l)
  | _, _ => True

/-- Every entry lies in a dense block. -/
def AllDense (A : Mat R) : Prop := ∀ i < A.nRows, ∀ j < A.nCols, A.denseAt i j

/-- All leaves are dense. -/
def DenseLeaves : Mat R → Prop
  | .dense _ => True
  | .lowRank _ => False
  | .hier br bc blk => ∀ i < br, ∀ j < bc, (blk i j).DenseLeaves
  | .empty _ _ => False

/-- All low-rank blocks have rank `k` (and square middle factor). -/
def UniformRank (k : Nat) : Mat R → Prop
  | .dense _ => True
  | .lowRank l => l.rank = k ∧ l.S.cols = k
  | .hier br bc blk => ∀ i < br, ∀ j < bc, (blk i j).UniformRank k
  | .empty _ _ => True

/-- Ranks of the factors: nothing is required if `sq` is false, otherwise all
low-rank blocks of both factors have the same rank.  The product of two low-rank
blocks of different ranks has a rectangular middle factor, which naive addition
does not support. -/
def RankSafe (sq : Prop) (A B : Mat R) : Prop := sq → ∃ k, A.UniformRank k ∧ B.UniformRank k

/-- All low-rank blocks satisfy `Q`. -/
def All (Q : LowRank R → Prop) : Mat R → Prop
  | .dense _ => True
  | .lowRank l => Q l
  | .hier br bc blk => ∀ i < br, ∀ j < bc, (blk i j).All Q
  | .empty _ _ => True

/-- Every subdivision is `b`-by-`b`; leaves are dense or low-rank. -/
def Subdiv (b : Nat) : Mat R → Prop
  | .dense _ => True
  | .lowRank _ => True
  | .hier br bc blk => br = b ∧ bc = b ∧ ∀ i < br, ∀ j < bc, (blk i j).Subdiv b
  | .empty _ _ => False

/-- Regular matrix: consistent, every subdivision `b`-by-`b` and even. -/
structure Regular (b : Nat) (A : Mat R) : Prop where
  wf : A.WF
  even : A.Even
  sub : A.Subdiv b

end Mat

namespace LrOps

/-- The compressing operations return low-rank matrices whose factors fit, with
square middle factor and with the dimensions of the input (for `ofHier` only that
the factors fit).  If `sq` holds, the added matrix is only required to be handled
if its middle factor is square. -/
structure Fits (o : LrOps R) (sq : Prop) : Prop where
  add : ∀ A B C, A.WF → A.Square → B.WF → (sq → B.Square) → A.dim0 = B.dim0 → A.dim1 = B.dim1 →
    o.add A B = .ok C → C.WF ∧ C.Square ∧ C.dim0 = A.dim0 ∧ C.dim1 = A.dim1
  ofRank : ∀ D r C, o.ofRank D r = .ok C →
    C.WF ∧ C.Square ∧ C.dim0 = D.rows ∧ C.dim1 = D.cols
  ofEps : ∀ D e C, o.ofEps D e = .ok C →
    C.WF ∧ C.Square ∧ C.dim0 = D.rows ∧ C.dim1 = D.cols
  ofHier : ∀ M r C, M.WF → o.ofHier M r = .ok C → C.WF ∧ C.Square

/-- The compressing operations lose nothing. -/
structure Exact [CommRing R] (o : LrOps R) (sq : Prop) : Prop where
  add : ∀ A B C, A.WF → A.Square → B.WF → (sq → B.Square) → A.dim0 = B.dim0 → A.dim1 = B.dim1 →
    o.add A B = .ok C → ∀ i < A.dim0, ∀ j < A.dim1, C.entry i j = A.entry i j + B.entry i j
  ofRank : ∀ D r C, o.ofRank D r = .ok C → ∀ i < D.rows, ∀ j < D.cols, C.entry i j = D.val i j
  ofEps : ∀ D e C, o.ofEps D e = .ok C → ∀ i < D.rows, ∀ j < D.cols, C.entry i j = D.val i j
  ofHier : ∀ M r C, M.WF → o.ofHier M r = .ok C → C.dim0 = M.nRows → C.dim1 = M.nCols →
    ∀ i < M.nRows, ∀ j < M.nCols, C.entry i j = M.entry i j

/-- The operations return whenever they are used on a target that satisfies `Q`,
and keep `Q`.  (For the constructor from hierarchical matrices the requirement
concerns fixed-rank targets only, `eps = 0`; it never returns in FRANK unless the
block count equals the number of columns, so that `Q` has to exclude such
targets.) -/
structure Total [CommRing R] (o : LrOps R) (sq : Prop) (Q : LowRank R → Prop) : Prop where
  scale : ∀ (c : LowRank R) (β : R), Q c → Q { c with S := c.S.scale β }
  add : ∀ A B, A.WF → A.Square → B.WF → (sq → B.Square) → A.dim0 = B.dim0 → A.dim1 = B.dim1 →
    Q A → ∃ C, o.add A B = .ok C ∧ Q C
  ofRank : ∀ (c : LowRank R) D, Q c → c.WF → c.eps = 0 → D.rows = c.dim0 → D.cols = c.dim1 →
    ∃ x, o.ofRank D c.rank = .ok x
  ofEps : ∀ (c : LowRank R) D, Q c → c.WF → c.eps ≠ 0 → D.rows = c.dim0 → D.cols = c.dim1 →
    ∃ x, o.ofEps D c.eps = .ok x ∧ Q x
  ofHier : ∀ (c : LowRank R) M, Q c → c.WF → c.eps = 0 → M.WF → M.nRows = c.dim0 → M.nCols = c.dim1 →
    ∃ x, o.ofHier M c.rank = .ok x ∧ x.dim0 = c.dim0 ∧ x.dim1 = c.dim1

end LrOps
end Verif
