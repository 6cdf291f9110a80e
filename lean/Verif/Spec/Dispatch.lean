import Verif.Model.Dispatch
import Verif.Model.Tri
import Verif.Spec.Mat

/-
Specification for the dispatch of operations (C46).
-/

namespace Verif

variable {R : Type}

/-- The parameter is declared with the class of the argument or with the base class. -/
def Param.Matches (p : Param) (k : Kind) : Prop := p = .any ∨ p = .is k

/-- The first parameter is declared as the second one, or the second with the base class. -/
def Param.Below (p q : Param) : Prop := q = .any ∨ p = q

/-- `m` is the definition that a call with arguments of the classes `ks` must run: it can be
called with them, and is at least as specific in every argument as each other one that can. -/
def MostSpecific (tbl : List Method) (ks : List Kind) (m : Method) : Prop :=
  m ∈ tbl ∧ List.Forall₂ Param.Matches m ks ∧
    ∀ m' ∈ tbl, List.Forall₂ Param.Matches m' ks → List.Forall₂ Param.Below m m'

/-- A call with arguments of these classes runs a definition other than the
error fallback (the definition that accepts every matrix for each argument). -/
def Handled (tbl : List Method) (ks : List Kind) : Prop :=
  ∃ m, resolve tbl ks = .run m ∧ ∃ p ∈ m, p ≠ .any

/-- The call never returns, whatever the bound on the recursion depth. -/
def NeverReturns {α : Type} (call : Nat → Except Err α) : Prop := ∀ fuel x, call fuel ≠ .ok x

namespace Mat

/-- Pairs that addition is defined for, at every depth. -/
inductive Addable : Mat R → Mat R → Prop where
  | dd (a b : Dense R) : Addable (.dense a) (.dense b)
  | dl (a : Dense R) (b : LowRank R) : Addable (.dense a) (.lowRank b)
  | ll (a b : LowRank R) : Addable (.lowRank a) (.lowRank b)
  | hh {br bc br' bc' : Nat} {x y : Nat → Nat → Mat R}
      (h : ∀ i < br, ∀ j < bc, Addable (x i j) (y i j)) : Addable (.hier br bc x) (.hier br' bc' y)
  | hl {br bc : Nat} {x : Nat → Nat → Mat R} {b : LowRank R} (h : (Mat.hier br bc x).NoEmpty) :
      Addable (.hier br bc x) (.lowRank b)

/-- Matrices that `zero_lower` is defined for: dense blocks or nested ones on the
diagonal, no `Empty` below it. -/
def LowerZeroable : Mat R → Prop
  | .dense _ => True
  | .lowRank _ => False
  | .hier br bc blk => ∀ i < br, ∀ j < bc,
      (i = j → (blk i j).LowerZeroable) ∧ (j < i → (blk i j).NoEmpty)
  | .empty _ _ => False

/-- Matrices that `zero_upper` is defined for. -/
def UpperZeroable : Mat R → Prop
  | .dense _ => True
  | .lowRank _ => False
  | .hier br bc blk => ∀ i < br, ∀ j < bc,
      (i = j → (blk i j).UpperZeroable) ∧ (i < j → (blk i j).NoEmpty)
  | .empty _ _ => False

/-- Dense or nested matrices along the diagonal, as deep as it goes. -/
def DiagLeafDense : Mat R → Prop
  | .dense _ => True
  | .lowRank _ => False
  | .hier br bc blk => ∀ i, i < br → i < bc → (blk i i).DiagLeafDense
  | .empty _ _ => False

/-- Triangular matrices that a dense right-hand side can be solved with: dense or
nested along the diagonal; solving with a nested lower triangle from the right is
not implemented. -/
def SolveLeaf (uplo : Uplo) (side : Side) : Mat R → Prop
  | .dense _ => True
  | .lowRank _ => False
  | .hier p q A => ¬(uplo = .lower ∧ side = .right) ∧ ∀ i, i < p → i < q → (A i i).SolveLeaf uplo side
  | .empty _ _ => False

/-- Pairs of a triangular matrix and a right-hand side with an implementation of the
triangular solve at every depth: a nested right-hand side needs a nested triangular
matrix with enough blocks. -/
def SolveKinds (uplo : Uplo) (side : Side) : Mat R → Mat R → Prop
  | A, .dense _ => A.SolveLeaf uplo side
  | A, .lowRank _ => A.SolveLeaf uplo side
  | .hier p q A, .hier r s B => ¬(uplo = .lower ∧ side = .right) ∧ (uplo = .upper ∧ side = .left → s = 1) ∧
      side.pick r s ≤ p ∧ side.pick r s ≤ q ∧
      ∀ i < r, ∀ j < s, SolveKinds uplo side (A (side.pick i j) (side.pick i j)) (B i j)
  | _, _ => False

/-- Matrices that LU factorization has an implementation for at every depth. -/
def LuKinds : Mat R → Prop
  | .dense _ => True
  | .lowRank _ => False
  | .hier p q A => p ≤ q ∧ ∀ i < p, (A i i).LuKinds ∧
      (∀ k < p, i < k → SolveKinds .upper .right (A i i) (A k i)) ∧
      ∀ k < q, i < k → SolveKinds .lower .left (A i i) (A i k)
  | .empty _ _ => False

end Mat
end Verif
