import Verif.Model.FloatNorm
import Verif.Spec.Mat

/-
What is assumed of a floating-point arithmetic with unit roundoff `u`, and how
accurate a computed sum of squares is.
-/

namespace Verif

open Finset

/-- The standard model of floating-point arithmetic: every operation returns the
exact result up to a relative error of at most `u`.  The contract on `gemm` is the
usual one for a matrix product, for any order of summation. -/
structure FlArith.Sound (F : FlArith) (u : ℝ) : Prop where
  u0 : 0 ≤ u
  u1 : u < 1
  add : ∀ x y, |F.add x y - (x + y)| ≤ u * |x + y|
  sub : ∀ x y, |F.sub x y - (x - y)| ≤ u * |x - y|
  div : ∀ x y, y ≠ 0 → |F.div x y - x / y| ≤ u * |x / y|
  sqrt : ∀ x, 0 ≤ x → |F.sqrt x - Real.sqrt x| ≤ u * Real.sqrt x
  sqAdd : ∀ s x, ∃ δ ε, |δ| ≤ u ∧ |ε| ≤ u ∧ F.sqAdd s x = (s + x * x * (1 + δ)) * (1 + ε)
  gemm : ∀ k a b i j, |F.gemm k a b i j - ∑ l ∈ range k, a i l * b l j| ≤
    ((1 + u) ^ (k + 1) - 1) * ∑ l ∈ range k, |a i l| * |b l j|

/-- `x` is `y` up to `K` relative errors of at most `u` each. -/
def Rounded (u : ℝ) (K : Nat) (x y : ℝ) : Prop := (1 - u) ^ K * y ≤ x ∧ x ≤ (1 + u) ^ K * y

namespace Mat

/-- The factors of a low-rank block with the absolute values of all entries, `U`
also multiplied by the relative error of two matrix products. -/
def _root_.Verif.LowRank.slack (u : ℝ) (l : LowRank ℝ) : LowRank ℝ :=
  { l with
    U := ⟨l.U.rows, l.U.cols, fun i j => ((1 + u) ^ (l.rank + l.S.cols + 2) - 1) * |l.U.val i j|⟩
    S := ⟨l.S.rows, l.S.cols, fun i j => |l.S.val i j|⟩
    V := ⟨l.V.rows, l.V.cols, fun i j => |l.V.val i j|⟩ }

/-- How far each entry may be off when it is computed from the stored numbers: not
at all in a dense block; in a low-rank block `(1+u)^(2·rank+2) - 1` times
the product of the absolute values of the factors. -/
def slack (u : ℝ) : Mat ℝ → Mat ℝ
  | .dense d => .dense (Dense.zero d.rows d.cols)
  | .lowRank l => .lowRank (l.slack u)
  | .hier br bc blk => .hier br bc (fun i j => (blk i j).slack u)
  | .empty m n => .empty m n

/-- The longest chain of additions of block results above a leaf. -/
def adds : Mat ℝ → Nat
  | .hier br bc blk => br * bc + (range br).sup (fun i => (range bc).sup (fun j => (blk i j).adds))
  | _ => 0

/-- `a` holds the entries of `A` as far as they can be told from the stored numbers. -/
def Close (u : ℝ) (A : Mat ℝ) (a : Nat → Nat → ℝ) : Prop :=
  ∀ i < A.nRows, ∀ j < A.nCols, |a i j - A.entry i j| ≤ (A.slack u).entry i j

/-- No block at any depth is low-rank. -/
def NoLowRank : Mat ℝ → Prop
  | .dense _ => True
  | .lowRank _ => False
  | .hier br bc blk => ∀ i < br, ∀ j < bc, (blk i j).NoLowRank
  | .empty _ _ => True

end Mat
end Verif
