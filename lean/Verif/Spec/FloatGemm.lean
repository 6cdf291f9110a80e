import Verif.Model.FloatGemm
import Verif.Spec.Gemm
import Verif.Spec.Within

/-
What is assumed of BLAS in floating-point arithmetic with unit roundoff `u`, and the
quantities error bounds of products are stated with.
-/

namespace Verif

open Finset

/-- The usual error bound of a matrix product, for any order of summation: every
product passes through at most `k + 2` operations (the multiplications by `alpha` and
by the other factor, the additions), each with a relative error of at most `u`. -/
structure FlBlas.Sound (F : FlBlas) (u : ℝ) : Prop where
  u0 : 0 ≤ u
  dgemm : ∀ m n k α a b β c i j,
    |F.dgemm m n k α a b β c i j - (α * ∑ l ∈ range k, a i l * b l j + β * c i j)| ≤
      ((1 + u) ^ (k + 2) - 1) * (|α| * ∑ l ∈ range k, |a i l| * |b l j| + |β| * |c i j|)
  mul : ∀ x y, |F.mul x y - x * y| ≤ u * |x * y|

/-- The matrix with the absolute values of all stored entries. -/
def Dense.abs (d : Dense ℝ) : Dense ℝ := ⟨d.rows, d.cols, fun i j => |d.val i j|⟩

/-- The absolute values of the entries of the factors. -/
def LowRank.abs (l : LowRank ℝ) : LowRank ℝ := { l with U := l.U.abs, S := l.S.abs, V := l.V.abs }

namespace Mat

/-- The absolute values of all stored numbers: in a dense block those of the entries, in
a low-rank block those of the factors. -/
def abs : Mat ℝ → Mat ℝ
  | .dense d => .dense d.abs
  | .lowRank l => .lowRank l.abs
  | .hier br bc blk => .hier br bc (fun i j => (blk i j).abs)
  | .empty m n => .empty m n

/-- The operations added by low-rank blocks: the dimensions of the middle factor and four,
for the largest such block. -/
def lag : Mat ℝ → Nat
  | .lowRank l => l.S.rows + l.S.cols + 4
  | .hier br bc blk => (range br).sup (fun i => (range bc).sup (fun j => (blk i j).lag))
  | _ => 0

/-- No stored number is negative. -/
def Nonneg : Mat ℝ → Prop
  | .dense d => ∀ i < d.rows, ∀ j < d.cols, 0 ≤ d.val i j
  | .lowRank l => (∀ i < l.U.rows, ∀ j < l.U.cols, 0 ≤ l.U.val i j) ∧
      (∀ i < l.S.rows, ∀ j < l.S.cols, 0 ≤ l.S.val i j) ∧
      ∀ i < l.V.rows, ∀ j < l.V.cols, 0 ≤ l.V.val i j
  | .hier br bc blk => ∀ i < br, ∀ j < bc, (blk i j).Nonneg
  | .empty _ _ => True

end Mat
end Verif
