import Verif.Model.Construct
import Verif.Spec.Gemm
import Verif.Spec.TriTotal

/-
Specification side of factorizing matrices that were constructed from a kernel.
-/

namespace Verif

variable {K : Type} [Field K] [LinearOrder K]

/-- Size of part `i` when `n` indices are divided into `b` parts by the library. -/
def partSize (n : Int) (b i : Nat) : Int := ((⟨0, n⟩ : IndexRange).splitChild b i).n

/-- No block on the diagonal is admissible. -/
def DiagNever (a : Admis K) : Prop :=
  ∀ t : NodeInfo, t.rows = t.cols → t.absRow = t.absCol → isAdmissible a t ≠ .ok true

/-- Sizes for which the diagonal is refined at least as far as the blocks beside it:
`P` holds of the sizes of diagonal blocks and `G m s` of the sizes of the other blocks
that are not admissible, where `s` is the extent shared with a diagonal block. -/
structure SizeRule (a : Admis K) (nleaf : Int) (b : Nat) (root : Int) (P : Int → Prop) (G : Int → Int → Prop) :
    Prop where
  start : P root
  leaf : ∀ m s, G m s → s ≤ nleaf → m ≤ nleaf
  part : ∀ m s, G m s → 0 ≤ m → 0 ≤ s → nleaf < s → ∀ i < b, ∀ j < b, G (partSize m b i) (partSize s b j)
  diag : ∀ n, P n → 0 ≤ n → nleaf < n ∨ n = root → ∀ i < b, P (partSize n b i)
  off : ∀ n, P n → 0 ≤ n → nleaf < n ∨ n = root → ∀ i k, i < k → k < b → ∀ (side : Side) (t : NodeInfo),
    t.absRow ≠ t.absCol → side.pick t.rows.n t.cols.n = partSize n b i →
    side.pick t.cols.n t.rows.n = partSize n b k →
    isAdmissible a t = .ok true ∨ G (partSize n b k) (partSize n b i)

end Verif
