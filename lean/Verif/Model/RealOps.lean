import Verif.Model.Mat
import Mathlib.Analysis.Real.Sqrt

/-
Operations of the library that need square roots; `double` is modelled by `ℝ`.
-/

namespace Verif

noncomputable section

/-- `l2_error`, src/util/l2_error.cpp:35-41.  `machEps` is
`std::numeric_limits<double>::epsilon()`. -/
def l2Error (machEps : ℝ) (fuel : Nat) (A B : Mat ℝ) : Except Err ℝ := do
  let p ← Mat.l2ErrorParts fuel A B
  .ok (Real.sqrt (p.1 / (p.2 + machEps)))

/-- The loop of `find_svd_truncation_rank`, misc.cpp:139-145, entered with the
current `rank`; the budget bounds the number of passes.  The inner loop adds
`S(rank,rank)²` for every `j` in `[rank, min_dim)`. -/
def truncLoop (S : Dense ℝ) (threshold : ℝ) (minDim : Nat) : Nat → Nat → Except Err Nat
  | 0, _ => .error .fuel
  | fuel + 1, rank =>
    let r := rank + 1
    let err := ∑ _j ∈ Finset.Ico r minDim, S.val r r * S.val r r
    if r < minDim ∧ Real.sqrt err > threshold then truncLoop S threshold minDim fuel r else .ok r

/-- `find_svd_truncation_rank(S, eps)`, src/operations/misc/misc.cpp:134-147. The
loop cannot pass more than `min_dim + 1` times (`truncLoop_ok`). -/
def findSvdTruncationRank (S : Dense ℝ) (eps : ℝ) : Except Err Nat :=
  truncLoop S (eps * Real.sqrt (Mat.normDense S)) (min S.rows S.cols) (min S.rows S.cols + 1) 0

end
end Verif
