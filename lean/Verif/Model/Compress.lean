import Verif.Model.LrAdd
import Verif.Model.Geqp3

/-
`LowRank(const Dense&, double eps)` with the library's own pivoted QR.
-/

namespace Verif

/-- `LowRank(const Dense&, double eps)`, src/classes/low_rank.cpp:60-69, calling
`truncated_geqp3` as it is in src/operations/LAPACK/geqp3.cpp:71-191 (in `Lapack.ofEps` it is
a parameter). -/
noncomputable def lowRankOfEps (E : Geqp3Env) (L : Lapack ℝ) (A : Dense ℝ) (eps : ℝ) : Except Err (LowRank ℝ) := do
  let f ← truncatedGeqp3 E A eps
  let g ← L.rqInto f.2 f.1.cols f.1.cols f.1.cols A.cols
  .ok { dim0 := A.rows, dim1 := A.cols, rank := f.1.cols, eps := eps, U := f.1, S := g.1, V := g.2 }

/-- The external routines with the library's `truncated_geqp3` among them; where it fails the
value is arbitrary. -/
noncomputable def Lapack.withGeqp3 (L : Lapack ℝ) (E : Geqp3Env) : Lapack ℝ :=
  { L with geqp3 := fun A eps => match truncatedGeqp3 E A eps with
      | .ok f => (f.1.cols, f.1.val, f.2.val)
      | .error _ => (0, fun _ _ => 0, fun _ _ => 0) }

end Verif
