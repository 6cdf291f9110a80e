import Verif.Model.Export
import Verif.Model.Construct
import Verif.Model.Kernels
import Verif.Model.Points

/-
The program examples/Hmatrix_to_json.cpp.
-/

namespace Verif

/-- `main`, examples/Hmatrix_to_json.cpp:14-35, without timers, messages and the name of the file:
the document it writes.  `compress` is `LowRank(·, eps)`, `sort` and `draw` are `std::sort`
and the random numbers in `get_sorted_random_vector`, `nblocks` is 2. -/
noncomputable def exportProgram (fuel : Nat) (sort : (ℝ → ℝ → Bool) → List ℝ → List ℝ) (draw : Nat → ℝ)
    (sv : Dense ℝ → List ℝ) (compress : Dense ℝ → Except Err (LowRank ℝ)) (N : Nat) (nleaf admis : Int) :
    Except Err (JsonNode ℝ) := do
  let x := getSortedRandomVector sort draw N
  let A ← hierOfKernel fuel (Builtin.laplacend.kernel [x]) compress N N nleaf (Admis.position admis : Admis ℝ) 2 2 0 0
  A.writeJson sv

end Verif
