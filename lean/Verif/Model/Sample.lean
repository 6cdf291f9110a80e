import Verif.Model.Basic
import Mathlib.Data.Real.Basic

/-
Sample points (src/operations/misc/misc.cpp).
-/

namespace Verif

/-- `equallySpacedVector(N, minVal, maxVal)`, misc.cpp:125-132, over the reals.  The
vector is created with `N` zeros and overwritten element by element; note that the code
divides the index by the range instead of multiplying by it. -/
noncomputable def equallySpacedVector (N : Nat) (minVal maxVal : ℝ) : List ℝ :=
  let rnge := maxVal - minVal
  (List.range N).foldl (fun res i => res.set i (minVal + (i : ℝ) / rnge)) (List.replicate N 0)

end Verif
