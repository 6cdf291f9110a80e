import Verif.Lemmas.TriKinds
import Verif.Lemmas.Dispatch
import Verif.Props.TriTotal
import Mathlib.Tactic.IntervalCases

/-
C46 for triangular solves and LU factorization with nested operands.
-/

namespace Verif

variable {R : Type} [Field R] [DecidableEq R]

/-- C46, triangular solve, nested operands: if it returns, there is an implementation
for every pair of a diagonal block and a block of the right-hand side that meet. -/
theorem C46_trsm_nested {o : LrOps R} (hf : o.Fits False) {fuel : Nat} {A B X : Mat R} {uplo : Uplo}
    {side : Side} (hA : A.WF) (hB : B.WF) (hBs : B.Square)
    (h : Mat.trsm o fuel A B uplo side = .ok X) : Mat.SolveKinds uplo side A B :=
  Mat.trsmWith_kinds (Mat.gemmBoth_ok hf fuel).1 fuel A B X hA hB hBs h

/-- C46, LU factorization, nested operands: if it returns, the diagonal is nested or
dense as deep as it goes, and each diagonal block can be solved with for the blocks
below it and to its right. -/
theorem C46_getrf_nested {lu : Dense R → Dense R × Bool} {o : LrOps R} (hf : o.Fits False) {fuel : Nat}
    {A : Mat R} {r : Mat R × Mat R × Bool} (hA : A.WF) (hs : A.Square)
    (h : Mat.getrf lu o fuel A = .ok r) : A.LuKinds :=
  (Mat.getrfWith_kinds (Mat.gemmBoth_ok hf fuel).1 fuel A r hA hs h).kinds

/-- The library's low-rank kernels meet the hypothesis on `o`. -/
theorem C46_getrf_library {lu : Dense R → Dense R × Bool} (L : Lapack R) (mode : LraMode) (lfuel : Nat)
    {A : Mat R} (hA : A.WF) (hs : A.Square) (hk : ¬ A.LuKinds) :
    NeverReturns (fun fuel => Mat.getrf lu (L.ops mode lfuel) fuel A) :=
  fun _ _ h => hk (C46_getrf_nested (L.ops_fits mode lfuel) hA hs h)

/-- Both apply to `domA`, whose factorization and solves return. -/
example : domA.LuKinds ∧ Mat.SolveKinds .upper .right domA domA := by
  obtain ⟨L, U, h, -⟩ := C30_getrf_returns exactOps_fits exactOps_total outerStable_wf
    doolittle_contract doolittle_noPivot (by omega : 2 ≤ 2) domA_regular domA_square domA_all domA_lu
    (Or.inr exactOps_exact) domA_dominant (fuel := 14) (by decide +kernel)
  obtain ⟨X, hX, -⟩ := C29_trsm_returns exactOps_fits exactOps_total outerStable_wf (by omega : 2 ≤ 2)
    (side := .right) (uplo := .upper) (domA_regular.tri domA_lu.luFits.diagSquare .upper)
    (by
      intro _
      show ∀ i < domA.nRows, domA.entry i i ≠ 0
      decide +kernel) domA_regular.wf domA_regular.even domA_square domA_all
    domA_solvable rfl (fuel := 14) (by decide +kernel)
  exact ⟨C46_getrf_nested exactOps_fits domA_regular.wf domA_square h,
    C46_trsm_nested exactOps_fits domA_regular.wf domA_regular.wf domA_square hX⟩

/-- A 2×2 partition with dense blocks on the diagonal and a nested block beside it. -/
def luMismatch (d : Dense R) : Mat R :=
  .hier 2 2 (fun i j => if i = 0 ∧ j = 1 then .hier 2 2 (fun _ _ => .dense ⟨1, 1, d.val⟩)
    else .dense ⟨2, 2, d.val⟩)

/-- Its factorization never returns: there is no solve of a nested block with a dense
triangle. -/
example (d : Dense R) (lu : Dense R → Dense R × Bool) (L : Lapack R) (mode : LraMode) (lfuel : Nat) :
    NeverReturns (fun fuel => Mat.getrf lu (L.ops mode lfuel) fuel (luMismatch d)) := by
  refine C46_getrf_library L mode lfuel ?_ ?_ ?_
  · simp only [luMismatch, Mat.WF]
    refine ⟨by omega, by omega, fun i hi j hj => ?_⟩
    interval_cases i <;> interval_cases j <;> simp [Mat.WF, Mat.nRows, Mat.nCols]
  · intro i hi j hj
    interval_cases i <;> interval_cases j <;> simp [Mat.Square]
  · rintro ⟨-, h⟩
    exact (h 0 (by omega)).2.2 1 (by omega) (by omega)

end Verif
