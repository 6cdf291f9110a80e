import Verif.Model.FloatTri
import Verif.Model.FloatNorm
import Verif.Model.HLu

/-
Model of the example program examples/h_lu.cpp in floating-point arithmetic.
-/

namespace Verif
variable {K : Type} [Field K] [LinearOrder K]

/-- What the program computes in floating-point arithmetic, and what it prints. -/
structure FlHLuRun where
  /-- `l2_error(D, A)`, h_lu.cpp:31 -/
  comp : ℝ
  /-- The factors, h_lu.cpp:42. -/
  low : Mat ℝ
  up : Mat ℝ
  /-- Whether `LAPACKE_dgetrf` interchanged rows of a block, h_lu.cpp:42. -/
  swapped : Bool
  /-- `b` after the two solves, h_lu.cpp:46-47 -/
  sol : Mat ℝ
  /-- `l2_error(x, b)`, h_lu.cpp:51 -/
  err : ℝ

/-- `main`, examples/h_lu.cpp:11-56, every product, solve, factorization and error norm in
floating-point arithmetic; `F` for BLAS and LAPACK, `G` for the norms of `l2_error`.  The other
arguments are those of `hLu`; the kernel returns the numbers that are stored, and `x` is the
stored vector.  Not modelled: memory figures, timers, printing. -/
noncomputable def FlLapack.hLu (F : FlLapack) (G : FlArith) (machEps : ℝ) (fuel : Nat) (k : KernelFn ℝ)
    (compress : Dense ℝ → Except Err (LowRank ℝ)) (N : Nat) (nleaf : Int) (a : Admis K) (nb : Nat)
    (x : Nat → ℝ) : Except Err FlHLuRun := do
  -- 21-23
  let xv : Mat ℝ := .dense ⟨N, 1, fun i _ => x i⟩
  let b0 : Mat ℝ := .dense ⟨N, 1, fun _ _ => 0⟩
  let D ← Dense.ofKernel k N N 0 0
  -- 25
  let A ← hierOfKernel fuel k compress N N nleaf a nb nb 0 0
  -- 27
  let b ← F.gemm fuel A xv b0 1 1 false false
  -- 31
  let comp ← G.l2Error machEps fuel (.dense D) A
  -- 42
  let f ← F.getrf fuel A
  -- 46, 47
  let b ← F.trsm fuel f.1 b .lower .left
  let b ← F.trsm fuel f.2.1 b .upper .left
  -- 51
  let err ← G.l2Error machEps fuel xv b
  .ok ⟨comp, f.1, f.2.1, f.2.2, b, err⟩

end Verif
