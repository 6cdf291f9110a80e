import Verif.Model.Construct
import Verif.Model.Tri

/-
Model of the example program examples/h_lu.cpp.
-/

namespace Verif
variable {R : Type} {K : Type} [Field K] [LinearOrder K]

/-- What the program computes (and prints): the two numbers entering the relative
errors of `l2_error` (l2_error.cpp:35-41), the memory of the dense and of the
hierarchical matrix, and the vector left in `b`. -/
structure HLuRun (R : Type) where
  /-- `l2_error(D, A)`, h_lu.cpp:31 -/
  comp : R × R
  /-- `get_memory_usage(D)`, h_lu.cpp:32 -/
  memD : Nat
  /-- `get_memory_usage(A)`, h_lu.cpp:32 -/
  memA : Nat
  /-- `b` after the two solves, h_lu.cpp:46-47 -/
  sol : Mat R
  /-- `l2_error(x, b)`, h_lu.cpp:51 -/
  err : R × R

/-- `main`, examples/h_lu.cpp:11-56.  Arguments: the kernel with its points
(`laplacend`, `randx`), the compression used for admissible blocks (`rank`), the
factorization kernel and low-rank operations of the library, `N`, `nleaf`, the
admissibility condition, `nblocks`, and the vector `x` (random in the program).
`sz` are the four object sizes used by `get_memory_usage`.  Not modelled: timers,
printing, the division of the two memory figures. -/
def hLu [Field R] [DecidableEq R] [Inhabited R] (fuel : Nat) (k : KernelFn R)
    (compress : Dense R → Except Err (LowRank R)) (lu : Dense R → Dense R × Bool) (o : LrOps R)
    (sz : Nat × Nat × Nat × Nat) (N : Nat) (nleaf : Int) (a : Admis K) (nb : Nat) (x : Nat → R) :
    Except Err (HLuRun R) := do
  -- 21-23
  let xv : Mat R := .dense ⟨N, 1, fun i _ => x i⟩
  let b0 : Mat R := .dense ⟨N, 1, fun _ _ => 0⟩
  let D ← Dense.ofKernel k N N 0 0
  -- 25
  let A ← hierOfKernel fuel k compress N N nleaf a nb nb 0 0
  -- 27
  let b ← Mat.gemm o fuel A xv b0 1 1 false false
  -- 31, 32
  let comp ← Mat.l2ErrorParts fuel (.dense D) A
  let memD ← (Mat.dense D).memUsage sz.1 sz.2.1 sz.2.2.1 sz.2.2.2 true
  let memA ← A.memUsage sz.1 sz.2.1 sz.2.2.1 sz.2.2.2 true
  -- 42
  let f ← Mat.getrf lu o fuel A
  -- 46, 47
  let b ← Mat.trsm o fuel f.1 b .lower .left
  let b ← Mat.trsm o fuel f.2.1 b .upper .left
  -- 51
  let err ← Mat.l2ErrorParts fuel xv b
  .ok ⟨comp, memD, memA, b, err⟩

end Verif
