import Verif.Model.LrAdd
import Verif.Model.RealOps
import Verif.Model.Construct

/-
Model of the example program examples/lr_add.cpp.
-/

namespace Verif

/-- The three numbers that the program prints. -/
structure LrAddRun where
  default : ℝ
  naive : ℝ
  rounded : ℝ

/-- `main`, examples/lr_add.cpp:14-48.  `k` is `laplacend` with the `2*N` sorted random
points; `A` and `B` are compressed with the same random numbers (`random_uniform` sets its
seed, functions.cpp:60); every other value of `FRANK_LRA` than the two that the program sets
selects fast rounded addition.  `AWork` starts as a copy of `A` each time.  Not modelled:
timers, negative arguments, an environment variable `FRANK_LRA`. -/
noncomputable def lrAddProgram (machEps : ℝ) (fuel : Nat) (k : KernelFn ℝ) (L : Lapack ℝ) (N rank : Nat) :
    Except Err LrAddRun := do
  let D ← Dense.ofKernel k N N 0 N
  let A ← L.ofRank D rank
  let B ← L.ofRank D rank
  let W ← (L.ops .fast fuel).addAssign A B
  let DD ← D.add D
  let e1 ← l2Error machEps fuel (.dense DD) (.lowRank W)
  let W ← (L.ops .naive fuel).addAssign A B
  let DD ← D.add D
  let e2 ← l2Error machEps fuel (.dense DD) (.lowRank W)
  let W ← (L.ops .rounded fuel).addAssign A B
  let DD ← D.add D
  let e3 ← l2Error machEps fuel (.dense DD) (.lowRank W)
  .ok ⟨e1, e2, e3⟩

end Verif
