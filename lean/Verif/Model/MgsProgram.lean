import Verif.Model.BlrQr
import Verif.Model.Mgs

/-
Model of the example program examples/blocked_mgs_blr_qr.cpp.
-/

namespace Verif
variable {R : Type} {K : Type} [Field K] [LinearOrder K]

/-- `main`, examples/blocked_mgs_blr_qr.cpp:13-61, with `mgs` in place of the call of
`mgs_qr`.  Arguments: the kernel with its points (`laplacend`, `randpts`), the kernels
`zeros` and `identity`, the compression for `D` (fixed rank `b`) and for the other matrices
(tolerance `eps`), the factorization, the low-rank operations, `m`, `n`, `b`, and `admis`
truncated to an integer.  The text of examples/forkjoin_blocked_mgs_blr_qr.cpp:21-91 is the
same but for the factorization.  Simplified: `m`, `n` and `b` are not negative.  Not
modelled: timers, printing, taking roots and quotients of the two numbers of each error. -/
def mgsQrProgramWith [CommRing R] [DecidableEq R] [Inhabited R] (fuel : Nat) (k kz kid : KernelFn R)
    (compressD compress : Dense R → Except Err (LowRank R)) (mgs : Mat.MgsT R) (o : LrOps R)
    (m n b : Nat) (admis : Int) : Except Err (BlrQrRun R) := do
  assertM (decide (n ≤ m))
  -- `m % b`
  if b = 0 then .error .ub
  assertM (decide (m % b = 0))
  assertM (decide (n % b = 0))
  let p := m / b
  let q := n / b
  let D ← hierOfKernel fuel k compressD m n b (Admis.position p : Admis K) p q 0 0
  let A ← hierOfKernel fuel k compress m n b (Admis.position admis : Admis K) p q 0 0
  let comp ← Mat.l2ErrorParts fuel D A
  let Q0 ← hierOfKernel fuel kz compress m n b (Admis.position admis : Admis K) p q 0 0
  let R0 ← hierOfKernel fuel kz compress n n b (Admis.position admis : Admis K) q q 0 0
  let gA ← A.grid
  let gQ ← Q0.grid
  let gR ← R0.grid
  let QR ← mgs gA.1 gA.2.1 gA.2.2 gQ.1 gQ.2.1 gQ.2.2 gR.1 gR.2.1 gR.2.2
  let Q := Mat.hier gQ.1 gQ.2.1 QR.1
  let prod ← Mat.trmm o fuel (.hier gR.1 gR.2.1 QR.2) Q .right .upper false false 1
  let resid ← Mat.l2ErrorParts fuel D prod
  let QtQ0 ← hierOfKernel fuel kz compress n n b (Admis.position admis : Admis K) q q 0 0
  let Qt ← Q.transpose
  let QtQ ← Mat.gemm o fuel Qt Q QtQ0 1 0 false false
  let I ← Dense.ofKernel kid n n 0 0
  let orth ← Mat.l2ErrorParts fuel (.dense I) QtQ
  .ok ⟨comp, resid, orth⟩

/-- `main`, examples/blocked_mgs_blr_qr.cpp:13-61. -/
def mgsQrProgram [CommRing R] [DecidableEq R] [Inhabited R] (fuel : Nat) (k kz kid : KernelFn R)
    (compressD compress : Dense R → Except Err (LowRank R)) (L : Lapack R) (o : LrOps R)
    (m n b : Nat) (admis : Int) : Except Err (BlrQrRun R) :=
  mgsQrProgramWith (K := K) fuel k kz kid compressD compress (Mat.mgsHier L o fuel fuel) o m n b admis

end Verif
