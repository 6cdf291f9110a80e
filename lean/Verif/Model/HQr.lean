import Verif.Model.MgsProgram

/-
Model of the example program examples/blocked_mgs_h_qr.cpp.
-/

namespace Verif
variable {R : Type} {K : Type} [Field K] [LinearOrder K]

/-- `nblocks` and `admis` for the command line argument, blocked_mgs_h_qr.cpp:22-52. -/
def hQrSelect (N nleaf : Nat) (arg : Int) : Nat × Int :=
  if arg = 0 then (N / nleaf, ((N / nleaf : Nat) : Int))
  else if arg = 1 then (2, ((N / nleaf : Nat) : Int))
  else if arg = 2 then (N / nleaf, 0)
  else if arg = 3 then (N / nleaf, 1)
  else if arg = 4 then (2, 0)
  else (2, 1)

/-- `main` after the choice of parameters, examples/blocked_mgs_h_qr.cpp:53-77.  Arguments:
the kernel with its points (`laplacend`, `randx`), the kernels `zeros` and `identity`, the
compression for `D` (fixed rank `nleaf`) and for the other matrices (tolerance `eps`), the
LAPACK routines, the low-rank operations, `N`, `nleaf`, `nblocks`, and `admis` truncated to
an integer.  `Q` and `R` start as copies of `A`.  Not modelled: timers, printing, the
message if the command line argument is missing, taking roots and quotients of the two
numbers of each error. -/
def hQrProgram [CommRing R] [DecidableEq R] [Inhabited R] (fuel : Nat) (k kz kid : KernelFn R)
    (compressD compress : Dense R → Except Err (LowRank R)) (L : Lapack R) (o : LrOps R)
    (N nleaf nb : Nat) (admis : Int) : Except Err (BlrQrRun R) := do
  -- `N / nleaf`
  if nleaf = 0 then .error .ub
  let D ← hierOfKernel fuel k compressD N N nleaf (Admis.position ((N / nleaf : Nat) : Int) : Admis K) nb nb 0 0
  let A ← hierOfKernel fuel k compress N N nleaf (Admis.position admis : Admis K) nb nb 0 0
  let comp ← Mat.l2ErrorParts fuel D A
  let gA ← A.grid
  let QR ← Mat.mgsHier L o fuel fuel gA.1 gA.2.1 gA.2.2 gA.1 gA.2.1 gA.2.2 gA.1 gA.2.1 gA.2.2
  let Q := Mat.hier gA.1 gA.2.1 QR.1
  let prod ← Mat.trmm o fuel (.hier gA.1 gA.2.1 QR.2) Q .right .upper false false 1
  let resid ← Mat.l2ErrorParts fuel D prod
  let QtQ0 ← hierOfKernel fuel kz compress N N nleaf (Admis.position admis : Admis K) nb nb 0 0
  let Qt ← Q.transpose
  let QtQ ← Mat.gemm o fuel Qt Q QtQ0 1 0 false false
  let I ← Dense.ofKernel kid N N 0 0
  let orth ← Mat.l2ErrorParts fuel (.dense I) QtQ
  .ok ⟨comp, resid, orth⟩

/-- The whole of `main` for a command line argument, examples/blocked_mgs_h_qr.cpp:11-77. -/
def hQrMain [CommRing R] [DecidableEq R] [Inhabited R] (fuel : Nat) (k kz kid : KernelFn R)
    (compressD compress : Dense R → Except Err (LowRank R)) (L : Lapack R) (o : LrOps R) (arg : Int) :
    Except Err (BlrQrRun R) :=
  let s := hQrSelect 128 16 arg
  hQrProgram (K := K) fuel k kz kid compressD compress L o 128 16 s.1 s.2

end Verif
