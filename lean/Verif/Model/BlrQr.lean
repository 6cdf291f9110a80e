import Verif.Model.Construct
import Verif.Model.Kernels
import Verif.Model.Tri
import Verif.Model.Qr

/-
Model of the example programs examples/blocked_householder_blr_qr.cpp and
examples/tiled_householder_blr_qr.cpp.
-/

namespace Verif
variable {R : Type} {K : Type} [Field K] [LinearOrder K]

/-- What the programs print: the two numbers entering each of the three relative
errors of `l2_error` (l2_error.cpp:35-41). -/
structure BlrQrRun (R : Type) where
  /-- `l2_error(D, A)`: compression -/
  comp : R × R
  /-- `l2_error(D, QR)`: residual -/
  resid : R × R
  /-- `l2_error(Dense(identity, {}, n, n), QtQ)`: orthogonality -/
  orth : R × R

/-- The block counts and blocks of a variable of static type `Hierarchical`; other
matrices cannot occur. -/
def Mat.grid : Mat R → Except Err (Nat × Nat × (Nat → Nat → Mat R))
  | .hier br bc blk => .ok (br, bc, blk)
  | _ => .error .ub

/-- `main`, examples/blocked_householder_blr_qr.cpp:12-72 and
examples/tiled_householder_blr_qr.cpp:12-77, which differ only in the factorization
`fac p q A` (lines 37-42 and 37-47: allocate `T`, factorize, giving the new `A` and
`T`) and in the multiplication `mul p q A T C trans` with the reflectors.  Arguments:
the kernel with its points (`laplacend`, `randpts`), the identity kernel, the compression for `D`
(fixed rank `b`) and for `A` and `Q` (tolerance `eps`), the low-rank operations, `m`,
`n`, `b`, and `admis` truncated to an integer.  Simplified: `m`, `n` and `b` are not
negative.  Not modelled: timers, printing, taking roots and quotients of the two
numbers of each error. -/
def blrQrProgram [CommRing R] [DecidableEq R] [Inhabited R] (fuel : Nat) (k kid : KernelFn R)
    (compressD compress : Dense R → Except Err (LowRank R)) (o : LrOps R)
    (fac : Nat → Nat → (Nat → Nat → Mat R) → Except Err ((Nat → Nat → Mat R) × (Nat → Nat → Mat R)))
    (mul : Nat → Nat → (Nat → Nat → Mat R) → (Nat → Nat → Mat R) → (Nat → Nat → Mat R) → Bool →
      Except Err (Nat → Nat → Mat R))
    (m n b : Nat) (admis : Int) : Except Err (BlrQrRun R) := do
  assertM (decide (n ≤ m))
  -- `m % b`
  if b = 0 then .error .ub
  assertM (decide (m % b = 0))
  assertM (decide (n % b = 0))
  let p := m / b
  let q := n / b
  let D ← hierOfKernel fuel k compressD m n b (Admis.position p : Admis K) p q 0 0
  let A ← hierOfKernel fuel k compress m n b (Admis.position admis : Admis K) p q 0 0
  let comp ← Mat.l2ErrorParts fuel D A
  let gA ← A.grid
  let YT ← fac p q gA.2.2
  let Q0 ← hierOfKernel fuel kid compress m n b (Admis.position admis : Admis K) p q 0 0
  let gQ ← Q0.grid
  let Q ← mul p q YT.1 YT.2 gQ.2.2 false
  -- `R` from the upper triangular part of `A`; the other blocks are never set
  let QR ← Mat.trmm o fuel (.hier q q (fun i j => if i ≤ j then YT.1 i j else .empty 0 0)) (.hier p q Q)
    .right .upper false false 1
  let resid ← Mat.l2ErrorParts fuel D QR
  let QtQ ← mul p q YT.1 YT.2 Q true
  let I ← Dense.ofKernel kid n n 0 0
  let orth ← Mat.l2ErrorParts fuel (.dense I) (.hier q q QtQ)
  .ok ⟨comp, resid, orth⟩

/-- examples/blocked_householder_blr_qr.cpp:12-72. -/
def blockedQrProgram [CommRing R] [DecidableEq R] [Inhabited R] (fuel : Nat) (k kid : KernelFn R)
    (compressD compress : Dense R → Except Err (LowRank R)) (kn : QrKernels R) (o : LrOps R)
    (m n b : Nat) (admis : Int) : Except Err (BlrQrRun R) :=
  blrQrProgram (K := K) fuel k kid compressD compress o
    (fun p q A => Mat.blockedQr kn o fuel p q A q 1 (fun _ _ => .empty 0 0))
    (fun p q Y T C trans => Mat.leftMulBlocked o fuel p q Y q 1 T p q C trans) m n b admis

/-- examples/tiled_householder_blr_qr.cpp:12-77. -/
def tiledQrProgram [CommRing R] [DecidableEq R] [Inhabited R] (fuel : Nat) (k kid : KernelFn R)
    (compressD compress : Dense R → Except Err (LowRank R)) (kn : QrKernels R) (o : LrOps R)
    (m n b : Nat) (admis : Int) : Except Err (BlrQrRun R) :=
  blrQrProgram (K := K) fuel k kid compressD compress o
    (fun p q A => Mat.tiledQr kn o fuel p q A p q
      (fun i j => .dense ⟨if i < j then 0 else b, if i < j then 0 else b, fun _ _ => 0⟩))
    (fun p q Y T C trans => Mat.leftMulTiled o fuel p q Y p q T p q C trans) m n b admis

end Verif
