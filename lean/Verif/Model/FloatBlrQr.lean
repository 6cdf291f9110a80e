import Verif.Model.FloatQr
import Verif.Model.FloatTrmm
import Verif.Model.FloatNorm
import Verif.Model.BlrQr

/-
Model of the example program examples/tiled_householder_blr_qr.cpp in floating-point
arithmetic.
-/

namespace Verif
variable {K : Type} [Field K] [LinearOrder K]

/-- What the program computes in floating-point arithmetic, and what it prints. -/
structure FlBlrQrRun where
  /-- `l2_error(D, A)`, tiled_householder_blr_qr.cpp:34 -/
  comp : ℝ
  /-- `l2_error(D, QR)`, tiled_householder_blr_qr.cpp:64 -/
  resid : ℝ
  /-- `l2_error(Dense(identity, {}, n, n), QtQ)`, tiled_householder_blr_qr.cpp:75 -/
  orth : ℝ
  /-- `Q`, tiled_householder_blr_qr.cpp:50 -/
  q : Mat ℝ
  /-- `QR`, tiled_householder_blr_qr.cpp:63 -/
  qr : Mat ℝ
  /-- `QtQ`, tiled_householder_blr_qr.cpp:69-74 -/
  qtq : Mat ℝ

/-- `main`, examples/tiled_householder_blr_qr.cpp:12-77, in floating-point arithmetic, with the
factorization `fac` and the multiplication `mul` with the reflectors as parameters, as in
`blrQrProgram`: `trmm` by `B`, the norms of `l2_error` by `G`.  The other arguments are those of
`blrQrProgram`; the kernels return the numbers that are stored.
Simplified: `m`, `n` and `b` are not negative.  Not modelled: timers, printing. -/
noncomputable def flBlrQrProgram (B : FlTrmm) (G : FlArith) (machEps : ℝ) (fuel : Nat)
    (k kid : KernelFn ℝ) (compressD compress : Dense ℝ → Except Err (LowRank ℝ))
    (fac : Nat → Nat → (Nat → Nat → Mat ℝ) → Except Err ((Nat → Nat → Mat ℝ) × (Nat → Nat → Mat ℝ)))
    (mul : Nat → Nat → (Nat → Nat → Mat ℝ) → (Nat → Nat → Mat ℝ) → (Nat → Nat → Mat ℝ) → Bool →
      Except Err (Nat → Nat → Mat ℝ)) (m n b : Nat) (admis : Int) :
    Except Err FlBlrQrRun := do
  -- 21-23; `m % b`
  assertM (decide (n ≤ m))
  if b = 0 then .error .ub
  assertM (decide (m % b = 0))
  assertM (decide (n % b = 0))
  let p := m / b
  let q := n / b
  -- 31, 32
  let D ← hierOfKernel fuel k compressD m n b (Admis.position p : Admis K) p q 0 0
  let A ← hierOfKernel fuel k compress m n b (Admis.position admis : Admis K) p q 0 0
  -- 34
  let comp ← G.l2Error machEps fuel D A
  -- 36-45
  let gA ← A.grid
  let YT ← fac p q gA.2.2
  -- 49, 50
  let Q0 ← hierOfKernel fuel kid compress m n b (Admis.position admis : Admis K) p q 0 0
  let gQ ← Q0.grid
  let Q ← mul p q YT.1 YT.2 gQ.2.2 false
  -- 54-63, the blocks of `R` below the diagonal are never set
  let QR ← B.trmm fuel (.hier q q (fun i j => if i ≤ j then YT.1 i j else .empty 0 0)) (.hier p q Q)
    .right .upper false false 1
  -- 64
  let resid ← G.l2Error machEps fuel D QR
  -- 67
  let QtQ ← mul p q YT.1 YT.2 Q true
  -- 75
  let I ← Dense.ofKernel kid n n 0 0
  let orth ← G.l2Error machEps fuel (.dense I) (.hier q q QtQ)
  .ok ⟨comp, resid, orth, .hier p q Q, QR, .hier q q QtQ⟩

/-- `main`, examples/tiled_householder_blr_qr.cpp:12-77, in floating-point arithmetic: the
kernels on the tiles by `F`.  Simplified: the tile kernels abort on low-rank tiles
(`FlQr.tiles`). -/
noncomputable def FlQr.tiledProgram (F : FlQr) (B : FlTrmm) (G : FlArith) (machEps : ℝ) (fuel : Nat)
    (k kid : KernelFn ℝ) (compressD compress : Dense ℝ → Except Err (LowRank ℝ)) (m n b : Nat) (admis : Int) :
    Except Err FlBlrQrRun :=
  flBlrQrProgram (K := K) B G machEps fuel k kid compressD compress
    -- 36-45
    (fun p q A => F.tiles.tiledQr p q A p q
      (fun i j => .dense ⟨if i < j then 0 else b, if i < j then 0 else b, fun _ _ => 0⟩))
    -- 50, 67
    (fun p q Y T C trans => F.tiles.leftMulTiled p q Y p q T p q C trans) m n b admis

end Verif
