import Verif.Model.Qr
import Mathlib.Data.Real.Basic

/-
Tiled Householder QR over any four tile kernels, and the tile kernels on dense tiles in
floating-point arithmetic (src/operations/LAPACK/{qr,geqrt,larfb,tpqrt,tpmqrt}.cpp).

The drivers are those of `Verif/Model/Qr.lean` with the tile kernels as parameters;
`C79_drivers` says so.
-/

namespace Verif

/-- The four methods the tiled drivers call: `geqrt`, `larfb`, `tpqrt`, `tpmqrt`. -/
structure TileOps (R : Type) where
  /-- `geqrt(A, T)`, geqrt.cpp:32-49: new values of `A` and `T`. -/
  geqrt : Mat R → Mat R → Except Err (Mat R × Mat R)
  /-- `larfb(V, T, C, trans)`, larfb.cpp:33-64: new value of `C`. -/
  larfb : Bool → Mat R → Mat R → Mat R → Except Err (Mat R)
  /-- `tpqrt(A, B, T)`, tpqrt.cpp:33-59: new values of `A`, `B` and `T`. -/
  tpqrt : Mat R → Mat R → Mat R → Except Err (Mat R × Mat R × Mat R)
  /-- `tpmqrt(V, T, A, B, trans)`, tpmqrt.cpp:39-179: new values of `A` and `B`. -/
  tpmqrt : Bool → Mat R → Mat R → Mat R → Mat R → Except Err (Mat R × Mat R)

namespace TileOps

variable {R : Type}

/-- Block grids with one block replaced. -/
def put (A : Nat → Nat → Mat R) (i j : Nat) (X : Mat R) : Nat → Nat → Mat R :=
  fun a b => if a = i ∧ b = j then X else A a b

/-- Inner loop body of `tiled_householder_blr_qr` over `i`, qr.cpp:221-226. -/
def tiledInner (t : TileOps R) (p q tr tc k i : Nat)
    (st : (Nat → Nat → Mat R) × (Nat → Nat → Mat R)) :
    Except Err ((Nat → Nat → Mat R) × (Nat → Nat → Mat R)) := do
  let akk ← Mat.blockAt p q st.1 k k
  let aik ← Mat.blockAt p q st.1 i k
  let tik ← Mat.blockAt tr tc st.2 i k
  let x ← t.tpqrt akk aik tik
  let A ← loop (q - (k + 1)) (fun u A => do
    let y ← t.tpmqrt true x.2.1 x.2.2 (A k (k + 1 + u)) (A i (k + 1 + u))
    .ok (put (put A k (k + 1 + u) y.1) i (k + 1 + u) y.2))
    (put (put st.1 k k x.1) i k x.2.1)
  .ok (A, put st.2 i k x.2.2)

/-- Step `k` of the outer loop of `tiled_householder_blr_qr`, qr.cpp:216-227. -/
def tiledStep (t : TileOps R) (p q tr tc k : Nat)
    (st : (Nat → Nat → Mat R) × (Nat → Nat → Mat R)) :
    Except Err ((Nat → Nat → Mat R) × (Nat → Nat → Mat R)) := do
  let akk ← Mat.blockAt p q st.1 k k
  let tkk ← Mat.blockAt tr tc st.2 k k
  let x ← t.geqrt akk tkk
  let A ← loop (q - (k + 1)) (fun u A => do
    let y ← t.larfb true x.1 x.2 (A k (k + 1 + u))
    .ok (put A k (k + 1 + u) y)) (put st.1 k k x.1)
  loop (p - (k + 1)) (fun u st => t.tiledInner p q tr tc k (k + 1 + u) st) (A, put st.2 k k x.2)

/-- `tiled_householder_blr_qr(A, T)`, qr.cpp:213-228. -/
def tiledQr (t : TileOps R) (p q : Nat) (A : Nat → Nat → Mat R) (tr tc : Nat)
    (T : Nat → Nat → Mat R) : Except Err ((Nat → Nat → Mat R) × (Nat → Nat → Mat R)) := do
  assertM (decide (tr = p))
  assertM (decide (tc = q))
  loop q (t.tiledStep p q tr tc) (A, T)

/-- `for j: larfb(Y(k,k), T(k,k), C(k,j), trans)`, qr.cpp:235-237 and 252-254. -/
def leftMulLarfb (t : TileOps R) (p q : Nat) (Y : Nat → Nat → Mat R) (tr tc : Nat)
    (T : Nat → Nat → Mat R) (m n : Nat) (trans : Bool) (k : Nat) (C : Nat → Nat → Mat R) :
    Except Err (Nat → Nat → Mat R) :=
  loop (q - k) (fun u C => do
    let v ← Mat.blockAt p q Y k k
    let tk ← Mat.blockAt tr tc T k k
    let c ← Mat.blockAt m n C k (k + u)
    let y ← t.larfb trans v tk c
    .ok (put C k (k + u) y)) C

/-- `for j: tpmqrt(Y(i,k), T(i,k), C(k,j), C(i,j), trans)`, qr.cpp:239-241 and 248-250. -/
def leftMulTpmqrt (t : TileOps R) (p q : Nat) (Y : Nat → Nat → Mat R) (tr tc : Nat)
    (T : Nat → Nat → Mat R) (m n : Nat) (trans : Bool) (k i : Nat) (C : Nat → Nat → Mat R) :
    Except Err (Nat → Nat → Mat R) :=
  loop (q - k) (fun u C => do
    let v ← Mat.blockAt p q Y i k
    let tk ← Mat.blockAt tr tc T i k
    let a ← Mat.blockAt m n C k (k + u)
    let b ← Mat.blockAt m n C i (k + u)
    let y ← t.tpmqrt trans v tk a b
    .ok (put (put C k (k + u) y.1) i (k + u) y.2)) C

/-- `left_multiply_tiled_reflector(Y, T, C, trans)`, qr.cpp:230-257. -/
def leftMulTiled (t : TileOps R) (p q : Nat) (Y : Nat → Nat → Mat R) (tr tc : Nat)
    (T : Nat → Nat → Mat R) (m n : Nat) (C : Nat → Nat → Mat R) (trans : Bool) :
    Except Err (Nat → Nat → Mat R) :=
  if trans then
    loop q (fun k C => do
      let C ← t.leftMulLarfb p q Y tr tc T m n trans k C
      loop (p - (k + 1)) (fun u C => t.leftMulTpmqrt p q Y tr tc T m n trans k (k + 1 + u) C) C) C
  else
    loop q (fun v C => do
      let C ← loop (p - (q - 1 - v + 1)) (fun u C =>
        t.leftMulTpmqrt p q Y tr tc T m n trans (q - 1 - v) (p - 1 - u) C) C
      t.leftMulLarfb p q Y tr tc T m n trans (q - 1 - v) C) C

/-- The exact tile kernels of `Verif/Model/Qr.lean`. -/
def exact [CommRing R] [DecidableEq R] (K : QrKernels R) (o : LrOps R) (fuel : Nat) : TileOps R where
  geqrt := Mat.geqrt K
  larfb := Mat.larfb
  tpqrt := Mat.tpqrt K
  tpmqrt := Mat.tpmqrt o fuel

end TileOps

/-- The leading `n`-by-`n` upper triangle, zero elsewhere: what the routines that apply
reflectors read of `T`. -/
def upperPart (n : Nat) (T : Nat → Nat → ℝ) (a b : Nat) : ℝ := if a ≤ b ∧ b < n then T a b else 0

/-- The four LAPACK routines in floating-point arithmetic. -/
structure FlQr extends QrKernels ℝ where
  /-- `LAPACKE_dlarfb` with `k` reflectors: new contents of `C`.  The arguments are `k`, the
  unit lower trapezoid `V`, the upper triangle `T`, `trans` and `C`. -/
  dlarfb : Nat → (Nat → Nat → ℝ) → (Nat → Nat → ℝ) → Bool → Dense ℝ → Nat → Nat → ℝ
  /-- `LAPACKE_dtprfb` with `L = 0` and `k` reflectors: new contents of the first `k` rows of
  `A` and of `B`.  The arguments are `k`, `V`, the upper triangle `T`, `trans`, the first `k`
  rows of `A`, and `B`. -/
  dtprfb : Nat → (Nat → Nat → ℝ) → (Nat → Nat → ℝ) → Bool → Dense ℝ → Dense ℝ →
    (Nat → Nat → ℝ) × (Nat → Nat → ℝ)

namespace FlQr

/-- `larfb` on three `Dense`, larfb.cpp:37-49, with the checks of `Dense.larfb`. -/
def larfb (F : FlQr) (V T C : Dense ℝ) (trans : Bool) : Except Err (Dense ℝ) :=
  if C.rows ≤ V.rows ∧ T.cols ≤ V.cols ∧ T.cols ≤ T.rows ∧ T.cols ≤ C.rows then
    .ok ⟨C.rows, C.cols, F.dlarfb T.cols (V.tri .lower true) (upperPart T.cols T.val) trans C⟩
  else .error .ub

/-- `D D D D` of `tpmqrt`, tpmqrt.cpp:45-59, with the checks of `Dense.tprfb`. -/
def tprfb (F : FlQr) (V T A B : Dense ℝ) (trans : Bool) : Except Err (Dense ℝ × Dense ℝ) :=
  let k := T.cols
  if B.rows ≤ V.rows ∧ k ≤ V.cols ∧ k ≤ T.rows ∧ k ≤ A.rows ∧ B.cols ≤ A.cols then
    let x := F.dtprfb k V.val (upperPart k T.val) trans ⟨k, B.cols, A.val⟩ B
    .ok (⟨A.rows, A.cols, fun i j => if i < k ∧ j < B.cols then x.1 i j else A.val i j⟩,
      ⟨B.rows, B.cols, x.2⟩)
  else .error .ub

/-- The tile kernels on dense tiles in floating-point arithmetic.  Simplified: the methods
with low-rank arguments (tpqrt.cpp:44-53, larfb.cpp:51-57, tpmqrt.cpp:61-170) are not
modelled in floating-point arithmetic and abort here. -/
def tiles (F : FlQr) : TileOps ℝ where
  geqrt := Mat.geqrt F.toQrKernels
  larfb := fun trans V T C => match V, T, C with
    | .dense v, .dense t, .dense c => do
      let d ← F.larfb v t c trans
      .ok (.dense d)
    | _, _, _ => .error .abort
  tpqrt := fun A B T => match A, B, T with
    | .dense a, .dense b, .dense t => do
      let x ← Dense.tpqrt F.toQrKernels a b t
      .ok (.dense x.1, .dense x.2.1, .dense x.2.2)
    | _, _, _ => .error .abort
  tpmqrt := fun trans V T A B => match V, T, A, B with
    | .dense v, .dense t, .dense a, .dense b => do
      let x ← F.tprfb v t a b trans
      .ok (.dense x.1, .dense x.2)
    | _, _, _, _ => .error .abort

end FlQr

end Verif
