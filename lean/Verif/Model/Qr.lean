import Verif.Model.Tri

/-
Householder QR of block low-rank matrices: the tile kernels
(src/operations/LAPACK/{geqrt,larfb,tpqrt,tpmqrt}.cpp) and the blocked and tiled
drivers (src/operations/LAPACK/qr.cpp).

As in `Verif/Model/Gemm.lean` this is a value-level model.  The two LAPACK
routines that compute reflectors are parameters; the two that apply them are
modelled by their definition.
-/

namespace Verif
open Finset

variable {R : Type}

/-- The LAPACK routines that compute reflectors. -/
structure QrKernels (R : Type) where
  /-- `LAPACKE_dgeqrt3`: new contents of `A` and of `T`. -/
  geqrt3 : Dense R → (Nat → Nat → R) × (Nat → Nat → R)
  /-- `LAPACKE_dtpqrt2` with `L = 0`, on the `n`-by-`n` matrix `A` and the
  `m`-by-`n` matrix `B`: new contents of `A` (upper triangle only), `B` and `T`. -/
  tpqrt2 : Dense R → Dense R → (Nat → Nat → R) × (Nat → Nat → R) × (Nat → Nat → R)

namespace Dense

/-- `Dense(identity, {}, m, n)`, functions.cpp:25-34. -/
def ident [Zero R] [One R] (m n : Nat) : Dense R := ⟨m, n, fun i j => if i = j then 1 else 0⟩

/-- `geqrt` on two `Dense`, geqrt.cpp:34-43.  `dgeqrt3` rejects matrices with more
columns than rows; the model reports that as `ub`. -/
def geqrt (K : QrKernels R) (A T : Dense R) : Except Err (Dense R × Dense R) := do
  assertM (decide (T.rows = A.cols))
  assertM (decide (T.cols = A.cols))
  if A.cols ≤ A.rows then
    .ok (⟨A.rows, A.cols, (K.geqrt3 A).1⟩, ⟨A.cols, A.cols, (K.geqrt3 A).2⟩)
  else .error .ub

/-- `larfb` on three `Dense`, larfb.cpp:37-49.  `dlarfb` with side `L`, direction
`F`, storage `C`: `C := C - V * op(T) * V^T * C`, where `V` is the unit lower
trapezoid of the first `C.rows` rows and `k = T.cols` columns of its argument and
`T` the upper triangle of its argument.  Arguments that are too small are `ub`. -/
def larfb [CommRing R] (V T : Dense R) (C : Dense R) (trans : Bool) : Except Err (Dense R) :=
  if C.rows ≤ V.rows ∧ T.cols ≤ V.cols ∧ T.cols ≤ T.rows ∧ T.cols ≤ C.rows then
    .ok ⟨C.rows, C.cols, fun i j => C.val i j -
      ∑ a ∈ range T.cols, V.tri .lower true i a *
        ∑ b ∈ range T.cols, (if trans then T.tri .upper false b a else T.tri .upper false a b) *
          ∑ l ∈ range C.rows, V.tri .lower true l b * C.val l j⟩
  else .error .ub

/-- `tpqrt` on three `Dense`, tpqrt.cpp:35-43.  `dtpqrt2` reads and writes the
upper triangle of the leading `n`-by-`n` part of `A`, all of `B`, and the leading
`n`-by-`n` part of `T`, `n = B.cols`.  Arguments that are too small are `ub`. -/
def tpqrt [Zero R] (K : QrKernels R) (A B T : Dense R) : Except Err (Dense R × Dense R × Dense R) :=
  let n := B.cols
  if n ≤ A.rows ∧ n ≤ A.cols ∧ n ≤ T.rows ∧ n ≤ T.cols then
    let x := K.tpqrt2 ⟨n, n, fun i j => if i ≤ j ∧ j < n then A.val i j else 0⟩ B
    .ok (⟨A.rows, A.cols, fun i j => if i ≤ j ∧ j < n then x.1 i j else A.val i j⟩,
      ⟨B.rows, B.cols, x.2.1⟩,
      ⟨T.rows, T.cols, fun i j => if i < n ∧ j < n then x.2.2 i j else T.val i j⟩)
  else .error .ub

/-- `D D D D` of `tpmqrt`, tpmqrt.cpp:45-59.  `dtprfb` with side `L`, direction
`F`, storage `C`, `L = 0`, `k = T.cols`: with `X = op(T) * (A + V^T * B)` (the first
`k` rows of `A`), `A := A - X` and `B := B - V * X`.  Arguments that are too small
are `ub`. -/
def tprfb [CommRing R] (V T A B : Dense R) (trans : Bool) : Except Err (Dense R × Dense R) :=
  let k := T.cols
  let X := fun a j => ∑ b ∈ range k,
    (if trans then T.tri .upper false b a else T.tri .upper false a b) *
      (A.val b j + ∑ l ∈ range B.rows, V.val l b * B.val l j)
  if B.rows ≤ V.rows ∧ k ≤ V.cols ∧ k ≤ T.rows ∧ k ≤ A.rows ∧ B.cols ≤ A.cols then
    .ok (⟨A.rows, A.cols, fun i j => if i < k ∧ j < B.cols then A.val i j - X i j else A.val i j⟩,
      ⟨B.rows, B.cols, fun i j => B.val i j - ∑ a ∈ range k, V.val i a * X a j⟩)
  else .error .ub

end Dense

namespace LowRank

/-- `A.S = 0.0; A.S(i,i) = 1.0; A.V = R`, qr.cpp:117-121 and tpqrt.cpp:47-51. -/
def setRight [Zero R] [One R] (l : LowRank R) (X : Dense R) : LowRank R :=
  { l with S := Dense.ident l.S.rows l.S.cols, V := X }

end LowRank

namespace Mat

section
variable [CommRing R]

/-! ### tile kernels -/

/-- `geqrt`, geqrt.cpp:32-49: new values of `A` and `T`. -/
def geqrt (K : QrKernels R) : Mat R → Mat R → Except Err (Mat R × Mat R)
  | .dense a, .dense t => do
    let x ← Dense.geqrt K a t
    .ok (.dense x.1, .dense x.2)
  | _, _ => .error .abort

/-- `larfb`, larfb.cpp:33-64: new value of `C`. -/
def larfb (trans : Bool) : Mat R → Mat R → Mat R → Except Err (Mat R)
  | .dense v, .dense t, .dense c => do
    let d ← Dense.larfb v t c trans
    .ok (.dense d)
  | .dense v, .dense t, .lowRank c => do
    let d ← Dense.larfb v t c.U trans
    .ok (.lowRank { c with U := d })
  | _, _, _ => .error .abort

/-- `tpqrt`, tpqrt.cpp:33-59: new values of `A`, `B` and `T`. -/
def tpqrt (K : QrKernels R) : Mat R → Mat R → Mat R → Except Err (Mat R × Mat R × Mat R)
  | .dense a, .dense b, .dense t => do
    let x ← Dense.tpqrt K a b t
    .ok (.dense x.1, .dense x.2.1, .dense x.2.2)
  | .dense a, .lowRank b, .dense t => do
    let sv ← Dense.gemmNew b.S b.V 1 false false
    let x ← Dense.tpqrt K a sv t
    .ok (.dense x.1, .lowRank (b.setRight x.2.1), .dense x.2.2)
  | _, _, _ => .error .abort

/-- The common body of the seven methods of `tpmqrt` that use matrix products,
tpmqrt.cpp:61-170.  `Vt` is the left operand of the first product, `tv` its
transposition flag, `C` the copy of `A`. -/
def tpmqrtProducts [DecidableEq R] (o : LrOps R) (fuel : Nat) (trans : Bool) (V T A B Vt : Mat R)
    (tv : Bool) (C : Mat R) : Except Err (Mat R × Mat R) := do
  let C ← gemm o fuel Vt B C 1 1 tv false
  let C ← trmm o fuel T C .left .upper trans false 1
  let n ← C.getNRows
  let A' ← gemm o fuel (.dense (Dense.ident n n)) C A (-1) 1 false false
  let B' ← gemm o fuel V C B (-1) 1 false false
  .ok (A', B')

/-- `tpmqrt`, tpmqrt.cpp:39-179: new values of `A` and `B`. -/
def tpmqrt [DecidableEq R] (o : LrOps R) (fuel : Nat) (trans : Bool) (V T A B : Mat R) :
    Except Err (Mat R × Mat R) :=
  match V, T, A, B with
  | .dense v, .dense t, .dense a, .dense b => do
    let x ← Dense.tprfb v t a b trans
    .ok (.dense x.1, .dense x.2)
  -- `D D LR D`: `Dense C(A)`, and `V` is not transposed explicitly
  | .dense v, .dense t, .lowRank a, .dense b => do
    let c ← a.toDense
    tpmqrtProducts o fuel trans (.dense v) (.dense t) (.lowRank a) (.dense b) (.dense v) true (.dense c)
  | .lowRank v, .dense t, .dense a, .dense b =>
    tpmqrtProducts o fuel trans (.lowRank v) (.dense t) (.dense a) (.dense b)
      (.lowRank v.transpose) false (.dense a)
  | .dense v, .dense t, .dense a, .lowRank b =>
    tpmqrtProducts o fuel trans (.dense v) (.dense t) (.dense a) (.lowRank b)
      (.dense v.transpose) false (.dense a)
  | .lowRank v, .dense t, .lowRank a, .dense b =>
    tpmqrtProducts o fuel trans (.lowRank v) (.dense t) (.lowRank a) (.dense b)
      (.lowRank v.transpose) false (.lowRank a)
  | .lowRank v, .dense t, .dense a, .lowRank b =>
    tpmqrtProducts o fuel trans (.lowRank v) (.dense t) (.dense a) (.lowRank b)
      (.lowRank v.transpose) false (.dense a)
  | .dense v, .dense t, .lowRank a, .lowRank b =>
    tpmqrtProducts o fuel trans (.dense v) (.dense t) (.lowRank a) (.lowRank b)
      (.dense v.transpose) false (.lowRank a)
  | .lowRank v, .dense t, .lowRank a, .lowRank b =>
    tpmqrtProducts o fuel trans (.lowRank v) (.dense t) (.lowRank a) (.lowRank b)
      (.lowRank v.transpose) false (.lowRank a)
  | _, _, _, _ => .error .abort

/-! ### blocked Householder QR -/

/-- Block grids with one block or block column replaced. -/
def putBlk (A : Nat → Nat → Mat R) (i j : Nat) (X : Mat R) : Nat → Nat → Mat R :=
  fun a b => if a = i ∧ b = j then X else A a b

/-- Block grid with block column `j` replaced. -/
def putCol (A : Nat → Nat → Mat R) (j : Nat) (c : Nat → Mat R) : Nat → Nat → Mat R :=
  fun a b => if b = j then c a else A a b

/-- `get_right_factor`, qr.cpp:51-53 and 97-104.  There is no fallback method;
yomm2 aborts on other kinds. -/
def rightFactor : Mat R → Except Err (Dense R)
  | .dense d => .ok d
  | .lowRank l => Dense.gemmNew l.S l.V 1 false false
  | _ => .error .abort

/-- `update_right_factor`, qr.cpp:60-62 and 106-122. -/
def updateRightFactor : Mat R → Dense R → Except Err (Mat R)
  | .dense _, X => .ok (.dense X)
  | .lowRank l, X => .ok (.lowRank (l.setRight X))
  | _, _ => .error .abort

/-- `triangularize_block_col(j, A, T)`, qr.cpp:124-149, on block column `col` of a
matrix with `p` block rows: the new block column and `T(j,0)`.  For `j >= p` the
constructor of `Rj` gets a size that is not positive and fails in one way or
another; the model says `ub`. -/
def triangularizeCol (K : QrKernels R) (p j : Nat) (col : Nat → Mat R) :
    Except Err ((Nat → Mat R) × Dense R) :=
  if j < p then do
    let Rj ← collect (p - j) (fun i => rightFactor (col (j + i)))
    let D ← (Mat.hier (p - j) 1 (fun i _ => .dense (Rj i))).toDense
    let x ← Dense.geqrt K D (Dense.zero D.cols D.cols)
    let new ← collect (p - j) (fun i => do
      assertM (decide (D.cols = (Rj i).cols))
      assertM (decide ((Rj i).rows ≤ D.rows - psum (fun i => (Rj i).rows) i))
      updateRightFactor (col (j + i))
        (x.1.sub (psum (fun i => (Rj i).rows) i) 0 (Rj i).rows (Rj i).cols))
    .ok (fun i => if j ≤ i ∧ i < p then new (i - j) else col i, x.2)
  else .error .ub

/-- `apply_block_col_householder(Y, T, k, trans, A, j)`, qr.cpp:151-181, on
matrices with `p` block rows.  `Y` is block column `k` of the reflectors, `Tk` is
`T(k,0)`, `col` is block column `j` of `A`.  The result is the new block column. -/
def applyBlockCol [DecidableEq R] (o : LrOps R) (fuel p : Nat) (Y : Nat → Mat R) (Tk : Mat R) (k : Nat)
    (trans : Bool) (col : Nat → Mat R) : Except Err (Nat → Mat R) := do
  let Yt ← collect (p - k) (fun i => (Y (i + k)).transpose)
  assertM (decide (k < p))
  let C ← trmm o fuel (Y k) (col k) .left .lower true true 1
  let C ← loop (p - (k + 1)) (fun u C => gemm o fuel (Yt (u + 1)) (col (k + 1 + u)) C 1 1 false false) C
  let C ← trmm o fuel Tk C .left .upper trans false 1
  let C0 ← trmm o fuel (Y k) C .left .lower false true 1
  let n ← C0.getNRows
  let ak ← gemm o fuel (.dense (Dense.ident n n)) C0 (col k) (-1) 1 false false
  let rest ← collect (p - (k + 1)) (fun u =>
    gemm o fuel (Y (k + 1 + u)) C (col (k + 1 + u)) (-1) 1 false false)
  .ok (fun i => if i = k then ak else if k < i ∧ i < p then rest (i - (k + 1)) else col i)

/-- Step `k` of the outer loop of `blocked_householder_blr_qr`, qr.cpp:187-190. -/
def blockedStep [DecidableEq R] (K : QrKernels R) (o : LrOps R) (fuel p q k : Nat)
    (st : (Nat → Nat → Mat R) × (Nat → Nat → Mat R)) :
    Except Err ((Nat → Nat → Mat R) × (Nat → Nat → Mat R)) := do
  let x ← triangularizeCol K p k (fun i => st.1 i k)
  let A ← loop (q - (k + 1)) (fun u A => do
    let c ← applyBlockCol o fuel p x.1 (.dense x.2) k true (fun i => A i (k + 1 + u))
    .ok (putCol A (k + 1 + u) c)) (putCol st.1 k x.1)
  .ok (A, putBlk st.2 k 0 (.dense x.2))

/-- `blocked_householder_blr_qr(A, T)`, qr.cpp:183-192, on the blocks of a
`p`-by-`q` matrix `A` and a `tr`-by-`tc` matrix `T`: the new blocks of both. -/
def blockedQr [DecidableEq R] (K : QrKernels R) (o : LrOps R) (fuel p q : Nat)
    (A : Nat → Nat → Mat R) (tr tc : Nat) (T : Nat → Nat → Mat R) :
    Except Err ((Nat → Nat → Mat R) × (Nat → Nat → Mat R)) := do
  assertM (decide (tr = q))
  assertM (decide (tc = 1))
  loop q (blockedStep K o fuel p q) (A, T)

/-- Step `k` of the outer loops of `left_multiply_blocked_reflector`,
qr.cpp:199-201 and 206-208.  `Y` is `p`-by-`q`, `T` is `tr`-by-`tc`, `C` is
`m`-by-`n`. -/
def leftMulBlockedStep [DecidableEq R] (o : LrOps R) (fuel p q : Nat) (Y : Nat → Nat → Mat R)
    (tr tc : Nat) (T : Nat → Nat → Mat R) (m n : Nat) (trans : Bool) (k : Nat)
    (C : Nat → Nat → Mat R) : Except Err (Nat → Nat → Mat R) :=
  loop (q - k) (fun u C => do
    assertM (decide (m = p))
    assertM (decide (k + u < n))
    let t ← blockAt tr tc T k 0
    let c ← applyBlockCol o fuel p (fun i => Y i k) t k trans (fun i => C i (k + u))
    .ok (putCol C (k + u) c)) C

/-- `left_multiply_blocked_reflector(Y, T, C, trans)`, qr.cpp:194-211: the new
blocks of `C`. -/
def leftMulBlocked [DecidableEq R] (o : LrOps R) (fuel p q : Nat) (Y : Nat → Nat → Mat R)
    (tr tc : Nat) (T : Nat → Nat → Mat R) (m n : Nat) (C : Nat → Nat → Mat R) (trans : Bool) :
    Except Err (Nat → Nat → Mat R) :=
  if trans then
    loop q (fun k C => leftMulBlockedStep o fuel p q Y tr tc T m n trans k C) C
  else
    loop q (fun u C => leftMulBlockedStep o fuel p q Y tr tc T m n trans (q - 1 - u) C) C

/-! ### tiled Householder QR -/

/-- Block columns with one block replaced. -/
def putRow (c : Nat → Mat R) (i : Nat) (X : Mat R) : Nat → Mat R := fun a => if a = i then X else c a

/-- Inner loop body of `tiled_householder_blr_qr` over `i`, qr.cpp:221-226. -/
def tiledInner [DecidableEq R] (K : QrKernels R) (o : LrOps R) (fuel p q tr tc k i : Nat)
    (st : (Nat → Nat → Mat R) × (Nat → Nat → Mat R)) :
    Except Err ((Nat → Nat → Mat R) × (Nat → Nat → Mat R)) := do
  let akk ← blockAt p q st.1 k k
  let aik ← blockAt p q st.1 i k
  let t ← blockAt tr tc st.2 i k
  let x ← tpqrt K akk aik t
  let A ← loop (q - (k + 1)) (fun u A => do
    let y ← tpmqrt o fuel true x.2.1 x.2.2 (A k (k + 1 + u)) (A i (k + 1 + u))
    .ok (putBlk (putBlk A k (k + 1 + u) y.1) i (k + 1 + u) y.2))
    (putBlk (putBlk st.1 k k x.1) i k x.2.1)
  .ok (A, putBlk st.2 i k x.2.2)

/-- Step `k` of the outer loop of `tiled_householder_blr_qr`, qr.cpp:216-227. -/
def tiledStep [DecidableEq R] (K : QrKernels R) (o : LrOps R) (fuel p q tr tc k : Nat)
    (st : (Nat → Nat → Mat R) × (Nat → Nat → Mat R)) :
    Except Err ((Nat → Nat → Mat R) × (Nat → Nat → Mat R)) := do
  let akk ← blockAt p q st.1 k k
  let t ← blockAt tr tc st.2 k k
  let x ← geqrt K akk t
  let A ← loop (q - (k + 1)) (fun u A => do
    let y ← larfb true x.1 x.2 (A k (k + 1 + u))
    .ok (putBlk A k (k + 1 + u) y)) (putBlk st.1 k k x.1)
  loop (p - (k + 1)) (fun u st => tiledInner K o fuel p q tr tc k (k + 1 + u) st)
    (A, putBlk st.2 k k x.2)

/-- `tiled_householder_blr_qr(A, T)`, qr.cpp:213-228. -/
def tiledQr [DecidableEq R] (K : QrKernels R) (o : LrOps R) (fuel p q : Nat)
    (A : Nat → Nat → Mat R) (tr tc : Nat) (T : Nat → Nat → Mat R) :
    Except Err ((Nat → Nat → Mat R) × (Nat → Nat → Mat R)) := do
  assertM (decide (tr = p))
  assertM (decide (tc = q))
  loop q (tiledStep K o fuel p q tr tc) (A, T)

/-- `for j: larfb(Y(k,k), T(k,k), C(k,j), trans)`, qr.cpp:235-237 and 252-254. -/
def leftMulLarfb (p q : Nat) (Y : Nat → Nat → Mat R) (tr tc : Nat) (T : Nat → Nat → Mat R) (m n : Nat)
    (trans : Bool) (k : Nat) (C : Nat → Nat → Mat R) : Except Err (Nat → Nat → Mat R) :=
  loop (q - k) (fun u C => do
    let v ← blockAt p q Y k k
    let t ← blockAt tr tc T k k
    let c ← blockAt m n C k (k + u)
    let y ← larfb trans v t c
    .ok (putBlk C k (k + u) y)) C

/-- `for j: tpmqrt(Y(i,k), T(i,k), C(k,j), C(i,j), trans)`, qr.cpp:239-241 and
248-250. -/
def leftMulTpmqrt [DecidableEq R] (o : LrOps R) (fuel p q : Nat) (Y : Nat → Nat → Mat R) (tr tc : Nat)
    (T : Nat → Nat → Mat R) (m n : Nat) (trans : Bool) (k i : Nat) (C : Nat → Nat → Mat R) :
    Except Err (Nat → Nat → Mat R) :=
  loop (q - k) (fun u C => do
    let v ← blockAt p q Y i k
    let t ← blockAt tr tc T i k
    let a ← blockAt m n C k (k + u)
    let b ← blockAt m n C i (k + u)
    let y ← tpmqrt o fuel trans v t a b
    .ok (putBlk (putBlk C k (k + u) y.1) i (k + u) y.2)) C

/-- `left_multiply_tiled_reflector(Y, T, C, trans)`, qr.cpp:230-257. -/
def leftMulTiled [DecidableEq R] (o : LrOps R) (fuel p q : Nat) (Y : Nat → Nat → Mat R)
    (tr tc : Nat) (T : Nat → Nat → Mat R) (m n : Nat) (C : Nat → Nat → Mat R) (trans : Bool) :
    Except Err (Nat → Nat → Mat R) :=
  if trans then
    loop q (fun k C => do
      let C ← leftMulLarfb p q Y tr tc T m n trans k C
      loop (p - (k + 1)) (fun u C =>
        leftMulTpmqrt o fuel p q Y tr tc T m n trans k (k + 1 + u) C) C) C
  else
    loop q (fun v C => do
      let C ← loop (p - (q - 1 - v + 1)) (fun u C =>
        leftMulTpmqrt o fuel p q Y tr tc T m n trans (q - 1 - v) (p - 1 - u) C) C
      leftMulLarfb p q Y tr tc T m n trans (q - 1 - v) C) C

end
end Mat
end Verif
