import Verif.Model.Arith

/-
General matrix multiplication, src/operations/BLAS/gemm.cpp.

The open multi-method `gemm_omm` calls `gemm`, which dispatches to `gemm_omm`
again.  `gemmOmm` and `gemmNewOmm` below are the method bodies with the two
recursive functions as parameters; `gemmBoth` closes the recursion with a budget
for its depth.  `C` is assumed not to share storage with `A` or `B`: this is a
value-level model.  Products whose three operands are all known to be `Dense`
(factors of low-rank matrices) are `Dense.gemm`, `Dense.gemmNew`.
-/

namespace Verif
open Finset

variable {R : Type}

/-- Type of `gemm(A, B, C, alpha, beta, TransA, TransB)`; the result is the new
value of `C`. -/
abbrev GemmT (R : Type) := Mat R → Mat R → Mat R → R → R → Bool → Bool → Except Err (Mat R)

/-- Type of `gemm(A, B, alpha, TransA, TransB)` returning a new matrix. -/
abbrev GemmNewT (R : Type) := Mat R → Mat R → R → Bool → Bool → Except Err (Mat R)

namespace Mat

/-- `TransA ? get_n_cols(A) : get_n_rows(A)`, gemm.cpp:44. -/
def opRows (t : Bool) (A : Mat R) : Nat := if t then A.nCols else A.nRows

/-- `TransA ? get_n_rows(A) : get_n_cols(A)`, gemm.cpp:46. -/
def opCols (t : Bool) (A : Mat R) : Nat := if t then A.nRows else A.nCols

/-- `A.dim[TransA ? 1 : 0]`, number of block rows of `op(A)`. -/
def opDim0 (t : Bool) (br bc : Nat) : Nat := if t then bc else br

/-- `A.dim[TransA ? 0 : 1]`, number of block columns of `op(A)`. -/
def opDim1 (t : Bool) (br bc : Nat) : Nat := if t then br else bc

/-- `TransA ? A(k, i) : A(i, k)`. -/
def opBlk (t : Bool) (blk : Nat → Nat → Mat R) (i k : Nat) : Mat R :=
  if t then blk k i else blk i k

/-- `TransA ? A(k, i) : A(i, k)` with the asserts of `Hierarchical::operator()`,
hierarchical.cpp:170-174. -/
def opAt (t : Bool) (br bc : Nat) (blk : Nat → Nat → Mat R) (i k : Nat) : Except Err (Mat R) := do
  assertM (decide (i < opDim0 t br bc))
  assertM (decide (k < opDim1 t br bc))
  .ok (opBlk t blk i k)

/-- `Hierarchical::operator[](i)`, hierarchical.cpp:158-168: `data[i]` of a block
row or block column. -/
def vecAt (br bc : Nat) (blk : Nat → Nat → Mat R) (i : Nat) : Except Err (Mat R) := do
  assertM (decide (br = 1 ∨ bc = 1))
  assertM (decide (i < if br ≠ 1 then br else bc))
  .ok (if br = 1 then blk 0 i else blk i 0)

/-- Contents of the dense matrix `c` after its (non-copying) split has been
updated to `CH`: the blocks are views of `c`. -/
def joinDense [Zero R] (c : Dense R) (CH : Mat R) : Except Err (Mat R) :=
  match CH with
  | .hier m n blk => do
    let g ← collect2 m n (fun i j => (blk i j).asDense)
    .ok (.dense ⟨c.rows, c.cols,
      joinVal m n (fun i => (blk i 0).nRows) (fun j => (blk 0 j).nCols) g⟩)
  | _ => .error .abort

section
variable [CommRing R]

/-- `LR D D`, gemm.cpp:148-162. -/
def gemmLrDD (a : LowRank R) (b c : Dense R) (α β : R) (ta tb : Bool) : Except Err (Dense R) := do
  let x ← Dense.gemmNew (if ta then a.U else a.V) b α ta tb
  let y ← Dense.gemmNew a.S x 1 ta false
  Dense.gemm (if ta then a.V else a.U) y c 1 β ta false

/-- `D LR D`, gemm.cpp:164-178. -/
def gemmDLrD (a : Dense R) (b : LowRank R) (c : Dense R) (α β : R) (ta tb : Bool) :
    Except Err (Dense R) := do
  let x ← Dense.gemmNew a (if tb then b.V else b.U) α ta tb
  let y ← Dense.gemmNew x b.S 1 false tb
  Dense.gemm y (if tb then b.U else b.V) c 1 β false tb

/-- `LR LR D`, gemm.cpp:180-200. -/
def gemmLrLrD (a b : LowRank R) (c : Dense R) (α β : R) (ta tb : Bool) : Except Err (Dense R) := do
  let x ← Dense.gemmNew (if ta then a.U else a.V) (if tb then b.V else b.U) α ta tb
  let y ← Dense.gemmNew a.S x 1 ta false
  let z ← Dense.gemmNew y b.S 1 false tb
  let w ← Dense.gemmNew (if ta then a.V else a.U) z 1 ta false
  Dense.gemm w (if tb then b.U else b.V) c 1 β false tb

/-- `H H D`, gemm.cpp:574-592. -/
def gemmHHD (g : GemmT R) (p q : Nat) (A : Nat → Nat → Mat R) (r s : Nat) (B : Nat → Nat → Mat R)
    (c : Dense R) (α β : R) (ta tb : Bool) : Except Err (Mat R) := do
  assertM (decide (opDim1 ta p q = opDim0 tb r s))
  if opDim0 ta p q = 1 ∧ opDim1 tb r s = 1 then
    loop (opDim1 ta p q) (fun k C => do
      let a ← vecAt p q A k
      let b ← vecAt r s B k
      g a b C α (if k = 0 then β else 1) ta tb) (.dense c)
  else do
    let CH ← (Mat.dense c).split (opDim0 ta p q) (opDim1 tb r s)
    let CH' ← g (.hier p q A) (.hier r s B) CH α β ta tb
    joinDense c CH'

/-- `gemm_omm` with a `Dense` target: gemm.cpp:126-200 and 574-628; other
combinations reach the fallback, gemm.cpp:630-638. -/
def gemmToDense (g : GemmT R) (A B : Mat R) (c : Dense R) (α β : R) (ta tb : Bool) :
    Except Err (Mat R) :=
  match A, B with
  | .dense a, .dense b => do
    let d ← Dense.gemm a b c α β ta tb
    .ok (.dense d)
  | .lowRank a, .dense b => do
    let d ← gemmLrDD a b c α β ta tb
    .ok (.dense d)
  | .dense a, .lowRank b => do
    let d ← gemmDLrD a b c α β ta tb
    .ok (.dense d)
  | .lowRank a, .lowRank b => do
    let d ← gemmLrLrD a b c α β ta tb
    .ok (.dense d)
  | .hier p q A, .hier r s B => gemmHHD g p q A r s B c α β ta tb
  | A, .hier r s B =>
    if r = 1 ∧ s = 1 then g A (B 0 0) (.dense c) α β ta tb
    else do
      let CH ← (Mat.dense c).split 1 (opDim1 tb r s)
      let CH' ← g A (.hier r s B) CH α β ta tb
      joinDense c CH'
  | .hier p q A, B =>
    if p = 1 ∧ q = 1 then g (A 0 0) B (.dense c) α β ta tb
    else do
      let CH ← (Mat.dense c).split (opDim0 ta p q) 1
      let CH' ← g (.hier p q A) B CH α β ta tb
      joinDense c CH'
  | _, _ => .error .abort

/-- `C *= beta; C += AxB;` with `AxB` a `LowRank`, the common end of many method
bodies (for instance gemm.cpp:233-234). -/
def scaleAdd (o : LrOps R) (C : Mat R) (β : R) (X : LowRank R) : Except Err (Mat R) := do
  let C' ← C.scale β
  C'.addAssign o (.lowRank X)

/-- `LR D *` for `LowRank` and `Hierarchical` targets, gemm.cpp:220-235 and
358-373. -/
def gemmLrD (o : LrOps R) (a : LowRank R) (b : Dense R) (C : Mat R) (α β : R) (ta tb : Bool) :
    Except Err (Mat R) := do
  let V ← Dense.gemmNew (if ta then a.U else a.V) b α ta tb
  scaleAdd o C β (LowRank.ofFactors (if ta then a.V.transpose else a.U)
    (if ta then a.S.transpose else a.S) V)

/-- `D LR *` for `LowRank` and `Hierarchical` targets, gemm.cpp:237-252 and
341-356. -/
def gemmDLr (o : LrOps R) (a : Dense R) (b : LowRank R) (C : Mat R) (α β : R) (ta tb : Bool) :
    Except Err (Mat R) := do
  let U ← Dense.gemmNew a (if tb then b.V else b.U) α ta tb
  scaleAdd o C β (LowRank.ofFactors U (if tb then b.S.transpose else b.S)
    (if tb then b.U.transpose else b.V))

/-- `LR LR *` for `LowRank` and `Hierarchical` targets, gemm.cpp:254-273 and
375-394. -/
def gemmLrLr (o : LrOps R) (a b : LowRank R) (C : Mat R) (α β : R) (ta tb : Bool) :
    Except Err (Mat R) := do
  let x ← Dense.gemmNew a.S (if ta then a.U else a.V) 1 ta ta
  let y ← Dense.gemmNew (if tb then b.V else b.U) b.S 1 tb tb
  let S ← Dense.gemmNew x y α false false
  scaleAdd o C β (LowRank.ofFactors (if ta then a.V.transpose else a.U) S
    (if tb then b.U.transpose else b.V))

/-- `D D LR`, gemm.cpp:202-218. -/
def gemmDDLr [DecidableEq R] (o : LrOps R) (a b : Dense R) (c : LowRank R) (α β : R)
    (ta tb : Bool) : Except Err (Mat R) := do
  let c1 : LowRank R := { c with S := c.S.scale β }
  let ab ← Dense.gemmNew a b α ta tb
  let x ← (if c.eps ≠ 0 then o.ofEps ab c.eps else o.ofRank ab c.rank)
  let c2 ← o.addAssign c1 x
  .ok (.lowRank c2)

/-- `H H LR`, gemm.cpp:396-418.  `Hierarchical AB = gemm(...)` aborts if the
result is not a `Hierarchical` (hierarchical.cpp:32-44). -/
def gemmHHLr [DecidableEq R] (o : LrOps R) (g : GemmT R) (gn : GemmNewT R) (A B : Mat R)
    (c : LowRank R) (α β : R) (ta tb : Bool) : Except Err (Mat R) :=
  if c.eps ≠ 0 then do
    let cd ← c.toDense
    let cd' ← g A B (.dense cd) α β ta tb
    let d ← cd'.asDense
    let l ← o.ofEps d c.eps
    .ok (.lowRank l)
  else do
    let ab ← gn A B α ta tb
    match ab with
    | .hier m n blk =>
      let d ← o.ofHier (.hier m n blk) c.rank
      let c2 ← o.addAssign { c with S := c.S.scale β } d
      .ok (.lowRank c2)
    | _ => .error .abort

/-- `gemm_omm` with a `LowRank` target: gemm.cpp:202-339 and 396-418; other
combinations reach the fallback. -/
def gemmToLowRank [DecidableEq R] (o : LrOps R) (g : GemmT R) (gn : GemmNewT R) (A B : Mat R)
    (c : LowRank R) (α β : R) (ta tb : Bool) : Except Err (Mat R) :=
  match A, B with
  | .dense a, .dense b => gemmDDLr o a b c α β ta tb
  | .lowRank a, .dense b => gemmLrD o a b (.lowRank c) α β ta tb
  | .dense a, .lowRank b => gemmDLr o a b (.lowRank c) α β ta tb
  | .lowRank a, .lowRank b => gemmLrLr o a b (.lowRank c) α β ta tb
  -- `H LR LR`, gemm.cpp:275-290
  | .hier p q A, .lowRank b => do
    let U ← gn (.hier p q A) (.dense (if tb then b.V else b.U)) α ta tb
    let U ← U.asDense
    scaleAdd o (.lowRank c) β (LowRank.ofFactors U (if tb then b.S.transpose else b.S)
      (if tb then b.U.transpose else b.V))
  -- `LR H LR`, gemm.cpp:324-339
  | .lowRank a, .hier r s B => do
    let V ← gn (.dense (if ta then a.U else a.V)) (.hier r s B) α ta tb
    let V ← V.asDense
    scaleAdd o (.lowRank c) β (LowRank.ofFactors (if ta then a.V.transpose else a.U)
      (if ta then a.S.transpose else a.S) V)
  -- `D H LR`, gemm.cpp:292-306
  | .dense a, .hier r s B => do
    let HA ← (Mat.dense a).split (if ta then opDim0 tb r s else 1) (if ta then 1 else opDim0 tb r s)
    g HA (.hier r s B) (.lowRank c) α β ta tb
  -- `H D LR`, gemm.cpp:308-322
  | .hier p q A, .dense b => do
    let HB ← (Mat.dense b).split (if tb then 1 else opDim1 ta p q) (if tb then opDim1 ta p q else 1)
    g (.hier p q A) HB (.lowRank c) α β ta tb
  | .hier p q A, .hier r s B => gemmHHLr o g gn (.hier p q A) (.hier r s B) c α β ta tb
  | _, _ => .error .abort

/-- `H H H`, gemm.cpp:420-442. -/
def gemmHHH (g : GemmT R) (p q : Nat) (A : Nat → Nat → Mat R) (r s : Nat) (B : Nat → Nat → Mat R)
    (m n : Nat) (C : Nat → Nat → Mat R) (α β : R) (ta tb : Bool) : Except Err (Mat R) := do
  assertM (decide (opDim0 ta p q = m))
  assertM (decide (opDim1 ta p q = opDim0 tb r s))
  assertM (decide (opDim1 tb r s = n))
  let C' ← collect2 m n (fun i j =>
    loop (opDim1 ta p q) (fun k c =>
      g (opBlk ta A i k) (opBlk tb B k j) c α (if k = 0 then β else 1) ta tb) (C i j))
  .ok (.hier m n C')

/-- `D D H`, gemm.cpp:444-466. -/
def gemmDDH (g : GemmT R) (a b : Dense R) (m n : Nat) (C : Nat → Nat → Mat R) (α β : R)
    (ta tb : Bool) : Except Err (Mat R) :=
  if m = 1 ∧ n = 1 then .error .abort
  else if n = 1 then do
    let AH ← (Mat.dense a).split (if ta then 1 else m) (if ta then m else 1)
    g AH (.dense b) (.hier m n C) α β ta tb
  else if m = 1 then do
    let BH ← (Mat.dense b).split (if tb then n else 1) (if tb then 1 else n)
    g (.dense a) BH (.hier m n C) α β ta tb
  else do
    let AH ← (Mat.dense a).split (if ta then 1 else m) (if ta then m else 1)
    let BH ← (Mat.dense b).split (if tb then n else 1) (if tb then 1 else n)
    g AH BH (.hier m n C) α β ta tb

/-- The loop `for (j) gemm(A, B[j], C[j], alpha, beta, ...)` of `LR H H` and
`D H H`, gemm.cpp:481-483 and 507-509; `C` is a block row. -/
def gemmRowLoop (g : GemmT R) (A : Mat R) (r s : Nat) (B : Nat → Nat → Mat R) (m n : Nat)
    (C : Nat → Nat → Mat R) (α β : R) (ta tb : Bool) : Except Err (Mat R) := do
  let f ← collect (opDim1 tb r s) (fun j => do
    let b ← vecAt r s B j
    let c ← vecAt m n C j
    g A b c α β ta tb)
  .ok (.hier m n (fun i j => if j < opDim1 tb r s then f j else C i j))

/-- The loop `for (i) gemm(A[i], B, C[i], alpha, beta, ...)` of `H LR H` and
`H D H`, gemm.cpp:534-536 and 559-561; `C` is a block column. -/
def gemmColLoop (g : GemmT R) (p q : Nat) (A : Nat → Nat → Mat R) (B : Mat R) (m n : Nat)
    (C : Nat → Nat → Mat R) (α β : R) (ta tb : Bool) : Except Err (Mat R) := do
  let f ← collect (opDim0 ta p q) (fun i => do
    let a ← vecAt p q A i
    let c ← vecAt m n C i
    g a B c α β ta tb)
  .ok (.hier m n (fun i j => if i < opDim0 ta p q then f i else C i j))

/-- `LR H H`, gemm.cpp:468-492. The last branch does not look at `TransA`. -/
def gemmLrHH (o : LrOps R) (g : GemmT R) (gn : GemmNewT R) (a : LowRank R) (r s : Nat)
    (B : Nat → Nat → Mat R) (m n : Nat) (C : Nat → Nat → Mat R) (α β : R) (ta tb : Bool) :
    Except Err (Mat R) := do
  assertM (decide (opDim1 tb r s = n))
  if r = 1 ∧ s = 1 then g (.lowRank a) (B 0 0) (.hier m n C) α β ta tb
  else if opDim0 tb r s = 1 ∧ m = 1 then gemmRowLoop g (.lowRank a) r s B m n C α β ta tb
  else do
    let V ← gn (.dense a.V) (.hier r s B) α false tb
    let V ← V.asDense
    scaleAdd o (.hier m n C) β (LowRank.ofFactors a.U a.S V)

/-- `D H H`, gemm.cpp:494-520. -/
def gemmDHH (g : GemmT R) (a : Dense R) (r s : Nat) (B : Nat → Nat → Mat R) (m n : Nat)
    (C : Nat → Nat → Mat R) (α β : R) (ta tb : Bool) : Except Err (Mat R) := do
  assertM (decide (opDim1 tb r s = n))
  if r = 1 ∧ s = 1 then g (.dense a) (B 0 0) (.hier m n C) α β ta tb
  else if opDim0 tb r s = 1 ∧ m = 1 then gemmRowLoop g (.dense a) r s B m n C α β ta tb
  else do
    let AH ← (Mat.dense a).split (if ta then opDim0 tb r s else m) (if ta then m else opDim0 tb r s)
    g AH (.hier r s B) (.hier m n C) α β ta tb

/-- `H LR H`, gemm.cpp:522-545. The last branch does not look at `TransA` and
passes `TransB` on to the product with `B.U` only. -/
def gemmHLrH (o : LrOps R) (g : GemmT R) (gn : GemmNewT R) (p q : Nat) (A : Nat → Nat → Mat R)
    (b : LowRank R) (m n : Nat) (C : Nat → Nat → Mat R) (α β : R) (ta tb : Bool) :
    Except Err (Mat R) :=
  if p = 1 ∧ q = 1 then g (A 0 0) (.lowRank b) (.hier m n C) α β ta tb
  else if opDim1 ta p q = 1 ∧ n = 1 then gemmColLoop g p q A (.lowRank b) m n C α β ta tb
  else do
    let U ← gn (.hier p q A) (.dense b.U) α false tb
    let U ← U.asDense
    scaleAdd o (.hier m n C) β (LowRank.ofFactors U b.S b.V)

/-- `H D H`, gemm.cpp:547-572. -/
def gemmHDH (g : GemmT R) (p q : Nat) (A : Nat → Nat → Mat R) (b : Dense R) (m n : Nat)
    (C : Nat → Nat → Mat R) (α β : R) (ta tb : Bool) : Except Err (Mat R) :=
  if p = 1 ∧ q = 1 then g (A 0 0) (.dense b) (.hier m n C) α β ta tb
  else if opDim1 ta p q = 1 ∧ n = 1 then gemmColLoop g p q A (.dense b) m n C α β ta tb
  else do
    let BH ← (Mat.dense b).split (if tb then n else opDim1 ta p q) (if tb then opDim1 ta p q else n)
    g (.hier p q A) BH (.hier m n C) α β ta tb

/-- `gemm_omm` with a `Hierarchical` target: gemm.cpp:341-394 and 420-572; other
combinations reach the fallback. -/
def gemmToHier (o : LrOps R) (g : GemmT R) (gn : GemmNewT R) (A B : Mat R) (m n : Nat)
    (C : Nat → Nat → Mat R) (α β : R) (ta tb : Bool) : Except Err (Mat R) :=
  match A, B with
  | .dense a, .dense b => gemmDDH g a b m n C α β ta tb
  | .lowRank a, .dense b => gemmLrD o a b (.hier m n C) α β ta tb
  | .dense a, .lowRank b => gemmDLr o a b (.hier m n C) α β ta tb
  | .lowRank a, .lowRank b => gemmLrLr o a b (.hier m n C) α β ta tb
  | .hier p q A, .lowRank b => gemmHLrH o g gn p q A b m n C α β ta tb
  | .lowRank a, .hier r s B => gemmLrHH o g gn a r s B m n C α β ta tb
  | .dense a, .hier r s B => gemmDHH g a r s B m n C α β ta tb
  | .hier p q A, .dense b => gemmHDH g p q A b m n C α β ta tb
  | .hier p q A, .hier r s B => gemmHHH g p q A r s B m n C α β ta tb
  | _, _ => .error .abort

/-- `gemm_omm(A, B, C, ...)`, gemm.cpp:126-638. -/
def gemmOmm [DecidableEq R] (o : LrOps R) (g : GemmT R) (gn : GemmNewT R) : GemmT R :=
  fun A B C α β ta tb =>
  match C with
  | .dense c => gemmToDense g A B c α β ta tb
  | .lowRank c => gemmToLowRank o g gn A B c α β ta tb
  | .hier m n C => gemmToHier o g gn A B m n C α β ta tb
  | .empty _ _ => .error .abort

/-- `H H New(H)`, gemm.cpp:72-108. -/
def gemmNewHH (g : GemmT R) (gn : GemmNewT R) (p q : Nat) (A : Nat → Nat → Mat R) (r s : Nat)
    (B : Nat → Nat → Mat R) (α : R) (ta tb : Bool) : Except Err (Mat R) :=
  if opDim0 ta p q = 1 ∧ opDim1 tb r s = 1 then
    g (.hier p q A) (.hier r s B)
      (.dense (Dense.zero (opRows ta (.hier p q A)) (opCols tb (.hier r s B)))) α 0 ta tb
  else do
    let out ← collect2 (opDim0 ta p q) (opDim1 tb r s) (fun i j => do
      let a ← opAt ta p q A i 0
      let b ← opAt tb r s B 0 j
      let c ← gn a b α ta tb
      loop (opDim1 ta p q - 1) (fun k c => do
        let a ← opAt ta p q A i (k + 1)
        let b ← opAt tb r s B (k + 1) j
        g a b c α 1 ta tb) c)
    .ok (.hier (opDim0 ta p q) (opDim1 tb r s) out)

/-- `gemm_omm(A, B, ...)` returning a new matrix, gemm.cpp:72-124. -/
def gemmNewOmm (g : GemmT R) (gn : GemmNewT R) : GemmNewT R :=
  fun A B α ta tb =>
  match A, B with
  | .hier p q A, .hier r s B => gemmNewHH g gn p q A r s B α ta tb
  | A, B => g A B (.dense (Dense.zero (A.opRows ta) (B.opCols tb))) α 0 ta tb

/-- `gemm` in its two versions, gemm.cpp:39-51 and 61-70: the asserts followed by
the dispatch.  The first argument bounds the depth of the recursion. -/
def gemmBoth [DecidableEq R] (o : LrOps R) : Nat → GemmT R × GemmNewT R
  | 0 => (fun _ _ _ _ _ _ _ => .error .fuel, fun _ _ _ _ _ => .error .fuel)
  | fuel + 1 =>
    (fun A B C α β ta tb => do
      assertM (decide (A.opRows ta = C.nRows))
      assertM (decide (A.opCols ta = B.opRows tb))
      assertM (decide (B.opCols tb = C.nCols))
      gemmOmm o (gemmBoth o fuel).1 (gemmBoth o fuel).2 A B C α β ta tb,
     fun A B α ta tb => do
      assertM (decide (A.opCols ta = B.opRows tb))
      gemmNewOmm (gemmBoth o fuel).1 (gemmBoth o fuel).2 A B α ta tb)

/-- `gemm(A, B, C, alpha, beta, TransA, TransB)`, gemm.cpp:39-51. -/
def gemm [DecidableEq R] (o : LrOps R) (fuel : Nat) : GemmT R := (gemmBoth o fuel).1

/-- `gemm(A, B, alpha, TransA, TransB)`, gemm.cpp:61-70. -/
def gemmNew [DecidableEq R] (o : LrOps R) (fuel : Nat) : GemmNewT R := (gemmBoth o fuel).2

end
end Mat
end Verif
