import Verif.Model.HeapGemm
import Verif.Model.Tri

/-
`trsm` and `trmm` as they act on the stored elements of the matrix they overwrite (trsm.cpp,
trmm.cpp).

Both split a `Dense` target into views and recurse into them.  The triangular matrix is read-only
and stored elsewhere: it is a value.  A block of the target that is a factor of a product into
another block is read when the product starts; the two blocks have no element in common, so it
does not change while the product runs.
-/

namespace Verif

variable {R : Type}

namespace Tgt

/-- The entries a routine reads.  For a `Hierarchical` it is the copy made by its copy constructor,
hierarchical.h:57 (defaulted: every block is copied, matrix_proxy.cpp:21-36), for a `Dense`
dense.cpp:35-42. -/
def fetch [Zero R] : Tgt → Heap R → Except Err (Mat R)
  | .dense d, h => do
    let c ← d.fetch h
    .ok (.dense c)
  | .hier br bc blk, h => do
    let g ← collect2 br bc (fun i j => (blk i j).fetch h)
    .ok (.hier br bc g)

/-- The in-place substitution loops of trsm.cpp:47-52, 60-67 and 74-81 along one block row or block
column `x`.  `gm i k X T` is the product of which block `k`, with entries `X`, is a factor, into
block `i`; `sv i T` the solve with the diagonal block `i`. -/
def substBlocks [Zero R] (n : Nat) (gm : Nat → Nat → Mat R → Tgt → Heap R → Except Err (Heap R))
    (sv : Nat → Tgt → Heap R → Except Err (Heap R)) (σ : Nat → Nat) (x : Nat → Tgt) (h : Heap R) :
    Except Err (Heap R) :=
  loop n (fun t h => do
    let h ← loop t (fun u h => do
      let X ← (x (σ u)).fetch h
      gm (σ t) (σ u) X (x (σ t)) h) h
    sv (σ t) (x (σ t)) h) h

section
variable [Field R] [DecidableEq R]

/-- `H H` of `trsm`, trsm.cpp:40-90. -/
def trsmHH (G : GemmH R) (F : Mat R → Tgt → Heap R → Except Err (Heap R)) (uplo : Uplo) (side : Side)
    (p q : Nat) (A : Nat → Nat → Mat R) (r s : Nat) (T : Nat → Nat → Tgt) (h : Heap R) :
    Except Err (Heap R) :=
  let gmL := fun i k X t h => do
    let a ← Mat.blockAt p q A i k
    G a X t (-1) 1 false false h
  let gmR := fun j k X t h => do
    let a ← Mat.blockAt p q A k j
    G X a t (-1) 1 false false h
  let sv := fun i t h => do
    let a ← Mat.blockAt p q A i i
    F a t h
  match uplo, side with
  | .upper, .left =>
    if s = 1 then substBlocks r gmL sv (Dense.solveOrder true r) (fun i => T i 0) h
    else .error .abort
  | .upper, .right =>
    loop r (fun i h => substBlocks s gmR sv (Dense.solveOrder false s) (fun j => T i j) h) h
  | .lower, .left =>
    loop s (fun j h => substBlocks r gmL sv (Dense.solveOrder false r) (fun i => T i j) h) h
  | .lower, .right => .error .abort

/-- The method bodies of `trsm`, trsm.cpp:40-131, for targets without low-rank blocks, with the
recursive call as parameter `F`. -/
def trsmOmm (G : GemmH R) (F : Mat R → Tgt → Heap R → Except Err (Heap R)) (uplo : Uplo) (side : Side)
    (A : Mat R) (T : Tgt) (h : Heap R) : Except Err (Heap R) :=
  match A, T with
  | .dense a, .dense d => update d (fun b => Dense.trsm uplo side a b) h
  | .hier p q A, .dense d => do
    let T ← ofSplit d (side.pick p 1) (side.pick 1 q)
    F (.hier p q A) T h
  | .hier p q A, .hier r s T => trsmHH G F uplo side p q A r s T h
  | _, _ => .error .abort

/-- `trsm` with a given `gemm`; the number bounds the depth of the recursion. -/
def trsmWith (G : GemmH R) (uplo : Uplo) (side : Side) : Nat → Mat R → Tgt → Heap R → Except Err (Heap R)
  | 0, _, _, _ => .error .fuel
  | fuel + 1, A, T, h => trsmOmm G (trsmWith G uplo side fuel) uplo side A T h

/-- `trsm(A, B, uplo, side)`, trsm.cpp:34-38. -/
def trsm (o : LrOps R) (fuel : Nat) (A : Mat R) (T : Tgt) (uplo : Uplo) (side : Side) (h : Heap R) :
    Except Err (Heap R) :=
  trsmWith (gemm o fuel) uplo side fuel A T h

end

section
variable [CommRing R]

/-- `H H` of `trmm`, trmm.cpp:146-217: the blocks of `B` are overwritten one after the other; the
other factor of each product is a block of the copy taken before. -/
def trmmHH (G : GemmH R) (F : Mat R → Tgt → Heap R → Except Err (Heap R)) (side : Side) (uplo : Uplo)
    (trans : Bool) (α : R) (p q : Nat) (A : Nat → Nat → Mat R) (r s : Nat) (T : Nat → Nat → Tgt)
    (h : Heap R) : Except Err (Heap R) := do
  assertM (decide (p = q))
  assertM (decide (p = side.pick r s))
  assertM (!trans)
  let C ← collect2 r s (fun i j => (T i j).fetch h)
  forBlocks r s (fun i j h => do
    let h ← F (A (side.pick i j) (side.pick i j)) (T i j) h
    loop (Mat.trmmCount uplo side (side.pick r s) i j) (fun u h =>
      side.pick
        (G (A i (Mat.trmmIndex uplo side i j u)) (C (Mat.trmmIndex uplo side i j u) j) (T i j) α 1
          false false h)
        (G (C i (Mat.trmmIndex uplo side i j u)) (A (Mat.trmmIndex uplo side i j u) j) (T i j) α 1
          false false h)) h) h

/-- The method bodies of `trmm`, trmm.cpp:53-229, for targets without low-rank blocks, with the
recursive call as parameter `F`. -/
def trmmOmm (G : GemmH R) (F : Mat R → Tgt → Heap R → Except Err (Heap R)) (side : Side) (uplo : Uplo)
    (trans unit : Bool) (α : R) (A : Mat R) (T : Tgt) (h : Heap R) : Except Err (Heap R) :=
  match A, T with
  | .dense a, .dense d => update d (fun b => Dense.trmm side uplo trans unit α a b) h
  | .dense a, .hier r s T => do
    assertM (decide (a.rows = a.cols))
    assertM (decide (a.rows = side.pick (Tgt.hier r s T).nRows (Tgt.hier r s T).nCols))
    let AH ← (Mat.dense a).split (side.pick r s) (side.pick r s)
    F AH (.hier r s T) h
  | .hier p q A, .dense d => do
    assertM (decide (p = q))
    assertM (decide ((Mat.hier p q A).nRows = side.pick d.rows d.cols))
    let T ← ofSplit d (side.pick q 1) (side.pick 1 p)
    F (.hier p q A) T h
  | .hier p q A, .hier r s T => trmmHH G F side uplo trans α p q A r s T h
  | _, _ => .error .abort

/-- `trmm` with a given `gemm`; the number bounds the depth of the recursion. -/
def trmmWith (G : GemmH R) (side : Side) (uplo : Uplo) (trans unit : Bool) (α : R) :
    Nat → Mat R → Tgt → Heap R → Except Err (Heap R)
  | 0, _, _, _ => .error .fuel
  | fuel + 1, A, T, h => trmmOmm G (trmmWith G side uplo trans unit α fuel) side uplo trans unit α A T h

/-- `trmm(A, B, side, uplo, trans, diag, alpha)`, trmm.cpp:37-43.  `trans` and `unit` stand for
`trans == 't'` and `diag == 'u'`. -/
def trmm [DecidableEq R] (o : LrOps R) (fuel : Nat) (A : Mat R) (T : Tgt) (side : Side) (uplo : Uplo)
    (trans unit : Bool) (α : R) (h : Heap R) : Except Err (Heap R) :=
  trmmWith (gemm o fuel) side uplo trans unit α fuel A T h

end

end Tgt

end Verif
