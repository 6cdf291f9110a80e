import Verif.Model.HeapOps
import Verif.Model.Gemm

/-
`gemm` as it acts on the stored elements of its target (gemm.cpp).

A product of structured matrices into a `Dense` splits the target into views and
recurses into them.  Here a target is a tree whose leaves are `Dense` objects, and
every routine changes the heap.  The factors are read-only and stored elsewhere: they
are values, as are the temporaries that are formed from them alone.
-/

namespace Verif
open Finset

variable {R : Type}

/-- A matrix to be written: a `Dense` object, or a `Hierarchical` of such
(hierarchical.h:43-50).  Blocks that are `LowRank` are not represented: splitting a
`Dense` never makes one. -/
inductive Tgt where
  | dense (d : DObj)
  | hier (br bc : Nat) (blk : Nat → Nat → Tgt)

namespace Tgt

/-- `get_n_rows`, get_dim.cpp:24-36. -/
def nRows : Tgt → Nat
  | .dense d => d.rows
  | .hier br _ blk => ∑ i ∈ range br, (blk i 0).nRows

/-- `get_n_cols`, get_dim.cpp:48-60. -/
def nCols : Tgt → Nat
  | .dense d => d.cols
  | .hier _ bc blk => ∑ j ∈ range bc, (blk 0 j).nCols

/-- Child `(i,j)` of `Dense::split` without copying, dense.cpp:218-249, for vectors of ranges. -/
def viewAt (d : DObj) (rs cs : List IndexRange) (i j : Nat) : DObj :=
  d.block ((Mat.rangeAt rs i).start.toNat, (Mat.rangeAt rs i).n.toNat)
    ((Mat.rangeAt cs j).start.toNat, (Mat.rangeAt cs j).n.toNat)

/-- `split_omm(Dense)`, misc.cpp:180-197, without copying.  As in `Mat.splitDense`, ranges that
leave the matrix are reported at once. -/
def ofViews (d : DObj) (rs cs : List IndexRange) : Except Err Tgt :=
  if Mat.rangesInside d.rows rs ∧ Mat.rangesInside d.cols cs then
    .ok (.hier rs.length cs.length (fun i j => .dense (viewAt d rs cs i j)))
  else .error .ub

/-- `split(A, n_row_blocks, n_col_blocks)` of a `Dense`, misc.cpp:158-167. -/
def ofSplit (d : DObj) (nr nc : Nat) : Except Err Tgt :=
  ofViews d ((⟨0, d.rows⟩ : IndexRange).split nr) ((⟨0, d.cols⟩ : IndexRange).split nc)

/-- `Hierarchical::operator[](i)`, hierarchical.cpp:158-168. -/
def vecAt (br bc : Nat) (blk : Nat → Nat → Tgt) (i : Nat) : Except Err Tgt := do
  assertM (decide (br = 1 ∨ bc = 1))
  assertM (decide (i < if br ≠ 1 then br else bc))
  .ok (if br = 1 then blk 0 i else blk i 0)

/-- A nest of loops over the blocks, `for (i) for (j) body(i, j)`. -/
def forBlocks (m n : Nat) (body : Nat → Nat → Heap R → Except Err (Heap R)) (h : Heap R) :
    Except Err (Heap R) :=
  loop m (fun i h => loop n (fun j h => body i j h) h) h

/-- `operator*=(Matrix&, double)`, multiplication.cpp:19-60. -/
def scale [CommRing R] : Tgt → R → Heap R → Except Err (Heap R)
  | .dense d, b, h => d.scale h b
  | .hier br bc blk, b, h => forBlocks br bc (fun i j h => (blk i j).scale b h) h

/-- A routine that replaces the entries of one `Dense` object: it reads them all and then
writes them all. -/
def update [Zero R] (d : DObj) (f : Dense R → Except Err (Dense R)) (h : Heap R) :
    Except Err (Heap R) := do
  let c ← d.fetch h
  let r ← f c
  d.store h r.val

/-- `operator+=(Matrix&, const LowRank&)`, addition.cpp:48-66: on a `Dense` it is a product
into it, on a `Hierarchical` the low-rank matrix is split and added blockwise. -/
def addLowRank [CommRing R] : Tgt → LowRank R → Heap R → Except Err (Heap R)
  | .dense d, b, h => update d (fun a => a.addLowRank b) h
  | .hier br bc blk, b, h => do
    let BH ← (Mat.lowRank b).split br bc
    match BH with
    | .hier br' bc' blk' =>
      forBlocks br bc (fun i j h => do
        assertM (decide (i < br'))
        assertM (decide (j < bc'))
        match blk' i j with
        | .lowRank b' => (blk i j).addLowRank b' h
        | _ => .error .abort) h
    | _ => .error .abort

/-- `fill_dense_from`, dense.cpp:64-92, on the heap: a `Hierarchical` is written block by block
into the views of `B` split like it (misc.cpp:169-178). -/
def fillFrom [CommRing R] : Mat R → DObj → Heap R → Except Err (Heap R)
  | .dense a, d, h => do
    assertM (decide (a.rows = d.rows))
    assertM (decide (a.cols = d.cols))
    d.store h (fun i j => a.val (0 + i) (0 + j))
  | .lowRank l, d, h => update d (fun c => l.fillDense c) h
  | .hier br bc blk, d, h => do
    assertM (decide (d.rows = (Mat.hier br bc blk).nRows))
    assertM (decide (d.cols = (Mat.hier br bc blk).nCols))
    let rs := (⟨0, d.rows⟩ : IndexRange).splitLike (Mat.blockHeights br blk)
    let cs := (⟨0, d.cols⟩ : IndexRange).splitLike (Mat.blockWidths bc blk)
    let _ ← ofViews d rs cs
    forBlocks br bc (fun i j h => fillFrom (blk i j) (viewAt d rs cs i j) h) h
  | .empty m n, d, h => do
    assertM (decide (m = d.rows))
    assertM (decide (n = d.cols))
    d.store h (fun _ _ => 0)

end Tgt

/-- Type of `gemm(A, B, C, alpha, beta, TransA, TransB)` acting on the heap. -/
abbrev GemmH (R : Type) :=
  Mat R → Mat R → Tgt → R → R → Bool → Bool → Heap R → Except Err (Heap R)

namespace Tgt
open Mat

section
variable [CommRing R]

/-- `H H D`, gemm.cpp:574-592. -/
def gemmHHD (g : GemmH R) (p q : Nat) (A : Nat → Nat → Mat R) (r s : Nat) (B : Nat → Nat → Mat R)
    (d : DObj) (α β : R) (ta tb : Bool) (h : Heap R) : Except Err (Heap R) := do
  assertM (decide (opDim1 ta p q = opDim0 tb r s))
  if opDim0 ta p q = 1 ∧ opDim1 tb r s = 1 then
    loop (opDim1 ta p q) (fun k h => do
      let a ← Mat.vecAt p q A k
      let b ← Mat.vecAt r s B k
      g a b (.dense d) α (if k = 0 then β else 1) ta tb h) h
  else do
    let CH ← ofSplit d (opDim0 ta p q) (opDim1 tb r s)
    g (.hier p q A) (.hier r s B) CH α β ta tb h

/-- `gemm_omm` with a `Dense` target: gemm.cpp:126-200 and 574-628; other combinations reach the
fallback, gemm.cpp:630-638.  Products of unstructured factors are one or more calls of
`cblas_dgemm` of which only the last reads and writes the target. -/
def gemmToDense (g : GemmH R) (A B : Mat R) (d : DObj) (α β : R) (ta tb : Bool) (h : Heap R) :
    Except Err (Heap R) :=
  match A, B with
  | .dense a, .dense b => update d (fun c => Dense.gemm a b c α β ta tb) h
  | .lowRank a, .dense b => update d (fun c => gemmLrDD a b c α β ta tb) h
  | .dense a, .lowRank b => update d (fun c => gemmDLrD a b c α β ta tb) h
  | .lowRank a, .lowRank b => update d (fun c => gemmLrLrD a b c α β ta tb) h
  | .hier p q A, .hier r s B => gemmHHD g p q A r s B d α β ta tb h
  | A, .hier r s B =>
    if r = 1 ∧ s = 1 then g A (B 0 0) (.dense d) α β ta tb h
    else do
      let CH ← ofSplit d 1 (opDim1 tb r s)
      g A (.hier r s B) CH α β ta tb h
  | .hier p q A, B =>
    if p = 1 ∧ q = 1 then g (A 0 0) B (.dense d) α β ta tb h
    else do
      let CH ← ofSplit d (opDim0 ta p q) 1
      g (.hier p q A) B CH α β ta tb h
  | _, _ => .error .abort

/-- `C *= beta; C += AxB;`, for instance gemm.cpp:233-234. -/
def scaleAdd (T : Tgt) (β : R) (X : LowRank R) (h : Heap R) : Except Err (Heap R) := do
  let h ← T.scale β h
  T.addLowRank X h

/-- `LR D H`, gemm.cpp:358-373. -/
def gemmLrD (a : LowRank R) (b : Dense R) (T : Tgt) (α β : R) (ta tb : Bool) (h : Heap R) :
    Except Err (Heap R) := do
  let V ← Dense.gemmNew (if ta then a.U else a.V) b α ta tb
  scaleAdd T β (LowRank.ofFactors (if ta then a.V.transpose else a.U)
    (if ta then a.S.transpose else a.S) V) h

/-- `D LR H`, gemm.cpp:341-356. -/
def gemmDLr (a : Dense R) (b : LowRank R) (T : Tgt) (α β : R) (ta tb : Bool) (h : Heap R) :
    Except Err (Heap R) := do
  let U ← Dense.gemmNew a (if tb then b.V else b.U) α ta tb
  scaleAdd T β (LowRank.ofFactors U (if tb then b.S.transpose else b.S)
    (if tb then b.U.transpose else b.V)) h

/-- `LR LR H`, gemm.cpp:375-394. -/
def gemmLrLr (a b : LowRank R) (T : Tgt) (α β : R) (ta tb : Bool) (h : Heap R) :
    Except Err (Heap R) := do
  let x ← Dense.gemmNew a.S (if ta then a.U else a.V) 1 ta ta
  let y ← Dense.gemmNew (if tb then b.V else b.U) b.S 1 tb tb
  let S ← Dense.gemmNew x y α false false
  scaleAdd T β (LowRank.ofFactors (if ta then a.V.transpose else a.U) S
    (if tb then b.U.transpose else b.V)) h

/-- `H H H`, gemm.cpp:420-442. -/
def gemmHHH (g : GemmH R) (p q : Nat) (A : Nat → Nat → Mat R) (r s : Nat) (B : Nat → Nat → Mat R)
    (m n : Nat) (T : Nat → Nat → Tgt) (α β : R) (ta tb : Bool) (h : Heap R) :
    Except Err (Heap R) := do
  assertM (decide (opDim0 ta p q = m))
  assertM (decide (opDim1 ta p q = opDim0 tb r s))
  assertM (decide (opDim1 tb r s = n))
  forBlocks m n (fun i j h =>
    loop (opDim1 ta p q) (fun k h =>
      g (opBlk ta A i k) (opBlk tb B k j) (T i j) α (if k = 0 then β else 1) ta tb h) h) h

/-- `D D H`, gemm.cpp:444-466. -/
def gemmDDH (g : GemmH R) (a b : Dense R) (m n : Nat) (T : Nat → Nat → Tgt) (α β : R)
    (ta tb : Bool) (h : Heap R) : Except Err (Heap R) :=
  if m = 1 ∧ n = 1 then .error .abort
  else if n = 1 then do
    let AH ← (Mat.dense a).split (if ta then 1 else m) (if ta then m else 1)
    g AH (.dense b) (.hier m n T) α β ta tb h
  else if m = 1 then do
    let BH ← (Mat.dense b).split (if tb then n else 1) (if tb then 1 else n)
    g (.dense a) BH (.hier m n T) α β ta tb h
  else do
    let AH ← (Mat.dense a).split (if ta then 1 else m) (if ta then m else 1)
    let BH ← (Mat.dense b).split (if tb then n else 1) (if tb then 1 else n)
    g AH BH (.hier m n T) α β ta tb h

/-- The loop over a block row of `LR H H` and `D H H`, gemm.cpp:481-483 and 507-509. -/
def gemmRowLoop (g : GemmH R) (A : Mat R) (r s : Nat) (B : Nat → Nat → Mat R) (m n : Nat)
    (T : Nat → Nat → Tgt) (α β : R) (ta tb : Bool) (h : Heap R) : Except Err (Heap R) :=
  loop (opDim1 tb r s) (fun j h => do
    let b ← Mat.vecAt r s B j
    let c ← vecAt m n T j
    g A b c α β ta tb h) h

/-- The loop over a block column of `H LR H` and `H D H`, gemm.cpp:534-536 and 559-561. -/
def gemmColLoop (g : GemmH R) (p q : Nat) (A : Nat → Nat → Mat R) (B : Mat R) (m n : Nat)
    (T : Nat → Nat → Tgt) (α β : R) (ta tb : Bool) (h : Heap R) : Except Err (Heap R) :=
  loop (opDim0 ta p q) (fun i h => do
    let a ← Mat.vecAt p q A i
    let c ← vecAt m n T i
    g a B c α β ta tb h) h

/-- `LR H H`, gemm.cpp:468-492. -/
def gemmLrHH (g : GemmH R) (gn : GemmNewT R) (a : LowRank R) (r s : Nat)
    (B : Nat → Nat → Mat R) (m n : Nat) (T : Nat → Nat → Tgt) (α β : R) (ta tb : Bool) (h : Heap R) :
    Except Err (Heap R) := do
  assertM (decide (opDim1 tb r s = n))
  if r = 1 ∧ s = 1 then g (.lowRank a) (B 0 0) (.hier m n T) α β ta tb h
  else if opDim0 tb r s = 1 ∧ m = 1 then gemmRowLoop g (.lowRank a) r s B m n T α β ta tb h
  else do
    let V ← gn (.dense a.V) (.hier r s B) α false tb
    let V ← V.asDense
    scaleAdd (.hier m n T) β (LowRank.ofFactors a.U a.S V) h

/-- `D H H`, gemm.cpp:494-520. -/
def gemmDHH (g : GemmH R) (a : Dense R) (r s : Nat) (B : Nat → Nat → Mat R) (m n : Nat)
    (T : Nat → Nat → Tgt) (α β : R) (ta tb : Bool) (h : Heap R) : Except Err (Heap R) := do
  assertM (decide (opDim1 tb r s = n))
  if r = 1 ∧ s = 1 then g (.dense a) (B 0 0) (.hier m n T) α β ta tb h
  else if opDim0 tb r s = 1 ∧ m = 1 then gemmRowLoop g (.dense a) r s B m n T α β ta tb h
  else do
    let AH ← (Mat.dense a).split (if ta then opDim0 tb r s else m) (if ta then m else opDim0 tb r s)
    g AH (.hier r s B) (.hier m n T) α β ta tb h

/-- `H LR H`, gemm.cpp:522-545. -/
def gemmHLrH (g : GemmH R) (gn : GemmNewT R) (p q : Nat) (A : Nat → Nat → Mat R)
    (b : LowRank R) (m n : Nat) (T : Nat → Nat → Tgt) (α β : R) (ta tb : Bool) (h : Heap R) :
    Except Err (Heap R) :=
  if p = 1 ∧ q = 1 then g (A 0 0) (.lowRank b) (.hier m n T) α β ta tb h
  else if opDim1 ta p q = 1 ∧ n = 1 then gemmColLoop g p q A (.lowRank b) m n T α β ta tb h
  else do
    let U ← gn (.hier p q A) (.dense b.U) α false tb
    let U ← U.asDense
    scaleAdd (.hier m n T) β (LowRank.ofFactors U b.S b.V) h

/-- `H D H`, gemm.cpp:547-572. -/
def gemmHDH (g : GemmH R) (p q : Nat) (A : Nat → Nat → Mat R) (b : Dense R) (m n : Nat)
    (T : Nat → Nat → Tgt) (α β : R) (ta tb : Bool) (h : Heap R) : Except Err (Heap R) :=
  if p = 1 ∧ q = 1 then g (A 0 0) (.dense b) (.hier m n T) α β ta tb h
  else if opDim1 ta p q = 1 ∧ n = 1 then gemmColLoop g p q A (.dense b) m n T α β ta tb h
  else do
    let BH ← (Mat.dense b).split (if tb then n else opDim1 ta p q) (if tb then opDim1 ta p q else n)
    g (.hier p q A) BH (.hier m n T) α β ta tb h

/-- `gemm_omm` with a `Hierarchical` target: gemm.cpp:341-394 and 420-572; other combinations
reach the fallback. -/
def gemmToHier (g : GemmH R) (gn : GemmNewT R) (A B : Mat R) (m n : Nat)
    (T : Nat → Nat → Tgt) (α β : R) (ta tb : Bool) (h : Heap R) : Except Err (Heap R) :=
  match A, B with
  | .dense a, .dense b => gemmDDH g a b m n T α β ta tb h
  | .lowRank a, .dense b => gemmLrD a b (.hier m n T) α β ta tb h
  | .dense a, .lowRank b => gemmDLr a b (.hier m n T) α β ta tb h
  | .lowRank a, .lowRank b => gemmLrLr a b (.hier m n T) α β ta tb h
  | .hier p q A, .lowRank b => gemmHLrH g gn p q A b m n T α β ta tb h
  | .lowRank a, .hier r s B => gemmLrHH g gn a r s B m n T α β ta tb h
  | .dense a, .hier r s B => gemmDHH g a r s B m n T α β ta tb h
  | .hier p q A, .dense b => gemmHDH g p q A b m n T α β ta tb h
  | .hier p q A, .hier r s B => gemmHHH g p q A r s B m n T α β ta tb h
  | _, _ => .error .abort

/-- `gemm(A, B, C, alpha, beta, TransA, TransB)` with a target made of `Dense` objects,
gemm.cpp:39-51 and 126-638.  The first number bounds the depth of the recursion. -/
def gemm [DecidableEq R] (o : LrOps R) : Nat → GemmH R
  | 0 => fun _ _ _ _ _ _ _ _ => .error .fuel
  | fuel + 1 => fun A B T α β ta tb h => do
    assertM (decide (A.opRows ta = T.nRows))
    assertM (decide (A.opCols ta = B.opRows tb))
    assertM (decide (B.opCols tb = T.nCols))
    match T with
    | .dense d => gemmToDense (gemm o fuel) A B d α β ta tb h
    | .hier m n T => gemmToHier (gemm o fuel) (gemmBoth o fuel).2 A B m n T α β ta tb h

end
end Tgt
end Verif
