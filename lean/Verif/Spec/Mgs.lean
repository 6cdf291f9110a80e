import Verif.Spec.Qr
import Verif.Model.Mgs

/-
Vocabulary for block Gram-Schmidt QR.
-/

namespace Verif
open Finset

variable {R : Type}

namespace Mat

/-- A block that can be cut into `k` block columns: a consistent dense or low-rank block
whose width the library's equal splitting partitions into `k` parts
(`C01_split_partition_iff`), or a hierarchical block with `k` block columns. -/
def Splittable (k : Nat) (M : Mat R) : Prop :=
  match M with
  | .dense d => (d.cols + k - 1) / k * (k - 1) ≤ d.cols
  | .lowRank l => l.WF ∧ (l.dim1 + k - 1) / k * (k - 1) ≤ l.dim1
  | .hier br bc blk => (Mat.hier br bc blk).WF ∧ bc = k
  | .empty _ _ => False

/-- The block column is cut into `k` parts: the number of block columns of its
hierarchical blocks, 1 if there are none. -/
structure ColumnOf (k p : Nat) (A : Nat → Mat R) : Prop where
  pos : 0 < k
  blocks : ∀ i < p, (A i).Splittable k
  count : k = 1 ∨ ∃ i < p, ∃ br blk, A i = .hier br k blk

end Mat

/-- What `dgeqrf` and `dorgqr` (called by `qr` on `Dense`, qr.cpp:65-91) are assumed to
do for matrices that are not wide, in exact arithmetic: `Q*R = A`, `R` upper
triangular. -/
structure Lapack.Qr [CommRing R] (L : Lapack R) : Prop where
  factor : ∀ A : Dense R, A.cols ≤ A.rows → ∀ i < A.rows, ∀ j < A.cols,
    ∑ l ∈ range A.cols, (L.qr A A.cols).1 i l * (L.qr A A.cols).2 l j = A.val i j
  upper : ∀ A : Dense R, A.cols ≤ A.rows → ∀ i < A.cols, ∀ j < i, (L.qr A A.cols).2 i j = 0

/-- `dorgqr` returns orthonormal columns, in exact arithmetic, for matrices that are
not wide. -/
def Lapack.QrOrtho [CommRing R] (L : Lapack R) : Prop :=
  ∀ A : Dense R, A.cols ≤ A.rows → OrthoCols A.rows A.cols (L.qr A A.cols).1

/-- Low-rank matrices returned by low-rank addition and by compression to a tolerance
have orthonormal left factors. -/
structure LrOps.OrthoResults [CommRing R] (o : LrOps R) : Prop where
  add : ∀ A B C, o.add A B = .ok C → C.LeftOrth
  ofEps : ∀ d e l, o.ofEps d e = .ok l → l.LeftOrth

namespace Mat

/-- Consistent, with square middle factors, and either without low-rank blocks or
`ex` holds. -/
structure EvenBlock [CommRing R] (ex : Prop) (M : Mat R) : Prop where
  wf : M.WF
  sqr : M.Square
  fine : M.AllDense ∨ ex
  even : M.Even

/-- Arguments of `mgs_qr` on a `p`-by-`n` block matrix: `A` is a consistent block matrix
whose nested blocks are split evenly, `Q` has the block sizes of `A`, `R` has the
block widths of `A` as block sizes.  Where the diagonal block of `R` is
hierarchical, the block column of `Q` has the structure of that of `A`. -/
structure MgsInput [CommRing R] (ex : Prop) (p n : Nat) (A Q Rb : Nat → Nat → Mat R) : Prop where
  awf : (Mat.hier p n A).WF
  a : ∀ i < p, ∀ j < n, (A i j).EvenBlock ex
  q : ∀ i < p, ∀ j < n, (Q i j).EvenBlock ex ∧ (Q i j).nRows = (A i j).nRows ∧ (Q i j).nCols = (A i j).nCols
  r : ∀ i < n, ∀ j < n, (Rb i j).EvenBlock ex ∧ (Rb i j).nRows = (A 0 i).nCols ∧ (Rb i j).nCols = (A 0 j).nCols
  same : ∀ j < n, (∃ rr rc blk, Rb j j = .hier rr rc blk) → ∀ i < p, (A i j).SameShape (Q i j)

/-- The block `M` can be processed in a block column whose diagonal block of `R` is `r`:
it is dense or low-rank, or it is subdivided where `r` is, into as many block columns,
which again can be processed with the diagonal blocks of `r`. -/
def ColFits : Mat R → Mat R → Prop
  | .dense _, .dense _ => True
  | .dense _, .lowRank _ => True
  | .hier _ _ _, .dense _ => True
  | .hier _ _ _, .lowRank _ => True
  | .hier rr rc Rb, .hier br bc blk => rr = bc ∧ rc = bc ∧ ∀ t < br, ∀ c < bc, ColFits (Rb c c) (blk t c)
  | _, _ => False

/-- The block `M` is refined exactly as far as the diagonal block `r` of `R`, in each
block column by some block that ends in dense blocks that are not wide. -/
def ColFull : Mat R → Mat R → Prop
  | .dense _, .dense d => d.cols ≤ d.rows
  | .hier rr rc Rb, .hier br bc blk => rr = bc ∧ rc = bc ∧ ∀ c < bc, ∃ t < br, ColFull (Rb c c) (blk t c)
  | _, _ => False

/-- `Q` holds of the low-rank matrix with left factor that of `l`, the identity in the
middle, any right factor that fits, and the tolerance of `a`, if it holds of `l` and of
`a`. -/
def MixStable [Zero R] [One R] (Q : LowRank R → Prop) : Prop :=
  ∀ (l a : LowRank R) (X : Dense R), Q l → Q a → l.WF → a.dim0 = l.dim0 → a.dim1 = l.dim1 → X.rows = l.rank →
    X.cols = l.dim1 → Q { LowRank.ofFactors l.U (Dense.ident l.rank l.rank) X with eps := a.eps }

/-- The columns of the matrix are linearly independent. -/
def IndepCols [CommRing R] (M : Mat R) : Prop :=
  ∀ c : Nat → R, (∀ x < M.nRows, ∑ y ∈ range M.nCols, M.entry x y * c y = 0) → ∀ y < M.nCols, c y = 0

end Mat
end Verif
