import Verif.Model.Mat

/-
Specification side for matrices: which number a structured matrix represents at
`(i,j)`, and when its block structure is consistent.
-/

namespace Verif
open Finset

variable {R : Type}

namespace Dense

/-- Same dimensions and same entries inside them. -/
def Same (A B : Dense R) : Prop :=
  A.rows = B.rows ∧ A.cols = B.cols ∧ ∀ i < A.rows, ∀ j < A.cols, A.val i j = B.val i j

end Dense

namespace LowRank

/-- The factors fit together: `U: m x r`, `S: r x r'`, `V: r' x n`, with `m`, `n`
the recorded dimensions and `r` the recorded rank. -/
structure WF (l : LowRank R) : Prop where
  urows : l.U.rows = l.dim0
  ucols : l.U.cols = l.rank
  srows : l.S.rows = l.rank
  vrows : l.V.rows = l.S.cols
  vcols : l.V.cols = l.dim1

/-- `S` is square.  All stored low-rank matrices are of this kind; the product of
two low-rank matrices of different ranks is a temporary that is not. -/
def Square (l : LowRank R) : Prop := l.S.cols = l.rank

/-- Entry of the product `U * S * V`. -/
def entry [CommRing R] (l : LowRank R) (i j : Nat) : R :=
  ∑ b ∈ range l.S.cols, (∑ a ∈ range l.S.rows, l.U.val i a * l.S.val a b) * l.V.val b j

end LowRank

namespace Mat

/-- Consistent block structure: low-rank factors fit, every block row has one
height and every block column one width, and there is at least one block. -/
def WF : Mat R → Prop
  | .dense _ => True
  | .lowRank l => l.WF
  | .hier br bc blk => 0 < br ∧ 0 < bc ∧ ∀ i < br, ∀ j < bc,
      (blk i j).WF ∧ (blk i j).nRows = (blk i 0).nRows ∧ (blk i j).nCols = (blk 0 j).nCols
  | .empty _ _ => True

/-- "The matrix has the number `v` at `(i,j)`": dense blocks contribute their
entry, low-rank blocks the entry of `U*S*V`, empty blocks zero; block `(a,b)` sits
below the block rows `0..a-1` and to the right of the block columns `0..b-1`. -/
inductive EntryIs [CommRing R] : Mat R → Nat → Nat → R → Prop where
  | dense (d : Dense R) (i j : Nat) (hi : i < d.rows) (hj : j < d.cols) :
      EntryIs (.dense d) i j (d.val i j)
  | lowRank (l : LowRank R) (i j : Nat) (hi : i < l.dim0) (hj : j < l.dim1) :
      EntryIs (.lowRank l) i j (l.entry i j)
  | empty (m n i j : Nat) (hi : i < m) (hj : j < n) : EntryIs (.empty m n) i j 0
  | hier (br bc : Nat) (blk : Nat → Nat → Mat R) (a b i j : Nat) (v : R)
      (ha : a < br) (hb : b < bc) (h : EntryIs (blk a b) i j v) :
      EntryIs (.hier br bc blk)
        ((∑ a' ∈ range a, (blk a' 0).nRows) + i) ((∑ b' ∈ range b, (blk 0 b').nCols) + j) v

/-- The represented entry as a function (`entryIs_iff` in `Verif/Lemmas/Mat.lean`
says that it is the `v` of `EntryIs`). -/
def entry [CommRing R] : Mat R → Nat → Nat → R
  | .dense d, i, j => d.val i j
  | .lowRank l, i, j => l.entry i j
  | .hier br bc blk, i, j =>
    let p := locate (fun a => (blk a 0).nRows) br i
    let q := locate (fun b => (blk 0 b).nCols) bc j
    (blk p.1 q.1).entry p.2 q.2
  | .empty _ _, _, _ => 0

/-- `(i,j)` lies in a dense leaf. -/
def denseAt : Mat R → Nat → Nat → Prop
  | .dense _, _, _ => True
  | .lowRank _, _, _ => False
  | .hier br bc blk, i, j =>
    let p := locate (fun a => (blk a 0).nRows) br i
    let q := locate (fun b => (blk 0 b).nCols) bc j
    (blk p.1 q.1).denseAt p.2 q.2
  | .empty _ _, _, _ => False

/-- `(i,j)` lies in a low-rank leaf. -/
def lowRankAt : Mat R → Nat → Nat → Prop
  | .dense _, _, _ => False
  | .lowRank _, _, _ => True
  | .hier br bc blk, i, j =>
    let p := locate (fun a => (blk a 0).nRows) br i
    let q := locate (fun b => (blk 0 b).nCols) bc j
    (blk p.1 q.1).lowRankAt p.2 q.2
  | .empty _ _, _, _ => False

/-- `B` is `A` or one of its blocks, at any depth. -/
inductive BlockOf : Mat R → Mat R → Prop where
  | refl (A : Mat R) : BlockOf A A
  | block (B : Mat R) (br bc : Nat) (blk : Nat → Nat → Mat R) (i j : Nat) (hi : i < br)
      (hj : j < bc) (h : BlockOf B (blk i j)) : BlockOf B (.hier br bc blk)

/-- Same dimensions and same represented entries. -/
def SameEntries [CommRing R] (A B : Mat R) : Prop :=
  A.nRows = B.nRows ∧ A.nCols = B.nCols ∧
    ∀ i < A.nRows, ∀ j < A.nCols, A.entry i j = B.entry i j

/-- All low-rank blocks have a square middle factor. -/
def Square : Mat R → Prop
  | .dense _ => True
  | .lowRank l => l.Square
  | .hier br bc blk => ∀ i < br, ∀ j < bc, (blk i j).Square
  | .empty _ _ => True

/-- No `Empty` block anywhere. -/
def NoEmpty : Mat R → Prop
  | .dense _ => True
  | .lowRank _ => True
  | .hier br bc blk => ∀ i < br, ∀ j < bc, (blk i j).NoEmpty
  | .empty _ _ => False

/-- No `Empty` block with entries anywhere (an `Empty` block without rows or
without columns is harmless). -/
def NoEmptyEntries : Mat R → Prop
  | .dense _ => True
  | .lowRank _ => True
  | .hier br bc blk => ∀ i < br, ∀ j < bc, (blk i j).NoEmptyEntries
  | .empty m n => m = 0 ∨ n = 0

/-- Block structure for which "below the diagonal" of the blocks and of the
matrix agree: the diagonal blocks are dense or again of this kind, and square
(the last one may be rectangular if there are as many block rows as block
columns). -/
def DiagOk : Mat R → Prop
  | .dense _ => True
  | .lowRank _ => False
  | .hier br bc blk => ∀ k, k < br → k < bc →
      (blk k k).DiagOk ∧ (k + 1 < max br bc → (blk k k).nRows = (blk k k).nCols)
  | .empty _ _ => False

/-- Sum of the squares of all represented entries. -/
def sumSq [CommRing R] (A : Mat R) : R := ∑ i ∈ range A.nRows, ∑ j ∈ range A.nCols, A.entry i j * A.entry i j

/-- Sum of the squares of all entrywise differences. -/
def sumSqDiff [CommRing R] (A B : Mat R) : R := ∑ i ∈ range A.nRows, ∑ j ∈ range A.nCols,
  (A.entry i j - B.entry i j) * (A.entry i j - B.entry i j)

/-- Nesting depth. -/
def depth : Mat R → Nat
  | .hier br bc blk => 1 + (range br).sup (fun i => (range bc).sup (fun j => (blk i j).depth))
  | _ => 0

/-- The block sizes are those of the library's equal splitting, at every level. -/
def Even : Mat R → Prop
  | .hier br bc blk => ∀ i < br, ∀ j < bc, (blk i j).Even ∧
      ((blk i j).nRows : Int) =
        ((⟨0, (∑ i ∈ range br, (blk i 0).nRows : Nat)⟩ : IndexRange).splitChild br i).n ∧
      ((blk i j).nCols : Int) =
        ((⟨0, (∑ j ∈ range bc, (blk 0 j).nCols : Nat)⟩ : IndexRange).splitChild bc j).n
  | _ => True

end Mat
end Verif
