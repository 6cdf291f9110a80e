import Verif.Model.ParQrTiles
import Verif.Model.Mgs

/-
What the tasks of the fork-join blocked QR program and of the fork-join Gram-Schmidt
program do to the blocks.
-/

namespace Verif.ParQr

variable {R : Type}

/-- Block column whose blocks `k`, ..., `p-1` are those given; there are no others. -/
def within (k p : Nat) (c : Nat → Mat R) : Nat → Mat R := fun i => if k ≤ i ∧ i < p then c i else .empty 0 0

/-- Blocks `k`, ..., `p-1` of column `j` of `A`. -/
def readA (s : Cell → Mat R) (k p j : Nat) : Nat → Mat R := within k p fun i => tile s i j

/-- Blocks `k`, ..., `p-1` of column `j` of `Q`. -/
def readQ (s : Cell → Mat R) (k p j : Nat) : Nat → Mat R := within k p fun i => s (.q i j)

/-- Storing blocks `k`, ..., `p-1` of column `j` of `A`. -/
def writeA (s : Cell → Mat R) (k p j : Nat) (c : Nat → Mat R) : Cell → Mat R
  | .a i j' h => if j' = j ∧ k ≤ i ∧ i < p then c i else s (.a i j' h)
  | x => s x

/-- Storing blocks `k`, ..., `p-1` of column `j` of `Q`. -/
def writeQ (s : Cell → Mat R) (k p j : Nat) (c : Nat → Mat R) : Cell → Mat R
  | .q i j' => if j' = j ∧ k ≤ i ∧ i < p then c i else s (.q i j')
  | x => s x

section
variable [CommRing R] [DecidableEq R]

/-- The tasks of the blocked program: `triangularize_block_col(k, A, T)`,
`apply_block_col_householder(A, T, k, true, A, j)` and
`apply_block_col_householder(A, T, k, trans, Q, j)`;
forkjoin_blocked_householder_blr_qr.cpp:50, 53, 65, 88; `p` block rows. -/
def BJob.act (K : QrKernels R) (o : LrOps R) (fuel p : Nat) (trans : Bool) (s : Cell → Mat R) : BJob → (Cell → Mat R)
  | .triangularize k => onOk s (Mat.triangularizeCol K p k (readA s k p k)) fun x =>
      setCell (writeA s k p k x.1) (.t k 0) (.dense x.2)
  | .applyA k j => onOk s (Mat.applyBlockCol o fuel p (readA s k p k) (s (.t k 0)) k true (readA s k p j)) fun x =>
      writeA s k p j x
  | .applyQ k j => onOk s (Mat.applyBlockCol o fuel p (readA s k p k) (s (.t k 0)) k trans (readQ s k p j)) fun x =>
      writeQ s k p j x

/-- `R(j,k) += Q(:,j)^T * A(:,k)`, forkjoin_blocked_mgs_blr_qr.cpp:55-63, with `p` block rows.
Simplified: the transposed blocks are formed here, not once for all `k`. -/
def projectR (o : LrOps R) (fuel p : Nat) (q a : Nat → Mat R) (r : Mat R) : Except Err (Mat R) := do
  let qt ← collect p (fun i => (q i).transpose)
  loop p (fun i r => Mat.gemm o fuel (qt i) (a i) r 1 1 false false) r

/-- The tasks of the Gram-Schmidt program, forkjoin_blocked_mgs_blr_qr.cpp:54, 62, 68, with `p`
block rows. -/
def MJob.act (L : Lapack R) (o : LrOps R) (fuel p : Nat) (s : Cell → Mat R) : MJob → (Cell → Mat R)
  | .orth j => onOk s (Mat.orthogonalizeBlockCol L o fuel (Mat.mgsHier L o fuel fuel) p (readA s 0 p j) (readQ s 0 p j)
      (s (.r j j))) fun x => setCell (writeQ s 0 p j x.1) (.r j j) x.2
  | .project j k => onOk s (projectR o fuel p (readQ s 0 p j) (readA s 0 p k) (s (.r j k))) fun x =>
      setCell s (.r j k) x
  | .subtract j k i => onOk s (Mat.gemm o fuel (s (.q i j)) (s (.r j k)) (tile s i k) (-1) 1 false false) fun x =>
      setTile s i k x

end

/-- The memory holds the blocks of `A`, `Q` and `R`. -/
def InMemoryM (s : Cell → Mat R) (A Q Rb : Nat → Nat → Mat R) : Prop :=
  ∀ i j, (∀ h, s (.a i j h) = A i j) ∧ s (.q i j) = Q i j ∧ s (.r i j) = Rb i j

end Verif.ParQr
