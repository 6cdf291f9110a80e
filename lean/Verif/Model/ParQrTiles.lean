import Verif.Model.ParQr
import Verif.Model.Qr

/-
What the tasks of the parallel tiled QR programs do to the tiles: the kernels of
`Verif/Model/Qr.lean` on a memory that holds the two halves of every tile of `A`.
-/

namespace Verif.ParQr

variable {R : Type}

/-- The tile whose entries below the diagonal are those of the first argument and whose
other entries are those of the second. -/
def glue : Mat R → Mat R → Mat R
  | .dense l, .dense u => .dense ⟨u.rows, u.cols, fun i j => if j < i then l.val i j else u.val i j⟩
  | _, u => u

/-- The tile `A(i,j)`. -/
def tile (s : Cell → Mat R) (i j : Nat) : Mat R := glue (s (.a i j .lower)) (s (.a i j .upper))

/-- Storing the tile `A(i,j)`. -/
def setTile (s : Cell → Mat R) (i j : Nat) (X : Mat R) : Cell → Mat R :=
  fun c => if c = .a i j .lower ∨ c = .a i j .upper then X else s c

/-- Storing one cell. -/
def setCell (s : Cell → Mat R) (c : Cell) (X : Mat R) : Cell → Mat R := fun d => if d = c then X else s d

/-- The effect of a kernel that returns; a kernel that fails leaves the memory unchanged
(the program ends then, the properties are about runs without failures). -/
def onOk {α : Type} (s : Cell → Mat R) (x : Except Err α) (f : α → Cell → Mat R) : Cell → Mat R :=
  match x with
  | .ok a => f a
  | .error _ => s

section
variable [CommRing R] [DecidableEq R]

/-- The tasks of the factorization, taskbased_tiled_householder_blr_qr.cpp:63, 68, 74, 79;
forkjoin_tiled_householder_blr_qr.cpp:56, 59, 62, 65. -/
def Job.act (K : QrKernels R) (o : LrOps R) (fuel : Nat) (s : Cell → Mat R) : Job → (Cell → Mat R)
  | .geqrt k => onOk s (Mat.geqrt K (tile s k k) (s (.t k k))) fun x =>
      setCell (setTile s k k x.1) (.t k k) x.2
  | .larfb k j => onOk s (Mat.larfb true (s (.a k k .lower)) (s (.t k k)) (tile s k j)) fun x =>
      setTile s k j x
  | .tpqrt i k => onOk s (Mat.tpqrt K (s (.a k k .upper)) (tile s i k) (s (.t i k))) fun x =>
      setCell (setTile (setCell s (.a k k .upper) x.1) i k x.2.1) (.t i k) x.2.2
  | .tpmqrt i j k =>
      onOk s (Mat.tpmqrt o fuel true (tile s i k) (s (.t i k)) (tile s k j) (tile s i j)) fun x =>
        setTile (setTile s k j x.1) i j x.2

/-- The tasks that multiply with the reflectors, taskbased:100, 107, 138, 145;
forkjoin_tiled:78, 83, 106, 111. -/
def QJob.act (o : LrOps R) (fuel : Nat) (trans : Bool) (s : Cell → Mat R) : QJob → (Cell → Mat R)
  | .larfb k j => onOk s (Mat.larfb trans (s (.a k k .lower)) (s (.t k k)) (s (.q k j))) fun x =>
      setCell s (.q k j) x
  | .tpmqrt i j k =>
      onOk s (Mat.tpmqrt o fuel trans (tile s i k) (s (.t i k)) (s (.q k j)) (s (.q i j))) fun x =>
        setCell (setCell s (.q k j) x.1) (.q i j) x.2

end

/-- The memory holds the blocks of `A` and `T`. -/
def InMemory (s : Cell → Mat R) (A T : Nat → Nat → Mat R) : Prop :=
  ∀ i j, (∀ h, s (.a i j h) = A i j) ∧ s (.t i j) = T i j

/-- Storing the blocks of a matrix in `Q`. -/
def storeQ (s : Cell → Mat R) (C : Nat → Nat → Mat R) : Cell → Mat R
  | .q i j => C i j
  | c => s c

end Verif.ParQr
