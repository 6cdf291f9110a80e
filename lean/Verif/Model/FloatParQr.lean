import Verif.Model.ParQrTiles
import Verif.Model.FloatBlrQr
import Verif.Model.ParProgram

/-
The tasks of the parallel tiled QR programs with any tile kernels, in particular those in
floating-point arithmetic.  As `Verif/Model/ParQrTiles.lean`, with the four kernels as a
parameter.
-/

namespace Verif.ParQr

variable {R : Type}

/-- The tasks of the factorization, taskbased_tiled_householder_blr_qr.cpp:63, 68, 74, 79;
forkjoin_tiled_householder_blr_qr.cpp:56, 59, 62, 65. -/
def Job.actOf (t : TileOps R) (s : Cell → Mat R) : Job → (Cell → Mat R)
  | .geqrt k => onOk s (t.geqrt (tile s k k) (s (.t k k))) fun x =>
      setCell (setTile s k k x.1) (.t k k) x.2
  | .larfb k j => onOk s (t.larfb true (s (.a k k .lower)) (s (.t k k)) (tile s k j)) fun x =>
      setTile s k j x
  | .tpqrt i k => onOk s (t.tpqrt (s (.a k k .upper)) (tile s i k) (s (.t i k))) fun x =>
      setCell (setTile (setCell s (.a k k .upper) x.1) i k x.2.1) (.t i k) x.2.2
  | .tpmqrt i j k =>
      onOk s (t.tpmqrt true (tile s i k) (s (.t i k)) (tile s k j) (tile s i j)) fun x =>
        setTile (setTile s k j x.1) i j x.2

/-- The tasks that multiply with the reflectors, taskbased:100, 107, 138, 145;
forkjoin_tiled:78, 83, 106, 111. -/
def QJob.actOf (t : TileOps R) (trans : Bool) (s : Cell → Mat R) : QJob → (Cell → Mat R)
  | .larfb k j => onOk s (t.larfb trans (s (.a k k .lower)) (s (.t k k)) (s (.q k j))) fun x =>
      setCell s (.q k j) x
  | .tpmqrt i j k =>
      onOk s (t.tpmqrt trans (tile s i k) (s (.t i k)) (s (.q k j)) (s (.q i j))) fun x =>
        setCell (setCell s (.q k j) x.1) (.q i j) x.2

/-- `main` of the two parallel tiled programs in floating-point arithmetic,
forkjoin_tiled_householder_blr_qr.cpp:20-124 and taskbased_tiled_householder_blr_qr.cpp:20-161:
may it compute and print `r`?  As `householderPrints`; the sequential parts are those of
`flBlrQrProgram`, and `T` is allocated as in lines 45-50 of both. -/
def flTiledPrints {K : Type} [Field K] [LinearOrder K] (parts : Parts ℝ) (B : FlTrmm) (G : FlArith) (machEps : ℝ)
    (fuel : Nat) (k kid : KernelFn ℝ) (compressD compress : Dense ℝ → Except Err (LowRank ℝ)) (m n b : Nat) (admis : Int)
    (r : FlBlrQrRun) : Prop :=
  ∃ MA MC gA gC, hierOfKernel fuel k compress m n b (Admis.position admis : Admis K) (m / b) (n / b) 0 0 = .ok MA ∧
    MA.grid = .ok gA ∧
    hierOfKernel fuel kid compress m n b (Admis.position admis : Admis K) (m / b) (n / b) 0 0 = .ok MC ∧ MC.grid = .ok gC ∧
    ∃ s s1 s2 s3, InMemory s gA.2.2
        (fun i j => .dense ⟨if i < j then 0 else b, if i < j then 0 else b, fun _ _ => 0⟩) ∧
      parts.factor (m / b) (n / b) s s1 ∧
      parts.build (m / b) (n / b) (storeQ s1 gC.2.2) s2 ∧ parts.apply (m / b) (n / b) s2 s3 ∧
      flBlrQrProgram (K := K) B G machEps fuel k kid compressD compress
        (fun _ _ _ => .ok (tile s2, fun i j => s2 (.t i j)))
        (fun _ _ _ _ _ trans => .ok (if trans then fun i j => s3 (.q i j) else fun i j => s2 (.q i j))) m n b admis = .ok r

end Verif.ParQr
