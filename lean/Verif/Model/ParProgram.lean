import Verif.Model.ParQrCols
import Verif.Model.MgsProgram

/-
Model of the parallel example programs: examples/forkjoin_tiled_householder_blr_qr.cpp,
examples/taskbased_tiled_householder_blr_qr.cpp,
examples/forkjoin_blocked_householder_blr_qr.cpp and
examples/forkjoin_blocked_mgs_blr_qr.cpp.  What a parallel program prints depends on how
its threads are scheduled, so these are relations between arguments and output.
-/

namespace Verif.ParQr
variable {R : Type} {K : Type} [Field K] [LinearOrder K]

/-- The parallel parts of the Householder programs as relations between the memory before
and after: the factorization, the multiplication of `Q` with the reflectors, and that with
their transposes; for `p`-by-`q` blocks. -/
structure Parts (R : Type) where
  factor : Nat → Nat → (Cell → Mat R) → (Cell → Mat R) → Prop
  build : Nat → Nat → (Cell → Mat R) → (Cell → Mat R) → Prop
  apply : Nat → Nat → (Cell → Mat R) → (Cell → Mat R) → Prop

/-- taskbased_tiled_householder_blr_qr.cpp:56-85, 91-112, 130-151; the arguments give the
steps of each task. -/
def taskParts (body : Job → List (Omp.Step Cell (Mat R))) (bodyN bodyT : QJob → List (Omp.Step Cell (Mat R))) : Parts R where
  factor p q := (taskQr p q body).Ends
  build p q := (taskBuildQ p q bodyN).Ends
  apply p q := (taskApplyQ p q bodyT).Ends

/-- forkjoin_tiled_householder_blr_qr.cpp:55-68, 74-85, 103-114. -/
def forkParts (body : Job → List (Omp.Step Cell (Mat R))) (bodyN bodyT : QJob → List (Omp.Step Cell (Mat R))) : Parts R where
  factor p q := Runs body (tiledStages p q)
  build p q := Runs bodyN (buildStages p q)
  apply p q := Runs bodyT (applyStages p q)

/-- forkjoin_blocked_householder_blr_qr.cpp:50-56, 62-67, 85-90; the steps of the tasks may
depend on the number of block rows. -/
def blockedParts (body bodyN bodyT : Nat → BJob → List (Omp.Step Cell (Mat R))) : Parts R where
  factor p q := Runs (body p) (blockedStages q)
  build p q := Runs (bodyN p) (blockedBuildStages q)
  apply p q := Runs (bodyT p) (blockedApplyStages q)

section
variable [CommRing R] [DecidableEq R] [Inhabited R]

/-- `main` of the three parallel Householder programs,
forkjoin_tiled_householder_blr_qr.cpp:20-124, taskbased_tiled_householder_blr_qr.cpp:20-161 and
forkjoin_blocked_householder_blr_qr.cpp:20-100: may it print `r`?  The sequential
parts are those of `blrQrProgram`; `T0` is `T` before the factorization.  `Q` gets its blocks
after the first parallel part, and `A` is read (for `R`) after the second. -/
def householderPrints (parts : Parts R) (T0 : Nat → Nat → Mat R) (fuel : Nat) (k kid : KernelFn R)
    (compressD compress : Dense R → Except Err (LowRank R)) (o : LrOps R) (m n b : Nat) (admis : Int)
    (r : BlrQrRun R) : Prop :=
  ∃ MA MC gA gC, hierOfKernel fuel k compress m n b (Admis.position admis : Admis K) (m / b) (n / b) 0 0 = .ok MA ∧
    MA.grid = .ok gA ∧
    hierOfKernel fuel kid compress m n b (Admis.position admis : Admis K) (m / b) (n / b) 0 0 = .ok MC ∧ MC.grid = .ok gC ∧
    ∃ s s1 s2 s3, InMemory s gA.2.2 T0 ∧ parts.factor (m / b) (n / b) s s1 ∧
      parts.build (m / b) (n / b) (storeQ s1 gC.2.2) s2 ∧ parts.apply (m / b) (n / b) s2 s3 ∧
      blrQrProgram (K := K) fuel k kid compressD compress o
        (fun _ _ _ => .ok (tile s2, fun i j => s2 (.t i j)))
        (fun _ _ _ _ _ trans => .ok (if trans then fun i j => s3 (.q i j) else fun i j => s2 (.q i j))) m n b admis = .ok r

/-- `main`, forkjoin_blocked_mgs_blr_qr.cpp:21-91: may it print `r`?  `run` is the parallel
part (lines 53-71) as a relation between memories. -/
def mgsPrints (run : Nat → Nat → (Cell → Mat R) → (Cell → Mat R) → Prop) (fuel : Nat) (k kz kid : KernelFn R)
    (compressD compress : Dense R → Except Err (LowRank R)) (o : LrOps R) (m n b : Nat) (admis : Int)
    (r : BlrQrRun R) : Prop :=
  ∃ MA MQ MR gA gQ gR, hierOfKernel fuel k compress m n b (Admis.position admis : Admis K) (m / b) (n / b) 0 0 = .ok MA ∧
    MA.grid = .ok gA ∧
    hierOfKernel fuel kz compress m n b (Admis.position admis : Admis K) (m / b) (n / b) 0 0 = .ok MQ ∧ MQ.grid = .ok gQ ∧
    hierOfKernel fuel kz compress n n b (Admis.position admis : Admis K) (n / b) (n / b) 0 0 = .ok MR ∧ MR.grid = .ok gR ∧
    ∃ s s', InMemoryM s gA.2.2 gQ.2.2 gR.2.2 ∧ run (m / b) (n / b) s s' ∧
      mgsQrProgramWith (K := K) fuel k kz kid compressD compress
        (fun _ _ _ _ _ _ _ _ _ => .ok (fun i j => s' (.q i j), fun i j => s' (.r i j))) o m n b admis = .ok r

end
end Verif.ParQr
