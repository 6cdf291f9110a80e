import Verif.Model.OpenMP

/-
The parallel QR programs of /repo/examples: which tasks they create, in which order,
with which `depend` clauses, and which blocks each task touches.

The bodies of the tasks are parameters: any sequence of atomic steps that touches only
the declared cells.
-/

namespace Verif.ParQr
open Omp

/-- The two parts of a tile of `A` during the factorization: below the diagonal (the
reflectors) and the rest. -/
inductive Half where
  | lower | upper
  deriving DecidableEq, Repr

/-- The memory cells of the programs: half tiles of `A`, tiles of `T` and of `Q`, and tiles
of the matrix `R` of the Gram-Schmidt program. -/
inductive Cell where
  | a (i j : Nat) (h : Half)
  | t (i j : Nat)
  | q (i j : Nat)
  | r (i j : Nat)
  deriving DecidableEq, Repr

/-- Both halves of a tile of `A`. -/
def tileA (i j : Nat) : Set Cell := {.a i j .lower, .a i j .upper}

/-- The values of a loop variable that runs from `lo` to `hi - 1`. -/
def upto (lo hi : Nat) : List Nat := List.range' lo (hi - lo)

/-- The values of a loop variable that runs from `hi - 1` down to `lo`. -/
def downto (hi lo : Nat) : List Nat := (upto lo hi).reverse

/-! ### the factorization -/

/-- The tasks of the tiled factorization. -/
inductive Job where
  | geqrt (k : Nat)
  | larfb (k j : Nat)
  | tpqrt (i k : Nat)
  | tpmqrt (i j k : Nat)
  deriving DecidableEq, Repr

/-- The tasks in the order of their creation, for `p` by `q` tiles:
taskbased_tiled_householder_blr_qr.cpp:60-82, forkjoin_tiled_householder_blr_qr.cpp:55-68;
the same loops as in `tiled_householder_blr_qr`, qr.cpp:216-227. -/
def tiledJobs (p q : Nat) : List Job :=
  (List.range q).flatMap fun k =>
    Job.geqrt k :: (upto (k + 1) q).map (Job.larfb k) ++
    (upto (k + 1) p).flatMap fun i =>
      Job.tpqrt i k :: (upto (k + 1) q).map fun j => Job.tpmqrt i j k

namespace Job

/-- `depend(in: ..)`, taskbased_tiled_householder_blr_qr.cpp:61, 66, 72, 77. -/
def ins : Job → List (Nat × Nat)
  | geqrt _ => []
  | larfb k _ => [(k, k)]
  | tpqrt i k => [(i - 1, k)]
  | tpmqrt i j k => [(i, k), (i - 1, j)]

/-- `depend(out: ..)`, taskbased_tiled_householder_blr_qr.cpp:61, 66, 72, 77. -/
def outs : Job → List (Nat × Nat)
  | geqrt k => [(k, k)]
  | larfb k j => [(k, j)]
  | tpqrt i k => [(i, k)]
  | tpmqrt i j _ => [(i, j)]

/-- The cells a task reads: `geqrt(A(k,k), T(k,k))`; `larfb(A(k,k), T(k,k), A(k,j), true)`,
which uses the reflectors below the diagonal of its first argument only;
`tpqrt(A(k,k), A(i,k), T(i,k))`, which uses the upper triangle of its first argument only;
`tpmqrt(A(i,k), T(i,k), A(k,j), A(i,j), true)`; taskbased:63, 68, 74, 79.
(`larfb_lower`, `tpqrt_upper` in `Verif/Lemmas/ParQrTiles.lean` show that the modelled
kernels have this property.) -/
def reads : Job → Set Cell
  | geqrt k => tileA k k ∪ {.t k k}
  | larfb k j => {.a k k .lower, .t k k} ∪ tileA k j
  | tpqrt i k => {.a k k .upper, .t i k} ∪ tileA i k
  | tpmqrt i j k => tileA i k ∪ {.t i k} ∪ tileA k j ∪ tileA i j

/-- The cells a task writes. -/
def writes : Job → Set Cell
  | geqrt k => tileA k k ∪ {.t k k}
  | larfb k j => tileA k j
  | tpqrt i k => {.a k k .upper, .t i k} ∪ tileA i k
  | tpmqrt i j k => tileA k j ∪ tileA i j

end Job

/-- The first parallel region of taskbased_tiled_householder_blr_qr.cpp:55-86. -/
def taskQr {V : Type} (p q : Nat) (body : Job → List (Step Cell V)) :
    Region (Nat × Nat) Cell V Job :=
  ⟨tiledJobs p q, Job.ins, Job.outs, body⟩

/-! ### multiplication with the reflectors -/

/-- The tasks of the multiplication of the reflectors with `Q`. -/
inductive QJob where
  | larfb (k j : Nat)
  | tpmqrt (i j k : Nat)
  deriving DecidableEq, Repr

namespace QJob

/-- The cells a task reads: `larfb(A(k,k), T(k,k), Q(k,j), ..)`,
`tpmqrt(A(i,k), T(i,k), Q(k,j), Q(i,j), ..)`; taskbased:100, 107, 138, 145. -/
def reads : QJob → Set Cell
  | larfb k j => {.a k k .lower, .t k k, .q k j}
  | tpmqrt i j k => tileA i k ∪ {.t i k, .q k j, .q i j}

/-- The cells a task writes. -/
def writes : QJob → Set Cell
  | larfb k j => {.q k j}
  | tpmqrt i j k => {.q k j, .q i j}

/-- `depend(inout: ..)` of the second region, taskbased:98, 105. -/
def inouts : QJob → List (Nat × Nat)
  | larfb k j => [(k, j)]
  | tpmqrt i j k => [(k, j), (i, j)]

/-- `depend(in: ..)` of the third region, taskbased:136, 143. -/
def ins : QJob → List (Nat × Nat)
  | larfb k _ => [(k, k)]
  | tpmqrt i j k => [(i, k), (i - 1, j)]

/-- `depend(out: ..)` of the third region, taskbased:136, 143. -/
def outs : QJob → List (Nat × Nat)
  | larfb k j => [(k, j)]
  | tpmqrt i j _ => [(i, j)]

end QJob

/-- The tasks that multiply `Q` onto a matrix, in the order of their creation,
taskbased:95-110, forkjoin_tiled:74-85; as `left_multiply_tiled_reflector` without
transposition, qr.cpp:246-255. -/
def buildJobs (p q : Nat) : List QJob :=
  (downto q 0).flatMap fun k =>
    ((downto p (k + 1)).flatMap fun i => (upto k q).map fun j => QJob.tpmqrt i j k) ++
    (upto k q).map (QJob.larfb k)

/-- The tasks that multiply the transpose of `Q` onto a matrix, taskbased:134-149,
forkjoin_tiled:103-114; as `left_multiply_tiled_reflector` with transposition,
qr.cpp:234-243. -/
def applyJobs (p q : Nat) : List QJob :=
  (List.range q).flatMap fun k =>
    (upto k q).map (QJob.larfb k) ++
    (upto (k + 1) p).flatMap fun i => (upto k q).map fun j => QJob.tpmqrt i j k

/-- The second parallel region, taskbased:91-112. -/
def taskBuildQ {V : Type} (p q : Nat) (body : QJob → List (Step Cell V)) :
    Region (Nat × Nat) Cell V QJob :=
  ⟨buildJobs p q, fun _ => [], QJob.inouts, body⟩

/-- The third parallel region, taskbased:130-151. -/
def taskApplyQ {V : Type} (p q : Nat) (body : QJob → List (Step Cell V)) :
    Region (Nat × Nat) Cell V QJob :=
  ⟨applyJobs p q, QJob.ins, QJob.outs, body⟩

/-! ### fork-join programs -/

/-- A fork-join program: a sequence of parallel loops, each given by its iterations in the
order of the loop.  Sequential statements are loops with one iteration. -/
abbrev Stages (J : Type) := List (List J)

/-- Executing a fork-join program: the loops run one after the other (every `parallel for`
ends with a barrier), the iterations of a loop run concurrently. -/
inductive Runs {V J : Type} [DecidableEq J] (body : J → List (Step Cell V)) :
    Stages J → (Cell → V) → (Cell → V) → Prop where
  | nil (s : Cell → V) : Runs body [] s s
  | cons {l : List J} {rest : Stages J} {s s' s'' : Cell → V} (h : (parFor l body).Ends s s')
      (h' : Runs body rest s' s'') : Runs body (l :: rest) s s''

/-- The factorization, forkjoin_tiled_householder_blr_qr.cpp:55-68. -/
def tiledStages (p q : Nat) : Stages Job :=
  (List.range q).flatMap fun k =>
    [[Job.geqrt k], (upto (k + 1) q).map (Job.larfb k)] ++
    (upto (k + 1) p).flatMap fun i => [[Job.tpqrt i k], (upto (k + 1) q).map fun j => Job.tpmqrt i j k]

/-- Multiplication with `Q`, forkjoin_tiled:74-85. -/
def buildStages (p q : Nat) : Stages QJob :=
  (downto q 0).flatMap fun k =>
    ((downto p (k + 1)).map fun i => (upto k q).map fun j => QJob.tpmqrt i j k) ++
    [(upto k q).map (QJob.larfb k)]

/-- Multiplication with the transpose of `Q`, forkjoin_tiled:103-114. -/
def applyStages (p q : Nat) : Stages QJob :=
  (List.range q).flatMap fun k =>
    [(upto k q).map (QJob.larfb k)] ++
    (upto (k + 1) p).map fun i => (upto k q).map fun j => QJob.tpmqrt i j k

/-! #### the blocked program -/

/-- The tasks of forkjoin_blocked_householder_blr_qr.cpp: `triangularize_block_col(k, A, T)`,
`apply_block_col_householder(A, T, k, true, A, j)` and
`apply_block_col_householder(A, T, k, _, Q, j)`. -/
inductive BJob where
  | triangularize (k : Nat)
  | applyA (k j : Nat)
  | applyQ (k j : Nat)
  deriving DecidableEq, Repr

/-- The tiles `A(k,j)`, ..., `A(p-1,j)`. -/
def colA (p k j : Nat) : Set Cell := {c | ∃ i h, k ≤ i ∧ i < p ∧ c = .a i j h}

/-- The tiles `Q(k,j)`, ..., `Q(p-1,j)`. -/
def colQ (p k j : Nat) : Set Cell := {c | ∃ i, k ≤ i ∧ i < p ∧ c = .q i j}

namespace BJob

/-- The cells read, qr.cpp:124-149 and 151-181 with `p` block rows. -/
def reads (p : Nat) : BJob → Set Cell
  | triangularize k => colA p k k ∪ {.t k 0}
  | applyA k j => colA p k k ∪ {.t k 0} ∪ colA p k j
  | applyQ k j => colA p k k ∪ {.t k 0} ∪ colQ p k j

/-- The cells written. -/
def writes (p : Nat) : BJob → Set Cell
  | triangularize k => colA p k k ∪ {.t k 0}
  | applyA k j => colA p k j
  | applyQ k j => colQ p k j

end BJob

/-- forkjoin_blocked_householder_blr_qr.cpp:49-55. -/
def blockedStages (q : Nat) : Stages BJob :=
  (List.range q).flatMap fun k => [[BJob.triangularize k], (upto (k + 1) q).map (BJob.applyA k)]

/-- forkjoin_blocked_householder_blr_qr.cpp:62-67. -/
def blockedBuildStages (q : Nat) : Stages BJob :=
  (downto q 0).map fun k => (upto k q).map (BJob.applyQ k)

/-- forkjoin_blocked_householder_blr_qr.cpp:85-90. -/
def blockedApplyStages (q : Nat) : Stages BJob :=
  (List.range q).map fun k => (upto k q).map (BJob.applyQ k)

/-! #### the Gram-Schmidt program -/

/-- The tasks of forkjoin_blocked_mgs_blr_qr.cpp: `orthogonalize_block_col(j, A, Q, R(j,j))`
with the transposes of the blocks of column `j` of `Q`, kept in private variables that are
not modelled as cells but read again from `Q`; the product `R(j,k) += Q(:,j)^T * A(:,k)`; and
`A(i,k) -= Q(i,j) * R(j,k)`. -/
inductive MJob where
  | orth (j : Nat)
  | project (j k : Nat)
  | subtract (j k i : Nat)
  deriving DecidableEq, Repr

namespace MJob

/-- The cells read, forkjoin_blocked_mgs_blr_qr.cpp:54, 57, 62, 68. -/
def reads (p : Nat) : MJob → Set Cell
  | orth j => colA p 0 j ∪ colQ p 0 j ∪ {.r j j}
  | project j k => colQ p 0 j ∪ colA p 0 k ∪ {.r j k}
  | subtract j k i => {.q i j, .r j k} ∪ tileA i k

/-- The cells written. -/
def writes (p : Nat) : MJob → Set Cell
  | orth j => colQ p 0 j ∪ {.r j j}
  | project j k => {.r j k}
  | subtract _ k i => tileA i k

end MJob

/-- forkjoin_blocked_mgs_blr_qr.cpp:53-72; the second loop is collapsed over both indices. -/
def mgsStages (p q : Nat) : Stages MJob :=
  (List.range q).flatMap fun j =>
    [[MJob.orth j], (upto (j + 1) q).map (MJob.project j),
     (upto (j + 1) q).flatMap fun k => (upto 0 p).map (MJob.subtract j k)]

end Verif.ParQr
