import Verif.Lemmas.ParQrTiles
import Verif.Spec.OpenMP
import Verif.Props.Gemm

/-
C36: the task-parallel tiled QR program.  C37: the fork-join programs.

Task bodies are arbitrary sequences of atomic steps that stay within the blocks the tasks
are called with (`Within`); `Verif/Spec/OpenMP.lean` says what schedule independence, race
freedom and absence of deadlock mean.
-/

namespace Verif
open Omp ParQr

/-! ### C36 -/

section
variable {V : Type} {p q : Nat}

/-- C36, first half: whatever the kernels compute, every execution of the three parallel
regions that respects the `depend` clauses ends with the memory of the sequential program.
The factorization needs at least as many block rows as block columns. -/
theorem C36_schedule_independent (hpq : q ≤ p) {body : Job → List (Step Cell V)}
    {bodyQ : QJob → List (Step Cell V)} (hb : Within body Job.reads Job.writes)
    (hq : Within bodyQ QJob.reads QJob.writes) :
    (taskQr p q body).Deterministic ∧ (taskBuildQ p q bodyQ).Deterministic ∧
      (taskApplyQ p q bodyQ).Deterministic :=
  ⟨Region.deterministic (P := taskQr p q body) (tiledJobs_nodup p q) (taskQr_covered hpq hb),
   Region.deterministic (P := taskBuildQ p q bodyQ) (buildJobs_nodup p q) (taskBuildQ_covered hq),
   Region.deterministic (P := taskApplyQ p q bodyQ) (applyJobs_nodup p q) (taskApplyQ_covered hpq hq)⟩

/-- C36, second half: at every point of every execution, two tasks that may both run do
not write a part of a block the other one accesses. -/
theorem C36_race_free (hpq : q ≤ p) {body : Job → List (Step Cell V)}
    {bodyQ : QJob → List (Step Cell V)} (hb : Within body Job.reads Job.writes)
    (hq : Within bodyQ QJob.reads QJob.writes) :
    (taskQr p q body).RaceFree ∧ (taskBuildQ p q bodyQ).RaceFree ∧ (taskApplyQ p q bodyQ).RaceFree :=
  ⟨Region.raceFree (P := taskQr p q body) (tiledJobs_nodup p q) (taskQr_covered hpq hb),
   Region.raceFree (P := taskBuildQ p q bodyQ) (buildJobs_nodup p q) (taskBuildQ_covered hq),
   Region.raceFree (P := taskApplyQ p q bodyQ) (applyJobs_nodup p q) (taskApplyQ_covered hpq hq)⟩

/-- The regions do not deadlock, and every partial execution can be completed: the results
above are not about an empty set of executions. -/
theorem C36_completes {body : Job → List (Step Cell V)} {bodyQ : QJob → List (Step Cell V)} :
    ((taskQr p q body).Progress ∧ (taskQr p q body).Completes) ∧
    ((taskBuildQ p q bodyQ).Progress ∧ (taskBuildQ p q bodyQ).Completes) ∧
    ((taskApplyQ p q bodyQ).Progress ∧ (taskApplyQ p q bodyQ).Completes) :=
  ⟨⟨Region.progress (P := taskQr p q body) (tiledJobs_nodup p q),
    Region.completes (P := taskQr p q body) (tiledJobs_nodup p q)⟩,
   ⟨Region.progress (P := taskBuildQ p q bodyQ) (buildJobs_nodup p q),
    Region.completes (P := taskBuildQ p q bodyQ) (buildJobs_nodup p q)⟩,
   ⟨Region.progress (P := taskApplyQ p q bodyQ) (applyJobs_nodup p q),
    Region.completes (P := taskApplyQ p q bodyQ) (applyJobs_nodup p q)⟩⟩

end

section
variable {R : Type} [CommRing R] [DecidableEq R] {K : QrKernels R} {o : LrOps R} {fuel p q : Nat}

/-- The tasks of the factorization execute `geqrt`, `larfb`, `tpqrt`, `tpmqrt`, in any
number of steps, within their blocks. -/
def RunsKernels (K : QrKernels R) (o : LrOps R) (fuel : Nat) (body : Job → List (Step Cell (Mat R))) :
    Prop :=
  Within body Job.reads Job.writes ∧ ∀ x s, exec (body x) s = Job.act K o fuel s x

/-- The same for the tasks that multiply with the reflectors. -/
def RunsQKernels (o : LrOps R) (fuel : Nat) (trans : Bool) (body : QJob → List (Step Cell (Mat R))) :
    Prop :=
  Within body QJob.reads QJob.writes ∧ ∀ x s, exec (body x) s = QJob.act o fuel trans s x

theorem RunsKernels.sequential {body : Job → List (Step Cell (Mat R))} (h : RunsKernels K o fuel body)
    (l : List Job) (s : Cell → Mat R) : sequential l body s = runJobs K o fuel l s := by
  unfold Omp.sequential runJobs
  simp only [h.2]

theorem RunsQKernels.sequential {trans : Bool} {body : QJob → List (Step Cell (Mat R))}
    (h : RunsQKernels o fuel trans body) (l : List QJob) (s : Cell → Mat R) :
    sequential l body s = runQJobs o fuel trans l s := by
  unfold Omp.sequential runQJobs
  simp only [h.2]

omit [CommRing R] [DecidableEq R] in
theorem ParQr.InMemory.holds {s : Cell → Mat R} {A T : Nat → Nat → Mat R} (h : InMemory s A T) : Holds s (A, T) :=
  fun i j => ⟨by rw [(h i j).1, (h i j).1]; exact Rep.self _, (h i j).2⟩

/-- What the first region does: every execution leaves in `A` and `T` exactly what the
sequential `tiled_householder_blr_qr` computes. -/
theorem C36_factorization (hpq : q ≤ p) {body : Job → List (Step Cell (Mat R))}
    (hb : RunsKernels K o fuel body) {s s' : Cell → Mat R} {A T A' T' : Nat → Nat → Mat R}
    (hs : InMemory s A T) (hr : Mat.tiledQr K o fuel p q A p q T = .ok (A', T'))
    (he : (taskQr p q body).Ends s s') :
    ∀ i j, tile s' i j = A' i j ∧ s' (.t i j) = T' i j := by
  have h := tiledQr_holds hs.holds hr
  rw [← hb.sequential, ← (show s' = sequential (tiledJobs p q) body s from
    Region.deterministic (P := taskQr p q body) (tiledJobs_nodup p q) (taskQr_covered hpq hb.1) s s' he)] at h
  exact fun i j => ⟨h.tile i j, (h i j).2⟩

/-- What the program computes, from the factorization to the product: after the first
region, with the blocks of a matrix `C` stored in `Q`, the second region leaves in `Q`
exactly what `left_multiply_tiled_reflector(A, T, C, false)` computes, and the third one
then what `left_multiply_tiled_reflector(A, T, C', true)` computes; for all executions. -/
theorem C36_products (hpq : q ≤ p) {body : Job → List (Step Cell (Mat R))}
    {bodyN bodyT : QJob → List (Step Cell (Mat R))} (hb : RunsKernels K o fuel body)
    (hn : RunsQKernels o fuel false bodyN) (ht : RunsQKernels o fuel true bodyT)
    {s s1 s2 s3 s4 : Cell → Mat R} {A T A' T' C C' C'' : Nat → Nat → Mat R} {m n : Nat}
    (hs : InMemory s A T) (hr : Mat.tiledQr K o fuel p q A p q T = .ok (A', T'))
    (h1 : (taskQr p q body).Ends s s1)
    (h2 : (∀ i j, s2 (.q i j) = C i j) ∧ (∀ i j h, s2 (.a i j h) = s1 (.a i j h)) ∧
      ∀ i j, s2 (.t i j) = s1 (.t i j))
    (hc : Mat.leftMulTiled o fuel p q A' p q T' m n C false = .ok C')
    (h3 : (taskBuildQ p q bodyN).Ends s2 s3)
    (hd : Mat.leftMulTiled o fuel p q A' p q T' m n C' true = .ok C'')
    (h4 : (taskApplyQ p q bodyT).Ends s3 s4) :
    (∀ i j, s3 (.q i j) = C' i j) ∧ ∀ i j, s4 (.q i j) = C'' i j := by
  have g1 := tiledQr_holds hs.holds hr
  rw [← hb.sequential, ← (show s1 = sequential (tiledJobs p q) body s from
    Region.deterministic (P := taskQr p q body) (tiledJobs_nodup p q) (taskQr_covered hpq hb.1) s s1 h1)] at g1
  have g2 : HoldsQ A' T' s2 C := by
    refine ⟨fun i j => ?_, h2.1⟩
    rw [h2.2.1, h2.2.1, h2.2.2]
    exact g1 i j
  have g3 := leftMulTiled_holds g2 hc
  simp only [Bool.false_eq_true, if_false] at g3
  rw [← hn.sequential, ← (show s3 = sequential (buildJobs p q) bodyN s2 from
    Region.deterministic (P := taskBuildQ p q bodyN) (buildJobs_nodup p q) (taskBuildQ_covered hn.1) s2 s3 h3)] at g3
  have g4 := leftMulTiled_holds g3 hd
  simp only [if_true] at g4
  rw [← ht.sequential, ← (show s4 = sequential (applyJobs p q) bodyT s3 from
    Region.deterministic (P := taskApplyQ p q bodyT) (applyJobs_nodup p q) (taskApplyQ_covered hpq ht.1) s3 s4
      h4)] at g4
  exact ⟨g3.2, g4.2⟩

/-- Executing each kernel in one step is one way to run the tasks. -/
theorem runsKernels_atomic : RunsKernels K o fuel (fun x => [x.step K o fuel]) := by
  refine ⟨fun x σ hσ => ?_, fun x s => rfl⟩
  rw [List.mem_singleton] at hσ
  subst hσ
  exact ⟨subset_rfl, subset_rfl⟩

theorem runsQKernels_atomic (trans : Bool) : RunsQKernels o fuel trans (fun x => [x.step o fuel trans]) := by
  refine ⟨fun x σ hσ => ?_, fun x s => rfl⟩
  rw [List.mem_singleton] at hσ
  subst hσ
  exact ⟨subset_rfl, subset_rfl⟩

/-- What the code `act` of a task does is confined to its blocks: blocks that are not in `writes` keep
their values, and what is stored in the others depends on the blocks in `reads` only. -/
def Confined {C V : Type} (reads writes : Set C) (act : (C → V) → C → V) : Prop :=
  (∀ s, ∀ c ∉ writes, act s c = s c) ∧ ∀ s s', (∀ c ∈ reads, s c = s' c) → ∀ c ∈ writes, act s c = act s' c

/-- C36: the kernels called by the tasks are confined to the blocks listed for them, so that there are
tasks as assumed in `C36_factorization` and `C36_products`, for example tasks of one step. -/
theorem C36_footprints : (∀ x : Job, Confined x.reads x.writes fun s => x.act K o fuel s) ∧
    (∀ (trans : Bool) (x : QJob), Confined x.reads x.writes fun s => x.act o fuel trans s) ∧
    (∃ body, RunsKernels K o fuel body) ∧ ∀ trans, ∃ body, RunsQKernels o fuel trans body := by
  refine ⟨fun x => ⟨(x.step K o fuel).frame, (x.step K o fuel).dep⟩,
    fun trans x => ⟨(x.step o fuel trans).frame, (x.step o fuel trans).dep⟩, ⟨_, runsKernels_atomic⟩,
    fun trans => ⟨_, runsQKernels_atomic trans⟩⟩

end

/-- A task without predecessors can run first. -/
theorem reach_first {Loc V J : Type} [DecidableEq J] (P : Region Loc Cell V J) {x : J} (hx : x ∈ P.jobs)
    (hw : ∀ w, ¬ P.Waits w x) (s : Cell → V) :
    ∃ s', P.Reach s (Function.update (fun _ => 0) x (P.steps x).length, s') := by
  suffices ∀ n ≤ (P.steps x).length, ∃ s', P.Reach s (Function.update (fun _ => 0) x n, s') from
    this _ le_rfl
  intro n hn
  induction n with
  | zero =>
    rw [Function.update_eq_self_iff.2 rfl]
    exact ⟨s, .refl⟩
  | succ n ih =>
    obtain ⟨s', h⟩ := ih (by omega)
    have hlt : Function.update (fun _ => 0) x n x < (P.steps x).length := by
      rw [Function.update_self]; omega
    have := Region.Move.step (P := P) (Function.update (fun _ => 0) x n) s' x
      ⟨hx, by unfold Region.Done; omega, fun w h => absurd h (hw w)⟩ hlt
    rw [Function.update_idem, show Function.update (fun _ => 0) x n x + 1 = n + 1 by
      rw [Function.update_self]] at this
    exact ⟨_, h.tail this⟩

/-- The granularity matters: the first `larfb` and the first `tpqrt` may run at the same
time, the former reads and the latter writes the block `A(0,0)`.  They touch different
halves of it. -/
theorem C36_shared_block {V : Type} {p q : Nat} (hpq : q ≤ p) (hq : 2 ≤ q) (body : Job → List (Step Cell V))
    (s : Cell → V) :
    (∃ c s', (taskQr p q body).Reach s (c, s') ∧ (taskQr p q body).Ready c (.larfb 0 1) ∧
      (taskQr p q body).Ready c (.tpqrt 1 0)) ∧
    Cell.a 0 0 .lower ∈ (Job.larfb 0 1).reads ∧ Cell.a 0 0 .upper ∈ (Job.tpqrt 1 0).writes := by
  refine ⟨?_, by simp [Job.reads], by simp [Job.writes]⟩
  have m : ∀ {x : Job}, x.pos.Valid p q → x.pos.job = x → x ∈ (taskQr p q body).jobs :=
    fun h h' => (mem_tiledJobs hpq).2 ⟨h, h'⟩
  have pre : ∀ {w x : Job}, (taskQr p q body).Waits w x →
      w.pos.lt x.pos ∧ w.pos.Valid p q ∧ w.pos.job = w := fun h =>
    ⟨rel_of_sublist (tiledJobs_pairwise p q) h.1, (mem_tiledJobs hpq).1 (h.1.subset (by simp))⟩
  have m0 : Job.geqrt 0 ∈ (taskQr p q body).jobs := m (by simp [Job.pos, Pos.Valid]; omega) rfl
  have m1 : Job.larfb 0 1 ∈ (taskQr p q body).jobs := m (by simp [Job.pos, Pos.Valid]; omega) rfl
  have m2 : Job.tpqrt 1 0 ∈ (taskQr p q body).jobs := m (by simp [Job.pos, Pos.Valid]; omega) rfl
  obtain ⟨s', hr⟩ := reach_first (taskQr p q body) m0 (fun w hw => by
    obtain ⟨h1, -, -⟩ := pre hw
    simp [Job.pos, Pos.lt] at h1) s
  refine ⟨_, s', hr, ⟨m1, ?_, ?_⟩, ⟨m2, ?_, ?_⟩⟩
  · simp [Region.Done, Region.steps]
  · intro w hw
    obtain ⟨h1, h2, h3⟩ := pre hw
    have : w = .geqrt 0 := by
      change w.pos.lt ⟨0, 0, 1⟩ at h1
      simp only [Pos.lt, Pos.Valid] at h1 h2
      rw [← h3, Pos.job, if_pos (by omega), if_pos (by omega)]
      congr 1; omega
    subst this
    simp [Region.Done]
  · simp [Region.Done, Region.steps]
  · intro w hw
    obtain ⟨h1, h2, h3⟩ := pre hw
    have : w = .geqrt 0 := by
      obtain ⟨-, l, hl⟩ := hw
      cases w with
      | geqrt k =>
        simp only [Job.pos, Pos.lt] at h1
        congr 1; omega
      | larfb k j =>
        simp only [Job.pos, Pos.lt, Pos.Valid] at h1 h2
        simp only [taskQr, Job.ins, Job.outs, List.mem_singleton] at hl
        simp only [Job.pos, Pos.job] at h3
        have hk : k = 0 := by omega
        subst hk
        rcases hl with ⟨rfl, h | h⟩ | ⟨rfl, h⟩
        · simp at h; subst h; simp at h3
        · simp at h
        · simp at h
      | tpqrt i k =>
        exfalso
        simp only [Job.pos, Pos.lt, Pos.Valid] at h1 h2
        simp only [Job.pos, Pos.job] at h3
        split_ifs at h3; omega
      | tpmqrt i j k =>
        exfalso
        simp only [Job.pos, Pos.lt, Pos.Valid] at h1 h2
        have : i = k := by omega
        subst this
        by_cases e : j = i <;> simp [Job.pos, Pos.job, e] at h3
    subst this
    simp [Region.Done]

/-! ### C37 -/

section
variable {V : Type} {p q : Nat}

/-- C37: in each parallel loop of the fork-join programs, different iterations write
disjoint blocks and read nothing another iteration writes. -/
theorem C37_disjoint (p q : Nat) :
    (∀ l ∈ tiledStages p q, ∀ x ∈ l, ∀ y ∈ l, x ≠ y → ∀ c ∈ x.writes, c ∉ y.reads ∧ c ∉ y.writes) ∧
    (∀ l ∈ buildStages p q ++ applyStages p q,
      ∀ x ∈ l, ∀ y ∈ l, x ≠ y → ∀ c ∈ x.writes, c ∉ y.reads ∧ c ∉ y.writes) ∧
    (∀ l ∈ blockedStages q ++ blockedBuildStages q ++ blockedApplyStages q,
      ∀ x ∈ l, ∀ y ∈ l, x ≠ y → ∀ c ∈ x.writes p, c ∉ y.reads p ∧ c ∉ y.writes p) ∧
    (∀ l ∈ mgsStages p q,
      ∀ x ∈ l, ∀ y ∈ l, x ≠ y → ∀ c ∈ x.writes p, c ∉ y.reads p ∧ c ∉ y.writes p) := by
  refine ⟨fun l hl => (tiledStages_apart p q l hl).2, fun l hl => ?_,
    fun l hl => (blockedStages_apart p q l hl).2, fun l hl => (mgsStages_apart p q l hl).2⟩
  rcases List.mem_append.1 hl with hl | hl
  · exact (buildStages_apart p q l hl).2
  · exact (applyStages_apart p q l hl).2

/-- C37: whatever the kernels compute, every execution of the fork-join programs ends with
the memory of the sequential programs. -/
theorem C37_schedule_independent {bT : Job → List (Step Cell V)} {bQ : QJob → List (Step Cell V)}
    {bB : BJob → List (Step Cell V)} {bM : MJob → List (Step Cell V)}
    (hT : Within bT Job.reads Job.writes) (hQ : Within bQ QJob.reads QJob.writes)
    (hB : Within bB (BJob.reads p) (BJob.writes p)) (hM : Within bM (MJob.reads p) (MJob.writes p))
    (s s' : Cell → V) :
    (Runs bT (tiledStages p q) s s' → s' = sequential (tiledJobs p q) bT s) ∧
    (Runs bQ (buildStages p q) s s' → s' = sequential (buildJobs p q) bQ s) ∧
    (Runs bQ (applyStages p q) s s' → s' = sequential (applyJobs p q) bQ s) ∧
    (Runs bB (blockedStages q) s s' → s' = sequential (blockedStages q).flatten bB s) ∧
    (Runs bB (blockedBuildStages q) s s' → s' = sequential (blockedBuildStages q).flatten bB s) ∧
    (Runs bB (blockedApplyStages q) s s' → s' = sequential (blockedApplyStages q).flatten bB s) ∧
    (Runs bM (mgsStages p q) s s' → s' = sequential (mgsStages p q).flatten bM s) := by
  refine ⟨fun h => ?_, fun h => ?_, fun h => ?_, fun h => ?_, fun h => ?_, fun h => ?_, fun h => ?_⟩
  · rw [← tiledStages_flatten]; exact runs_sequential hT (tiledStages_apart p q) h
  · rw [← buildStages_flatten]; exact runs_sequential hQ (buildStages_apart p q) h
  · rw [← applyStages_flatten]; exact runs_sequential hQ (applyStages_apart p q) h
  · exact runs_sequential hB (fun l hl => blockedStages_apart p q l (by simp [hl])) h
  · exact runs_sequential hB (fun l hl => blockedStages_apart p q l (by simp [hl])) h
  · exact runs_sequential hB (fun l hl => blockedStages_apart p q l (by simp [hl])) h
  · exact runs_sequential hM (mgsStages_apart p q) h

/-- All fork-join programs can be executed to the end. -/
theorem C37_completes {bT : Job → List (Step Cell V)} {bQ : QJob → List (Step Cell V)}
    {bB : BJob → List (Step Cell V)} {bM : MJob → List (Step Cell V)} (s : Cell → V) :
    (∃ s', Runs bT (tiledStages p q) s s') ∧ (∃ s', Runs bQ (buildStages p q) s s') ∧
    (∃ s', Runs bQ (applyStages p q) s s') ∧ (∃ s', Runs bB (blockedStages q) s s') ∧
    (∃ s', Runs bB (blockedBuildStages q) s s') ∧ (∃ s', Runs bB (blockedApplyStages q) s s') ∧
    ∃ s', Runs bM (mgsStages p q) s s' :=
  ⟨runs_exists (tiledStages_apart p q) s, runs_exists (buildStages_apart p q) s,
   runs_exists (applyStages_apart p q) s,
   runs_exists (fun l hl => blockedStages_apart p q l (by simp [hl])) s,
   runs_exists (fun l hl => blockedStages_apart p q l (by simp [hl])) s,
   runs_exists (fun l hl => blockedStages_apart p q l (by simp [hl])) s,
   runs_exists (mgsStages_apart p q) s⟩

end

section
variable {R : Type} [CommRing R] [DecidableEq R] {K : QrKernels R} {o : LrOps R} {fuel p q : Nat}

/-- What the fork-join tiled program computes: for all executions, what the sequential
`tiled_householder_blr_qr` computes. -/
theorem C37_factorization {body : Job → List (Step Cell (Mat R))} (hb : RunsKernels K o fuel body)
    {s s' : Cell → Mat R} {A T A' T' : Nat → Nat → Mat R} (hs : InMemory s A T)
    (hr : Mat.tiledQr K o fuel p q A p q T = .ok (A', T')) (he : Runs body (tiledStages p q) s s') :
    ∀ i j, tile s' i j = A' i j ∧ s' (.t i j) = T' i j := by
  have h := tiledQr_holds hs.holds hr
  rw [← hb.sequential, ← tiledStages_flatten, ← runs_sequential hb.1 (tiledStages_apart p q) he] at h
  exact fun i j => ⟨h.tile i j, (h i j).2⟩

/-- The same for the multiplication with `Q` and with its transpose. -/
theorem C37_products {body : Job → List (Step Cell (Mat R))}
    {bodyN bodyT : QJob → List (Step Cell (Mat R))} (hb : RunsKernels K o fuel body)
    (hn : RunsQKernels o fuel false bodyN) (ht : RunsQKernels o fuel true bodyT)
    {s s1 s2 s3 s4 : Cell → Mat R} {A T A' T' C C' C'' : Nat → Nat → Mat R} {m n : Nat}
    (hs : InMemory s A T) (hr : Mat.tiledQr K o fuel p q A p q T = .ok (A', T'))
    (h1 : Runs body (tiledStages p q) s s1)
    (h2 : (∀ i j, s2 (.q i j) = C i j) ∧ (∀ i j h, s2 (.a i j h) = s1 (.a i j h)) ∧
      ∀ i j, s2 (.t i j) = s1 (.t i j))
    (hc : Mat.leftMulTiled o fuel p q A' p q T' m n C false = .ok C')
    (h3 : Runs bodyN (buildStages p q) s2 s3)
    (hd : Mat.leftMulTiled o fuel p q A' p q T' m n C' true = .ok C'')
    (h4 : Runs bodyT (applyStages p q) s3 s4) :
    (∀ i j, s3 (.q i j) = C' i j) ∧ ∀ i j, s4 (.q i j) = C'' i j := by
  have g1 := tiledQr_holds hs.holds hr
  rw [← hb.sequential, ← tiledStages_flatten, ← runs_sequential hb.1 (tiledStages_apart p q) h1] at g1
  have g2 : HoldsQ A' T' s2 C := by
    refine ⟨fun i j => ?_, h2.1⟩
    rw [h2.2.1, h2.2.1, h2.2.2]
    exact g1 i j
  have g3 := leftMulTiled_holds g2 hc
  simp only [Bool.false_eq_true, if_false] at g3
  rw [← hn.sequential, ← buildStages_flatten, ← runs_sequential hn.1 (buildStages_apart p q) h3] at g3
  have g4 := leftMulTiled_holds g3 hd
  simp only [if_true] at g4
  rw [← ht.sequential, ← applyStages_flatten, ← runs_sequential ht.1 (applyStages_apart p q) h4] at g4
  exact ⟨g3.2, g4.2⟩

end

/-- For the example: kernels that take the input for the reflectors. -/
def parKernels : QrKernels ℤ where
  geqrt3 A := (A.val, fun i j => if i = j then 1 else 2)
  tpqrt2 A B := (fun i j => A.val i j + 1, B.val, fun i j => if i = j then 1 else 3)

/-- For the example: 3-by-2 tiles of order 2, low-rank off the diagonal. -/
def parTiles (i j : Nat) : Mat ℤ :=
  if i = j then .dense ⟨2, 2, fun r s => (r : ℤ) + 2 * s + i⟩
  else .lowRank ⟨2, 2, 1, 0, ⟨2, 1, fun r _ => (r : ℤ) + i⟩, ⟨1, 1, fun _ _ => 1⟩, ⟨1, 2, fun _ s => (s : ℤ) - j⟩⟩

def parTs : Nat → Nat → Mat ℤ := fun _ _ => .dense ⟨2, 2, fun _ _ => 0⟩

/-- The hypotheses of the theorems on the computed values hold for a grid of 3-by-2 tiles:
the kernels return, and there are executions of all regions, task-parallel and fork-join. -/
example : ∃ (A' T' C' C'' : Nat → Nat → Mat ℤ) (s s1 s3 s4 r1 r3 r4 : Cell → Mat ℤ),
    InMemory s parTiles parTs ∧
    Mat.tiledQr parKernels (exactOps ℤ) 5 3 2 parTiles 3 2 parTs = .ok (A', T') ∧
    Mat.leftMulTiled (exactOps ℤ) 5 3 2 A' 3 2 T' 3 2 parTiles false = .ok C' ∧
    Mat.leftMulTiled (exactOps ℤ) 5 3 2 A' 3 2 T' 3 2 C' true = .ok C'' ∧
    (taskQr 3 2 fun x => [x.step parKernels (exactOps ℤ) 5]).Ends s s1 ∧
    (taskBuildQ 3 2 fun x => [x.step (exactOps ℤ) 5 false]).Ends (storeQ s1 parTiles) s3 ∧
    (taskApplyQ 3 2 fun x => [x.step (exactOps ℤ) 5 true]).Ends s3 s4 ∧
    Runs (fun x : Job => [x.step parKernels (exactOps ℤ) 5]) (tiledStages 3 2) s r1 ∧
    Runs (fun x : QJob => [x.step (exactOps ℤ) 5 false]) (buildStages 3 2) (storeQ r1 parTiles) r3 ∧
    Runs (fun x : QJob => [x.step (exactOps ℤ) 5 true]) (applyStages 3 2) r3 r4 := by
  obtain ⟨⟨x, c, d⟩, h, -⟩ := okAnd_spec (x := do
      let x ← Mat.tiledQr parKernels (exactOps ℤ) 5 3 2 parTiles 3 2 parTs
      let c ← Mat.leftMulTiled (exactOps ℤ) 5 3 2 x.1 3 2 x.2 3 2 parTiles false
      let d ← Mat.leftMulTiled (exactOps ℤ) 5 3 2 x.1 3 2 x.2 3 2 c true
      .ok (x, c, d))
    (P := fun _ => true) (by decide +kernel)
  simp only [except_bind_eq_ok] at h
  obtain ⟨x, h1, c, h2, d, h3, h⟩ := h
  let s : Cell → Mat ℤ
    | .a i j _ => parTiles i j
    | .t i j => parTs i j
    | _ => .empty 0 0
  obtain ⟨c1, s1, e1, f1⟩ := (C36_completes (p := 3) (q := 2)
    (body := fun x => [x.step parKernels (exactOps ℤ) 5]) (bodyQ := fun x => [x.step (exactOps ℤ) 5 false])).1.2
    s (fun _ => 0) s .refl
  obtain ⟨c3, s3, e3, f3⟩ := (C36_completes (p := 3) (q := 2)
    (body := fun x => [x.step parKernels (exactOps ℤ) 5]) (bodyQ := fun x => [x.step (exactOps ℤ) 5 false])).2.1.2
    (storeQ s1 parTiles) (fun _ => 0) _ .refl
  obtain ⟨c4, s4, e4, f4⟩ := (C36_completes (p := 3) (q := 2)
    (body := fun x => [x.step parKernels (exactOps ℤ) 5]) (bodyQ := fun x => [x.step (exactOps ℤ) 5 true])).2.2.2
    s3 (fun _ => 0) _ .refl
  obtain ⟨r1, g1⟩ := runs_exists (body := fun x : Job => [x.step parKernels (exactOps ℤ) 5]) (tiledStages_apart 3 2) s
  obtain ⟨r3, g3⟩ := runs_exists (body := fun x : QJob => [x.step (exactOps ℤ) 5 false]) (buildStages_apart 3 2)
    (storeQ r1 parTiles)
  obtain ⟨r4, g4⟩ := runs_exists (body := fun x : QJob => [x.step (exactOps ℤ) 5 true]) (applyStages_apart 3 2) r3
  exact ⟨x.1, x.2, c, d, s, s1, s3, s4, r1, r3, r4, fun i j => ⟨fun _ => rfl, rfl⟩, h1, h2, h3, ⟨c1, e1, f1⟩,
    ⟨c3, e3, f3⟩, ⟨c4, e4, f4⟩, g1, g3, g4⟩

end Verif
