import Verif.Model.ParProgram
import Verif.Lemmas.ParQrCols
import Verif.Props.ParQr
import Verif.Props.MgsProgram

/-
C58: the parallel block low-rank QR example programs
(examples/forkjoin_tiled_householder_blr_qr.cpp,
examples/taskbased_tiled_householder_blr_qr.cpp,
examples/forkjoin_blocked_householder_blr_qr.cpp,
examples/forkjoin_blocked_mgs_blr_qr.cpp).
-/

set_option linter.unusedSectionVars false

namespace Verif
open Omp ParQr

variable {R : Type} {K : Type} [Field K] [LinearOrder K]

section
variable [CommRing R] [DecidableEq R]

/-- The tasks of the fork-join blocked program do what the sequential functions do, and touch
only the blocks they are given; how they are divided into steps does not matter. -/
def RunsBKernels (kn : QrKernels R) (o : LrOps R) (fuel p : Nat) (trans : Bool) (body : BJob → List (Step Cell (Mat R))) : Prop :=
  Within body (BJob.reads p) (BJob.writes p) ∧ ∀ x s, exec (body x) s = BJob.act kn o fuel p trans s x

/-- The same for the Gram-Schmidt program. -/
def RunsMKernels (L : Lapack R) (o : LrOps R) (fuel p : Nat) (body : MJob → List (Step Cell (Mat R))) : Prop :=
  Within body (MJob.reads p) (MJob.writes p) ∧ ∀ x s, exec (body x) s = MJob.act L o fuel p s x

variable {kn : QrKernels R} {o : LrOps R} {L : Lapack R} {fuel p q : Nat}

theorem RunsBKernels.sequential {trans : Bool} {body : BJob → List (Step Cell (Mat R))}
    (h : RunsBKernels kn o fuel p trans body) (l : List BJob) (s : Cell → Mat R) :
    sequential l body s = runBJobs kn o fuel p trans l s := by
  unfold Omp.sequential runBJobs
  simp only [h.2]

theorem RunsMKernels.sequential {body : MJob → List (Step Cell (Mat R))}
    (h : RunsMKernels L o fuel p body) (l : List MJob) (s : Cell → Mat R) :
    sequential l body s = runMJobs L o fuel p l s := by
  unfold Omp.sequential runMJobs
  simp only [h.2]

theorem runsBKernels_atomic (trans : Bool) : RunsBKernels kn o fuel p trans (fun x => [x.step kn o fuel p trans]) := by
  refine ⟨fun x σ hσ => ?_, fun x s => rfl⟩
  rw [List.mem_singleton] at hσ
  subst hσ
  exact ⟨subset_rfl, subset_rfl⟩

theorem runsMKernels_atomic : RunsMKernels L o fuel p (fun x => [x.step L o fuel p]) := by
  refine ⟨fun x σ hσ => ?_, fun x s => rfl⟩
  rw [List.mem_singleton] at hσ
  subst hσ
  exact ⟨subset_rfl, subset_rfl⟩

/-- C58: the functions called by the iterations of the parallel loops are confined to the blocks
listed for them, so that there are iterations as assumed below, for example of one step. -/
theorem C58_footprints : (∀ (trans : Bool) (x : BJob), Confined (x.reads p) (x.writes p) fun s => x.act kn o fuel p trans s) ∧
    (∀ x : MJob, Confined (x.reads p) (x.writes p) fun s => x.act L o fuel p s) ∧
    (∀ trans, ∃ body, RunsBKernels kn o fuel p trans body) ∧ ∃ body, RunsMKernels L o fuel p body := by
  refine ⟨fun trans x => ⟨(x.step kn o fuel p trans).frame, (x.step kn o fuel p trans).dep⟩,
    fun x => ⟨(x.step L o fuel p).frame, (x.step L o fuel p).dep⟩, fun trans => ⟨_, runsBKernels_atomic trans⟩,
    ⟨_, runsMKernels_atomic⟩⟩

/-- The parallel parts compute, for all executions, what the sequential functions compute. -/
def PartsCompute (parts : Parts R)
    (fac : Nat → Nat → (Nat → Nat → Mat R) → Except Err ((Nat → Nat → Mat R) × (Nat → Nat → Mat R)))
    (mul : Nat → Nat → (Nat → Nat → Mat R) → (Nat → Nat → Mat R) → (Nat → Nat → Mat R) → Bool →
      Except Err (Nat → Nat → Mat R)) (T0 : Nat → Nat → Mat R) (p q : Nat) : Prop :=
  ∀ A C Y T Q Z s, fac p q A = .ok (Y, T) → mul p q Y T C false = .ok Q → mul p q Y T Q true = .ok Z → InMemory s A T0 →
    (∃ s1 s2 s3, parts.factor p q s s1 ∧ parts.build p q (storeQ s1 C) s2 ∧ parts.apply p q s2 s3) ∧
    ∀ s1 s2 s3, parts.factor p q s s1 → parts.build p q (storeQ s1 C) s2 → parts.apply p q s2 s3 →
      tile s2 = Y ∧ (fun i j => s2 (.t i j)) = T ∧ (fun i j => s2 (.q i j)) = Q ∧ (fun i j => s3 (.q i j)) = Z

variable [Inhabited R]

/-- Then the parallel program prints what the sequential program prints. -/
theorem householderPrints_iff {parts : Parts R}
    {fac : Nat → Nat → (Nat → Nat → Mat R) → Except Err ((Nat → Nat → Mat R) × (Nat → Nat → Mat R))}
    {mul : Nat → Nat → (Nat → Nat → Mat R) → (Nat → Nat → Mat R) → (Nat → Nat → Mat R) → Bool →
      Except Err (Nat → Nat → Mat R)} {T0 : Nat → Nat → Mat R} {k kid : KernelFn R}
    {compressD compress : Dense R → Except Err (LowRank R)} {m n b : Nat} {a : Int} {r0 : BlrQrRun R}
    (hp : PartsCompute parts fac mul T0 (m / b) (n / b))
    (h : blrQrProgram (K := K) fuel k kid compressD compress o fac mul m n b a = .ok r0) (r : BlrQrRun R) :
    householderPrints (K := K) parts T0 fuel k kid compressD compress o m n b a r ↔ r = r0 := by
  unfold blrQrProgram at h
  simp only [except_bind_eq_ok] at h
  obtain ⟨u1, a1, h⟩ := h
  by_cases hb : b = 0
  · rw [if_pos hb] at h
    cases h
  rw [if_neg hb] at h
  simp only [except_bind_eq_ok] at h
  obtain ⟨u2, a2, u3, a3, D, hD, MA, hA, comp, hcomp, gA, hgA, ⟨Y, T⟩, hYT, MC, hC, gC, hgC, Q, hQ, B, hB, res, hres, Z, hZ, I, hI,
    orth, horth, h⟩ := h
  cases h
  have run : ∀ Y' T' Q' Z', Y' = Y → T' = T → Q' = Q → Z' = Z →
      blrQrProgram (K := K) fuel k kid compressD compress o (fun _ _ _ => .ok (Y', T'))
        (fun _ _ _ _ _ trans => .ok (if trans then Z' else Q')) m n b a = .ok ⟨comp, res, orth⟩ := by
    rintro _ _ _ _ rfl rfl rfl rfl
    unfold blrQrProgram
    rw [a1, except_bind_ok, if_neg hb, a2, except_bind_ok, a3, except_bind_ok]
    simp only [hD, hA, hcomp, hgA, hC, hgC, hB, hres, hI, horth, except_bind_ok, Bool.false_eq_true, if_false, if_true]
  constructor
  · rintro ⟨MA', MC', gA', gC', e1, e2, e3, e4, s, s1, s2, s3, hs, f1, f2, f3, hr⟩
    rw [hA] at e1
    cases e1
    rw [hgA] at e2
    cases e2
    rw [hC] at e3
    cases e3
    rw [hgC] at e4
    cases e4
    obtain ⟨g1, g2, g3, g4⟩ := (hp _ _ _ _ _ _ s hYT hQ hZ hs).2 s1 s2 s3 f1 f2 f3
    rw [run _ _ _ _ g1 g2 g3 g4] at hr
    exact (Except.ok.inj hr).symm
  · rintro rfl
    let s : Cell → Mat R
      | .a i j _ => gA.2.2 i j
      | .t i j => T0 i j
      | _ => .empty 0 0
    have hs : InMemory s gA.2.2 T0 := fun i j => ⟨fun _ => rfl, rfl⟩
    obtain ⟨⟨s1, s2, s3, f1, f2, f3⟩, hu⟩ := hp _ _ _ _ _ _ s hYT hQ hZ hs
    obtain ⟨g1, g2, g3, g4⟩ := hu s1 s2 s3 f1 f2 f3
    exact ⟨MA, MC, gA, gC, hA, hgA, hC, hgC, s, s1, s2, s3, hs, f1, f2, f3, run _ _ _ _ g1 g2 g3 g4⟩

/-- The functions of the sequential tiled program. -/
abbrev tiledFac (kn : QrKernels R) (o : LrOps R) (fuel : Nat) (T0 : Nat → Nat → Mat R) (p q : Nat) (A : Nat → Nat → Mat R) :=
  Mat.tiledQr kn o fuel p q A p q T0

abbrev tiledMul (o : LrOps R) (fuel p q : Nat) (Y T C : Nat → Nat → Mat R) (trans : Bool) :=
  Mat.leftMulTiled o fuel p q Y p q T p q C trans

omit [DecidableEq R] [CommRing R] [Inhabited R] in
theorem HoldsQ.read {Y T C : Nat → Nat → Mat R} {s : Cell → Mat R} (h : HoldsQ Y T s C) :
    tile s = Y ∧ (fun i j => s (.t i j)) = T ∧ (fun i j => s (.q i j)) = C :=
  ⟨funext fun i => funext fun j => h.1.tile i j, funext fun i => funext fun j => (h.1 i j).2,
    funext fun i => funext fun j => h.2 i j⟩

theorem taskParts_compute (hpq : q ≤ p) {body : Job → List (Step Cell (Mat R))}
    {bodyN bodyT : QJob → List (Step Cell (Mat R))} (hb : RunsKernels kn o fuel body)
    (hn : RunsQKernels o fuel false bodyN) (ht : RunsQKernels o fuel true bodyT) (T0 : Nat → Nat → Mat R) :
    PartsCompute (taskParts body bodyN bodyT) (tiledFac kn o fuel T0) (tiledMul o fuel) T0 p q := by
  intro A C Y T Q Z s hr hc hd hs
  refine ⟨?_, fun s1 s2 s3 h1 h2 h3 => ?_⟩
  · obtain ⟨⟨-, c1⟩, ⟨-, c2⟩, -⟩ := C36_completes (p := p) (q := q) (body := body) (bodyQ := bodyN)
    obtain ⟨-, -, -, c3⟩ := C36_completes (p := p) (q := q) (body := body) (bodyQ := bodyT)
    obtain ⟨_, s1, e1, f1⟩ := c1 s (fun _ => 0) s .refl
    obtain ⟨_, s2, e2, f2⟩ := c2 (storeQ s1 C) (fun _ => 0) _ .refl
    obtain ⟨_, s3, e3, f3⟩ := c3 s2 (fun _ => 0) _ .refl
    exact ⟨s1, s2, s3, ⟨_, e1, f1⟩, ⟨_, e2, f2⟩, ⟨_, e3, f3⟩⟩
  · have g1 := tiledQr_holds hs.holds hr
    rw [← hb.sequential, ← (show s1 = sequential (tiledJobs p q) body s from
      Region.deterministic (P := taskQr p q body) (tiledJobs_nodup p q) (taskQr_covered hpq hb.1) s s1 h1)] at g1
    have g2 : HoldsQ Y T (storeQ s1 C) C := ⟨fun i j => g1 i j, fun i j => rfl⟩
    have g3 := leftMulTiled_holds g2 hc
    simp only [Bool.false_eq_true, if_false] at g3
    rw [← hn.sequential, ← (show s2 = sequential (buildJobs p q) bodyN (storeQ s1 C) from
      Region.deterministic (P := taskBuildQ p q bodyN) (buildJobs_nodup p q) (taskBuildQ_covered hn.1) _ s2 h2)] at g3
    have g4 := leftMulTiled_holds g3 hd
    simp only [if_true] at g4
    rw [← ht.sequential, ← (show s3 = sequential (applyJobs p q) bodyT s2 from
      Region.deterministic (P := taskApplyQ p q bodyT) (applyJobs_nodup p q) (taskApplyQ_covered hpq ht.1) s2 s3
        h3)] at g4
    exact ⟨(HoldsQ.read g3).1, (HoldsQ.read g3).2.1, (HoldsQ.read g3).2.2, (HoldsQ.read g4).2.2⟩

theorem forkParts_compute {body : Job → List (Step Cell (Mat R))}
    {bodyN bodyT : QJob → List (Step Cell (Mat R))} (hb : RunsKernels kn o fuel body)
    (hn : RunsQKernels o fuel false bodyN) (ht : RunsQKernels o fuel true bodyT) (T0 : Nat → Nat → Mat R) :
    PartsCompute (forkParts body bodyN bodyT) (tiledFac kn o fuel T0) (tiledMul o fuel) T0 p q := by
  intro A C Y T Q Z s hr hc hd hs
  refine ⟨?_, fun s1 s2 s3 h1 h2 h3 => ?_⟩
  · obtain ⟨s1, f1⟩ := runs_exists (body := body) (tiledStages_apart p q) s
    obtain ⟨s2, f2⟩ := runs_exists (body := bodyN) (buildStages_apart p q) (storeQ s1 C)
    obtain ⟨s3, f3⟩ := runs_exists (body := bodyT) (applyStages_apart p q) s2
    exact ⟨s1, s2, s3, f1, f2, f3⟩
  · have g1 := tiledQr_holds hs.holds hr
    rw [← hb.sequential, ← tiledStages_flatten, ← runs_sequential hb.1 (tiledStages_apart p q) h1] at g1
    have g2 : HoldsQ Y T (storeQ s1 C) C := ⟨fun i j => g1 i j, fun i j => rfl⟩
    have g3 := leftMulTiled_holds g2 hc
    simp only [Bool.false_eq_true, if_false] at g3
    rw [← hn.sequential, ← buildStages_flatten, ← runs_sequential hn.1 (buildStages_apart p q) h2] at g3
    have g4 := leftMulTiled_holds g3 hd
    simp only [if_true] at g4
    rw [← ht.sequential, ← applyStages_flatten, ← runs_sequential ht.1 (applyStages_apart p q) h3] at g4
    exact ⟨(HoldsQ.read g3).1, (HoldsQ.read g3).2.1, (HoldsQ.read g3).2.2, (HoldsQ.read g4).2.2⟩

theorem blockedParts_compute {body bodyN bodyT : Nat → BJob → List (Step Cell (Mat R))} {tr : Bool}
    (hb : RunsBKernels kn o fuel p tr (body p))
    (hn : RunsBKernels kn o fuel p false (bodyN p)) (ht : RunsBKernels kn o fuel p true (bodyT p)) (T0 : Nat → Nat → Mat R) :
    PartsCompute (blockedParts body bodyN bodyT) (fun p q A => Mat.blockedQr kn o fuel p q A q 1 T0)
      (fun p q Y T C trans => Mat.leftMulBlocked o fuel p q Y q 1 T p q C trans) T0 p q := by
  intro A C Y T Q Z s hr hc hd hs
  have ap := blockedStages_apart p q
  refine ⟨?_, fun s1 s2 s3 h1 h2 h3 => ?_⟩
  · obtain ⟨s1, f1⟩ := runs_exists (st := blockedStages q) (body := body p) (fun l hl => ap l (by simp [hl])) s
    obtain ⟨s2, f2⟩ := runs_exists (st := blockedBuildStages q) (body := bodyN p) (fun l hl => ap l (by simp [hl])) (storeQ s1 C)
    obtain ⟨s3, f3⟩ := runs_exists (st := blockedApplyStages q) (body := bodyT p) (fun l hl => ap l (by simp [hl])) s2
    exact ⟨s1, s2, s3, f1, f2, f3⟩
  · have g1 := blockedQr_holds (trans := tr) hs hr
    rw [← hb.sequential, ← runs_sequential hb.1 (fun l hl => ap l (by simp [hl])) h1] at g1
    have g2 : StoresQ Y T (storeQ s1 C) C := ⟨fun i j => g1 i j, fun i j => rfl⟩
    have g3 := leftMulBlocked_holds (K := kn) g2 hc
    simp only [Bool.false_eq_true, if_false] at g3
    rw [← hn.sequential, ← runs_sequential hn.1 (fun l hl => ap l (by simp [hl])) h2] at g3
    have g4 := leftMulBlocked_holds (K := kn) g3 hd
    simp only [if_true] at g4
    rw [← ht.sequential, ← runs_sequential ht.1 (fun l hl => ap l (by simp [hl])) h3] at g4
    exact ⟨funext fun i => funext fun j => g3.1.tile i j, funext fun i => funext fun j => (g3.1 i j).2,
      funext fun i => funext fun j => g3.2 i j, funext fun i => funext fun j => g4.2 i j⟩

/-! ### C58 -/

variable {Q : LowRank R → Prop} {k kz kid : KernelFn R} {f : Int → Int → R}
  {compressD compress : Dense R → Except Err (LowRank R)} {b : Nat} {a : Int}

/-- `T` before the factorization in the tiled programs,
taskbased_tiled_householder_blr_qr.cpp:45-50. -/
abbrev tiledT (b : Nat) : Nat → Nat → Mat R :=
  fun i j => .dense ⟨if i < j then 0 else b, if i < j then 0 else b, fun _ _ => 0⟩

/-- **C58**: the task-based tiled program.  Whatever the schedule, it prints what the
sequential tiled program prints; and it prints something. -/
theorem C58_task_tiled {body : Job → List (Step Cell (Mat R))} {bodyN bodyT : QJob → List (Step Cell (Mat R))}
    (hb : RunsKernels kn o fuel body) (hn : RunsQKernels o fuel false bodyN) (ht : RunsQKernels o fuel true bodyT)
    (h : BlrQrInput Q f k kid o compress p q b a) (hfu : 5 ≤ fuel) :
    ∃ r0, tiledQrProgram (K := K) fuel k kid compressD compress kn o (p * b) (q * b) b a = .ok r0 ∧
      ∀ r, householderPrints (K := K) (taskParts body bodyN bodyT) (tiledT b) fuel k kid compressD compress o
        (p * b) (q * b) b a r ↔ r = r0 := by
  obtain ⟨r0, hr⟩ := C54_tiled_program_returns (K := K) (compressD := compressD) (kn := kn) h hfu
  refine ⟨r0, hr, householderPrints_iff (fac := tiledFac kn o fuel (tiledT b)) (mul := tiledMul o fuel) ?_ hr⟩
  rw [Nat.mul_div_cancel p (by have := h.one_b; omega), Nat.mul_div_cancel q (by have := h.one_b; omega)]
  exact taskParts_compute h.le hb hn ht _

/-- **C58**: the same for the fork-join tiled program. -/
theorem C58_fork_tiled {body : Job → List (Step Cell (Mat R))} {bodyN bodyT : QJob → List (Step Cell (Mat R))}
    (hb : RunsKernels kn o fuel body) (hn : RunsQKernels o fuel false bodyN) (ht : RunsQKernels o fuel true bodyT)
    (h : BlrQrInput Q f k kid o compress p q b a) (hfu : 5 ≤ fuel) :
    ∃ r0, tiledQrProgram (K := K) fuel k kid compressD compress kn o (p * b) (q * b) b a = .ok r0 ∧
      ∀ r, householderPrints (K := K) (forkParts body bodyN bodyT) (tiledT b) fuel k kid compressD compress o
        (p * b) (q * b) b a r ↔ r = r0 := by
  obtain ⟨r0, hr⟩ := C54_tiled_program_returns (K := K) (compressD := compressD) (kn := kn) h hfu
  refine ⟨r0, hr, householderPrints_iff (fac := tiledFac kn o fuel (tiledT b)) (mul := tiledMul o fuel) ?_ hr⟩
  exact forkParts_compute hb hn ht _

/-- **C58**: the same for the fork-join blocked program, compared with the sequential blocked
program. -/
theorem C58_fork_blocked (hK : QrContract kn) {body bodyN bodyT : Nat → BJob → List (Step Cell (Mat R))} {tr : Bool}
    (hb : RunsBKernels kn o fuel p tr (body p)) (hn : RunsBKernels kn o fuel p false (bodyN p))
    (ht : RunsBKernels kn o fuel p true (bodyT p)) (h : BlrQrInput Q f k kid o compress p q b a) (hfu : 5 ≤ fuel) :
    ∃ r0, blockedQrProgram (K := K) fuel k kid compressD compress kn o (p * b) (q * b) b a = .ok r0 ∧
      ∀ r, householderPrints (K := K) (blockedParts body bodyN bodyT) (fun _ _ => .empty 0 0) fuel k kid compressD compress o
        (p * b) (q * b) b a r ↔ r = r0 := by
  obtain ⟨r0, hr⟩ := C54_blocked_program_returns (K := K) (compressD := compressD) (kn := kn) hK h hfu
  refine ⟨r0, hr, householderPrints_iff (fac := fun p q A => Mat.blockedQr kn o fuel p q A q 1 (fun _ _ => .empty 0 0))
    (mul := fun p q Y T C trans => Mat.leftMulBlocked o fuel p q Y q 1 T p q C trans) ?_ hr⟩
  rw [Nat.mul_div_cancel p (by have := h.one_b; omega), Nat.mul_div_cancel q (by have := h.one_b; omega)]
  exact blockedParts_compute hb hn ht _

/-- The fork-join Gram-Schmidt program adds to the old blocks of `R` where the sequential one
overwrites them; apart from that it prints what the sequential program prints. -/
theorem mgsPrints_iff {body : Nat → MJob → List (Step Cell (Mat R))} (hb : RunsMKernels L o fuel p (body p))
    (h : MgsQrInput Q f k kz kid o compress p q b a) (hfu : 5 ≤ fuel) {r0 : BlrQrRun R}
    (h0 : mgsQrProgramWith (K := K) fuel k kz kid compressD compress
        (Mat.mgsWith L o fuel (Mat.mgsHier L o fuel fuel) 1) o (p * b) (q * b) b a = .ok r0) (r : BlrQrRun R) :
    mgsPrints (K := K) (fun p q => Runs (body p) (mgsStages p q)) fuel k kz kid compressD compress o
        (p * b) (q * b) b a r ↔ r = r0 := by
  obtain ⟨D, A, Q0, R0, Z, ⟨X, Y⟩, B, T, E, I, hrun, tD, eD, hA, gA, sA, ⟨hQ0, hR0, sR0⟩, -, -, -, -, -, hX, -⟩ :=
    mgsQr_runs (K := K) (compressD := compressD) (L := L) h hfu (Mat.mgsHier L o fuel fuel) 1
  have b0 : 0 < b := h.toBlr.one_b
  have ep : p * b / b = p := Nat.mul_div_cancel p b0
  have eq : q * b / b = q := Nat.mul_div_cancel q b0
  have run : ∀ X' Y', X' = X → Y' = Y → mgsQrProgramWith (K := K) fuel k kz kid compressD compress
      (fun _ _ _ _ _ _ _ _ _ => .ok (X', Y')) o (p * b) (q * b) b a = .ok r0 := by
    rintro _ _ rfl rfl
    rw [← h0]
    unfold mgsQrProgramWith
    simp only [ep, eq, hA, hQ0, hR0, Mat.grid, except_bind_ok, hX]
  have det : ∀ s s', InMemoryM s A Q0 R0 → Runs (body p) (mgsStages p q) s s' →
      (fun i j => s' (.q i j)) = X ∧ (fun i j => s' (.r i j)) = Y := by
    intro s s' hs he
    obtain ⟨A', hM⟩ := mgsFork_holds hs hX
    rw [← hb.sequential, ← runs_sequential hb.1 (mgsStages_apart p q) he] at hM
    exact ⟨funext fun i => funext fun j => (hM i j).2.1, funext fun i => funext fun j => (hM i j).2.2⟩
  unfold mgsPrints
  rw [ep, eq]
  constructor
  · rintro ⟨MA, MQ, MR, g1, g2, g3, e1, e2, e3, e4, e5, e6, s, s', hs, hr, hp⟩
    rw [hA] at e1
    cases e1
    cases e2
    rw [hQ0] at e3
    cases e3
    cases e4
    rw [hR0] at e5
    cases e5
    cases e6
    obtain ⟨d1, d2⟩ := det s s' hs hr
    rw [run _ _ d1 d2] at hp
    exact (Except.ok.inj hp).symm
  · rintro rfl
    let s : Cell → Mat R
      | .a i j _ => A i j
      | .q i j => Q0 i j
      | .r i j => R0 i j
      | _ => .empty 0 0
    have hs : InMemoryM s A Q0 R0 := fun i j => ⟨fun _ => rfl, rfl, rfl⟩
    obtain ⟨s', hr⟩ := runs_exists (body := body p) (mgsStages_apart p q) s
    obtain ⟨d1, d2⟩ := det s s' hs hr
    exact ⟨_, _, _, _, _, _, hA, rfl, hQ0, rfl, hR0, rfl, s, s', hs, hr, run _ _ d1 d2⟩

/-- **C58**: the fork-join Gram-Schmidt program prints something, and the same for every
schedule. -/
theorem C58_fork_mgs {body : Nat → MJob → List (Step Cell (Mat R))} (hb : RunsMKernels L o fuel p (body p))
    (h : MgsQrInput Q f k kz kid o compress p q b a) (hfu : 5 ≤ fuel) :
    ∃ r0, ∀ r, mgsPrints (K := K) (fun p q => Runs (body p) (mgsStages p q)) fuel k kz kid compressD compress o
        (p * b) (q * b) b a r ↔ r = r0 := by
  obtain ⟨_, _, _, _, _, _, _, _, _, _, h0, -⟩ := mgsQr_runs (K := K) (compressD := compressD) (L := L) h hfu
    (Mat.mgsHier L o fuel fuel) 1
  exact ⟨_, mgsPrints_iff hb h hfu h0⟩

/-- **C58**: the parallel programs reject what the sequential ones reject: more columns than
rows, a tile size of zero, and sizes that the tile size does not divide. -/
theorem C58_rejected (parts : Parts R) (T0 : Nat → Nat → Mat R) (run : Nat → Nat → (Cell → Mat R) → (Cell → Mat R) → Prop)
    {m n : Nat} (h : m < n ∨ b = 0 ∨ ¬ b ∣ m ∨ ¬ b ∣ n) (r : BlrQrRun R) :
    ¬ householderPrints (K := K) parts T0 fuel k kid compressD compress o m n b a r ∧
    ¬ mgsPrints (K := K) run fuel k kz kid compressD compress o m n b a r := by
  constructor
  · rintro ⟨_, _, _, _, -, -, -, -, _, s1, s2, s3, -, -, -, -, hr⟩
    unfold blrQrProgram at hr
    simp only [except_bind_eq_ok, assertM_eq_ok, decide_eq_true_eq] at hr
    obtain ⟨_, h1, hr⟩ := hr
    by_cases hb : b = 0
    · rw [if_pos hb] at hr
      cases hr
    rw [if_neg hb] at hr
    simp only [except_bind_eq_ok, assertM_eq_ok, decide_eq_true_eq] at hr
    obtain ⟨_, h2, _, h3, -⟩ := hr
    have := Nat.dvd_of_mod_eq_zero h2
    have := Nat.dvd_of_mod_eq_zero h3
    rcases h with h | h | h | h
    · omega
    · exact hb h
    · exact h ‹_›
    · exact h ‹_›
  · rintro ⟨_, _, _, _, _, _, -, -, -, -, -, -, _, _, -, -, hr⟩
    unfold mgsQrProgramWith at hr
    simp only [except_bind_eq_ok, assertM_eq_ok, decide_eq_true_eq] at hr
    obtain ⟨_, h1, hr⟩ := hr
    by_cases hb : b = 0
    · rw [if_pos hb] at hr
      cases hr
    rw [if_neg hb] at hr
    simp only [except_bind_eq_ok, assertM_eq_ok, decide_eq_true_eq] at hr
    obtain ⟨_, h2, _, h3, -⟩ := hr
    have := Nat.dvd_of_mod_eq_zero h2
    have := Nat.dvd_of_mod_eq_zero h3
    rcases h with h | h | h | h
    · omega
    · exact hb h
    · exact h ‹_›
    · exact h ‹_›

/-- **C58**: without rounding the three Householder programs print the compression error as
residual and a perfectly orthogonal `Q`, for every schedule. -/
theorem C58_householder_exact (hK : QrContract kn) {body : Job → List (Step Cell (Mat R))}
    {bodyN bodyT : QJob → List (Step Cell (Mat R))} {bB bBN bBT : Nat → BJob → List (Step Cell (Mat R))} {tr : Bool}
    (hb : RunsKernels kn o fuel body) (hn : RunsQKernels o fuel false bodyN) (ht : RunsQKernels o fuel true bodyT)
    (hB : RunsBKernels kn o fuel p tr (bB p)) (hBN : RunsBKernels kn o fuel p false (bBN p))
    (hBT : RunsBKernels kn o fuel p true (bBT p))
    (h : BlrQrInput Q f k kid o compress p q b a) (hx : NoRounding o compress p b a) (hfu : 5 ≤ fuel) :
    ∃ A, hierOfKernel fuel k compress (p * b) (q * b) b (Admis.position a : Admis K) p q 0 0 = .ok A ∧
    ∀ r, (householderPrints (K := K) (taskParts body bodyN bodyT) (tiledT b) fuel k kid compressD compress o
          (p * b) (q * b) b a r ∨
        householderPrints (K := K) (forkParts body bodyN bodyT) (tiledT b) fuel k kid compressD compress o
          (p * b) (q * b) b a r ∨
        householderPrints (K := K) (blockedParts bB bBN bBT) (fun _ _ => .empty 0 0) fuel k kid compressD compress o
          (p * b) (q * b) b a r) → BlrQrReport f A compress p q b a r := by
  obtain ⟨r1, A, h1, hA, R1⟩ := C54_tiled_program_exact (K := K) (compressD := compressD) hK h hx hfu
  obtain ⟨r2, A', h2, hA', R2⟩ := C54_blocked_program_exact (K := K) (compressD := compressD) hK h hx hfu
  rw [hA] at hA'
  cases hA'
  obtain ⟨t, ht1, ht2⟩ := C58_task_tiled (K := K) (compressD := compressD) hb hn ht h hfu
  obtain ⟨u, hu1, hu2⟩ := C58_fork_tiled (K := K) (compressD := compressD) hb hn ht h hfu
  obtain ⟨v, hv1, hv2⟩ := C58_fork_blocked (K := K) (compressD := compressD) hK hB hBN hBT h hfu
  rw [h1] at ht1 hu1
  rw [h2] at hv1
  cases ht1
  cases hu1
  cases hv1
  refine ⟨A, hA, fun r hr => ?_⟩
  rcases hr with hr | hr | hr
  · rw [(ht2 r).1 hr]
    exact R1
  · rw [(hu2 r).1 hr]
    exact R1
  · rw [(hv2 r).1 hr]
    exact R2

end

section
variable [Field R] [DecidableEq R] [Inhabited R] {o : LrOps R} {Q : LowRank R → Prop} {L : Lapack R}
variable {k kz kid : KernelFn R} {f : Int → Int → R} {compressD compress : Dense R → Except Err (LowRank R)}
  {fuel p q b : Nat} {a : Int}

/-- **C58**: without rounding the fork-join Gram-Schmidt program prints the compression error as
residual, and a perfectly orthogonal `Q` if the columns of the compressed matrix are linearly
independent, for every schedule.  Since the program adds to `R`, the compression must keep
zeros (`StartsFrom 1`). -/
theorem C58_mgs_exact (hL : L.Qr) (hLo : L.QrOrtho) {body : Nat → MJob → List (Step Cell (Mat R))}
    (hb : RunsMKernels L o fuel p (body p)) (h : MgsQrInput Q f k kz kid o compress p q b a)
    (hx : NoRoundingMgs o compress p b a) (hz : StartsFrom 1 compress p b a) (hfu : 5 ≤ fuel) :
    ∃ r0 A, hierOfKernel fuel k compress (p * b) (q * b) b (Admis.position a : Admis K) p q 0 0 = .ok A ∧
      (∀ r, mgsPrints (K := K) (fun p q => Runs (body p) (mgsStages p q)) fuel k kz kid compressD compress o
        (p * b) (q * b) b a r ↔ r = r0) ∧ MgsQrReport f A compress p q b a r0 := by
  obtain ⟨r0, A, h0, hA, P⟩ := mgsQr_exact (K := K) (compressD := compressD) hL hLo h hx hfu fuel hz
  exact ⟨r0, A, hA, mgsPrints_iff hb h hfu h0, P⟩

end

/-! ### the programs as shipped, in real arithmetic -/

section
variable {L : Lapack ℝ} {kn : QrKernels ℝ}

/-- The kernel of the programs, for `m` rows. -/
noncomputable abbrev gridKernel (m : Nat) : KernelFn ℝ :=
  Builtin.laplacend.kernel [equallySpacedVector m 0 1, equallySpacedVector m 0 1]

/-- **C58**: the four programs as shipped, for every tile size, every number of tiles, every
tolerance other than zero and every `admis`: each prints something, and the same for every
schedule; the Householder programs print what the sequential programs print. -/
theorem C58_library (hK : QrContract kn) (hL : L.Ranks) {mode : LraMode} (hm : mode ≠ .naive) {fuel p q b : Nat}
    (hb : 1 ≤ b) (hq : 1 ≤ q) (hp : q ≤ p) {eps : ℝ} (he : eps ≠ 0) {a : Int} (ha : 0 ≤ a) (hfu : 5 ≤ fuel)
    {body : Job → List (Step Cell (Mat ℝ))} {bodyN bodyT : QJob → List (Step Cell (Mat ℝ))}
    {bB bBN bBT : Nat → BJob → List (Step Cell (Mat ℝ))} {tr : Bool} {bM : Nat → MJob → List (Step Cell (Mat ℝ))}
    (h1 : RunsKernels kn (L.ops mode fuel) fuel body) (h2 : RunsQKernels (L.ops mode fuel) fuel false bodyN)
    (h3 : RunsQKernels (L.ops mode fuel) fuel true bodyT)
    (h4 : RunsBKernels kn (L.ops mode fuel) fuel p tr (bB p)) (h5 : RunsBKernels kn (L.ops mode fuel) fuel p false (bBN p))
    (h6 : RunsBKernels kn (L.ops mode fuel) fuel p true (bBT p)) (h7 : RunsMKernels L (L.ops mode fuel) fuel p (bM p)) :
    ∃ rT rB rM, tiledQrProgram (K := ℝ) fuel (gridKernel (p * b)) (Builtin.identity.kernel []) (fun d => L.ofRank d b)
        (fun d => L.ofEps d eps) kn (L.ops mode fuel) (p * b) (q * b) b a = .ok rT ∧
      blockedQrProgram (K := ℝ) fuel (gridKernel (p * b)) (Builtin.identity.kernel []) (fun d => L.ofRank d b)
        (fun d => L.ofEps d eps) kn (L.ops mode fuel) (p * b) (q * b) b a = .ok rB ∧
      ∀ r,
        (householderPrints (K := ℝ) (taskParts body bodyN bodyT) (tiledT b) fuel (gridKernel (p * b))
          (Builtin.identity.kernel []) (fun d => L.ofRank d b) (fun d => L.ofEps d eps) (L.ops mode fuel)
          (p * b) (q * b) b a r ↔ r = rT) ∧
        (householderPrints (K := ℝ) (forkParts body bodyN bodyT) (tiledT b) fuel (gridKernel (p * b))
          (Builtin.identity.kernel []) (fun d => L.ofRank d b) (fun d => L.ofEps d eps) (L.ops mode fuel)
          (p * b) (q * b) b a r ↔ r = rT) ∧
        (householderPrints (K := ℝ) (blockedParts bB bBN bBT) (fun _ _ => .empty 0 0) fuel (gridKernel (p * b))
          (Builtin.identity.kernel []) (fun d => L.ofRank d b) (fun d => L.ofEps d eps) (L.ops mode fuel)
          (p * b) (q * b) b a r ↔ r = rB) ∧
        (mgsPrints (K := ℝ) (fun p q => Runs (bM p) (mgsStages p q)) fuel (gridKernel (p * b))
          (Builtin.zeros.kernel []) (Builtin.identity.kernel []) (fun d => L.ofRank d b) (fun d => L.ofEps d eps)
          (L.ops mode fuel) (p * b) (q * b) b a r ↔ r = rM) := by
  have h : BlrQrInput LowRank.WithTolerance (gridLaplace (p * b)) (gridKernel (p * b))
      (Builtin.identity.kernel []) (L.ops mode fuel) (fun d => L.ofEps d eps) p q b a :=
    ⟨C10_computes_entries _ _, laplace_returns (Nat.mul_le_mul_right b hp), identity_computes,
      identity_returns _ _, L.ops_fits mode fuel, Lapack.ops_total_false hL hm fuel, shapeOnly_tolerance,
      Or.inl (ofEps_blr hL he hb), hb, hq, hp, ha⟩
  obtain ⟨t, ht1, ht2⟩ := C58_task_tiled (K := ℝ) (compressD := fun d => L.ofRank d b) h1 h2 h3 h hfu
  obtain ⟨u, hu1, hu2⟩ := C58_fork_tiled (K := ℝ) (compressD := fun d => L.ofRank d b) h1 h2 h3 h hfu
  obtain ⟨v, hv1, hv2⟩ := C58_fork_blocked (K := ℝ) (compressD := fun d => L.ofRank d b) hK h4 h5 h6 h hfu
  obtain ⟨w, hw⟩ := C58_fork_mgs (K := ℝ) (compressD := fun d => L.ofRank d b) h7
    ⟨h, zeros_computes, zeros_returns _ _⟩ hfu
  rw [ht1] at hu1
  cases hu1
  exact ⟨t, v, w, ht1, hv1, fun r => ⟨ht2 r, hu2 r, hv2 r, hw r⟩⟩

end

/-! ### the hypotheses can be met -/

section Examples

/-- The default arguments: `m = 256`, `n = 128`, `b = 32`, `admis = 0`, tolerance 1e-6; every
task in one step. -/
example : ∃ (L : Lapack ℝ) (kn : QrKernels ℝ) (rT rM : BlrQrRun ℝ), ∀ r,
    (householderPrints (K := ℝ) (taskParts (fun x => [x.step kn (L.ops .rounded 5) 5])
      (fun x => [x.step (L.ops .rounded 5) 5 false]) (fun x => [x.step (L.ops .rounded 5) 5 true])) (tiledT 32) 5
      (gridKernel 256) (Builtin.identity.kernel []) (fun d => L.ofRank d 32) (fun d => L.ofEps d (1 / 10 ^ 6))
      (L.ops .rounded 5) 256 128 32 0 r ↔ r = rT) ∧
    (mgsPrints (K := ℝ) (fun p q => Runs (fun x : MJob => [x.step L (L.ops .rounded 5) 5 p]) (mgsStages p q)) 5
      (gridKernel 256) (Builtin.zeros.kernel []) (Builtin.identity.kernel []) (fun d => L.ofRank d 32)
      (fun d => L.ofEps d (1 / 10 ^ 6)) (L.ops .rounded 5) 256 128 32 0 r ↔ r = rM) := by
  obtain ⟨kn, hK⟩ := QrKernels.exists_contract
  have hL : Lapack.Ranks (R := ℝ) { plainLapack ℝ with geqp3 := fun A e =>
      (max 1 ((plainLapack ℝ).geqp3 A e).1, ((plainLapack ℝ).geqp3 A e).2) } :=
    ⟨fun _ _ h => ⟨h, le_rfl⟩, fun _ _ => le_max_left _ _⟩
  obtain ⟨rT, rB, rM, -, -, h⟩ := C58_library hK hL (mode := .rounded) (by simp) (fuel := 5) (p := 8) (q := 4) (b := 32)
    (by omega) (by omega) (by omega) (eps := 1 / 10 ^ 6) (by norm_num) (le_refl 0) (le_refl 5)
    (bB := fun p x => [x.step kn _ 5 p true]) (bBN := fun p x => [x.step kn _ 5 p false])
    (bBT := fun p x => [x.step kn _ 5 p true]) (bM := fun p x => [x.step _ _ 5 p]) (tr := true)
    runsKernels_atomic (runsQKernels_atomic false) (runsQKernels_atomic true) (runsBKernels_atomic true)
    (runsBKernels_atomic false) (runsBKernels_atomic true) runsMKernels_atomic
  exact ⟨_, kn, rT, rM, fun r => ⟨(h r).1, (h r).2.2.2⟩⟩

/-- A compressed matrix without rounding, as for C54 and C55: 3-by-2 tiles of order 4. -/
example (g : Int → Int → ℝ) : ∃ (L : Lapack ℝ) (kn : QrKernels ℝ) (A : Mat ℝ) (r0 r1 : BlrQrRun ℝ),
    (∀ r, mgsPrints (K := ℝ) (fun p q => Runs (fun x : MJob => [x.step L (orthOps ℝ) 5 p]) (mgsStages p q)) 5
      (indexKernel g) (Builtin.zeros.kernel []) (Builtin.identity.kernel []) (fun d => .ok (keepRight d))
      (fun d => .ok (keepRight d)) (orthOps ℝ) 12 8 4 0 r ↔ r = r0) ∧
    MgsQrReport g A (fun d => .ok (keepRight d)) 3 2 4 0 r0 ∧
    householderPrints (K := ℝ) (blockedParts (fun p x => [x.step kn (orthOps ℝ) 5 p true])
      (fun p x => [x.step kn (orthOps ℝ) 5 p false]) (fun p x => [x.step kn (orthOps ℝ) 5 p true])) (fun _ _ => .empty 0 0) 5
      (indexKernel g) (Builtin.identity.kernel []) (fun d => .ok (keepRight d)) (fun d => .ok (keepRight d)) (orthOps ℝ)
      12 8 4 0 r1 ∧ BlrQrReport g A (fun d => .ok (keepRight d)) 3 2 4 0 r1 := by
  obtain ⟨kn, hK⟩ := QrKernels.exists_contract
  obtain ⟨L, h1, h2⟩ := Lapack.exists_qr
  have z0 : ∀ d : Dense ℝ, ∀ l, Except.ok (keepRight d) = (Except.ok l : Except Err (LowRank ℝ)) →
      l.LeftOrth ∧ ((∀ r < d.rows, ∀ s < d.cols, d.val r s = 0) → ∀ r < d.rows, ∀ s < d.cols, l.entry r s = 0) := by
    intro d l hl
    cases Except.ok.inj hl
    exact ⟨keepRight_leftOrth d, fun h r hr s hs => (keepRight_entry d hr s).trans (h r hr s hs)⟩
  have hx : NoRounding (orthOps ℝ) (fun d => .ok (keepRight d)) 3 4 0 := Or.inl ⟨orthOps_exact, orthOps_leftOrth, z0⟩
  obtain ⟨r0, A, hA, hr, P⟩ := C58_mgs_exact (K := ℝ) (compressD := fun d => .ok (keepRight d)) h1 h2
    (body := fun p x => [x.step L (orthOps ℝ) 5 p]) runsMKernels_atomic
    ⟨orth_input g, zeros_computes, zeros_returns _ _⟩ (Or.inl ⟨orthOps_exact, orthOps_results, fun d l hl => (z0 d l hl).1⟩)
    (Or.inr (Or.inl fun d l hd hl => (z0 d l hl).2 hd)) (le_refl 5)
  obtain ⟨A', hA', hh⟩ := C58_householder_exact (K := ℝ) (compressD := fun d => .ok (keepRight d)) hK
    (bB := fun p x => [x.step kn (orthOps ℝ) 5 p true]) (bBN := fun p x => [x.step kn (orthOps ℝ) 5 p false])
    (bBT := fun p x => [x.step kn (orthOps ℝ) 5 p true])
    runsKernels_atomic (runsQKernels_atomic false) (runsQKernels_atomic true) (runsBKernels_atomic true)
    (runsBKernels_atomic false) (runsBKernels_atomic true) (orth_input g) hx (le_refl 5)
  rw [hA] at hA'
  cases hA'
  obtain ⟨r1, -, hr1⟩ := C58_fork_blocked (K := ℝ) (compressD := fun d => .ok (keepRight d)) hK
    (body := fun p x => [x.step kn (orthOps ℝ) 5 p true]) (bodyN := fun p x => [x.step kn (orthOps ℝ) 5 p false])
    (bodyT := fun p x => [x.step kn (orthOps ℝ) 5 p true]) (runsBKernels_atomic true)
    (runsBKernels_atomic false) (runsBKernels_atomic true) (orth_input g) (le_refl 5)
  have p1 := (hr1 r1).2 rfl
  exact ⟨L, kn, A, r0, r1, hr, P, p1, hh r1 (Or.inr (Or.inr p1))⟩

end Examples

end Verif
