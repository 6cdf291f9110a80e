import Verif.Lemmas.FloatParQr
import Verif.Props.FloatQr
import Verif.Props.ParProgram
import Verif.Props.FloatBlrQr

/-!
C82: the parallel tiled QR programs in floating-point arithmetic.
-/

namespace Verif
open ParQr Omp Finset

section
variable {R : Type} {t : TileOps R} {p q : Nat}

/-- The tasks of the factorization execute the four kernels, in any number of steps, within
their blocks. -/
def RunsTiles (t : TileOps R) (body : Job → List (Step Cell (Mat R))) : Prop :=
  Within body Job.reads Job.writes ∧ ∀ x s, exec (body x) s = Job.actOf t s x

/-- The same for the tasks that multiply with the reflectors. -/
def RunsQTiles (t : TileOps R) (trans : Bool) (body : QJob → List (Step Cell (Mat R))) : Prop :=
  Within body QJob.reads QJob.writes ∧ ∀ x s, exec (body x) s = QJob.actOf t trans s x

/-- The three parallel phases of a program, one after the other: factorization, from memory `s`
to `s1`; multiplication of the reflectors with the blocks `C`, to `s3`; multiplication of the
transposed reflectors with the result, to `s4`.  Each phase is an execution of the tasks of
taskbased_tiled_householder_blr_qr.cpp, or of the parallel loops of
forkjoin_tiled_householder_blr_qr.cpp. -/
structure ParallelRun (p q : Nat) (body : Job → List (Step Cell (Mat R)))
    (bodyN bodyT : QJob → List (Step Cell (Mat R))) (C : Nat → Nat → Mat R) (s s1 s3 s4 : Cell → Mat R) : Prop where
  factor : (taskQr p q body).Ends s s1 ∨ Runs body (tiledStages p q) s s1
  build : (taskBuildQ p q bodyN).Ends (storeQ s1 C) s3 ∨ Runs bodyN (buildStages p q) (storeQ s1 C) s3
  apply : (taskApplyQ p q bodyT).Ends s3 s4 ∨ Runs bodyT (applyStages p q) s3 s4

/-- C82.  Whatever numbers the four kernels compute, rounded or not, as long as `larfb` and `tpqrt`
keep to their halves of the diagonal tile: every execution of the task-parallel and of the
fork-join program leaves in memory exactly the results of the sequential functions with the same
kernels. -/
theorem C82_as_sequential (hl : t.Local) (hpq : q ≤ p) {body : Job → List (Step Cell (Mat R))}
    {bodyN bodyT : QJob → List (Step Cell (Mat R))} (hb : RunsTiles t body) (hn : RunsQTiles t false bodyN)
    (ht : RunsQTiles t true bodyT) {s s1 s3 s4 : Cell → Mat R} {A T A' T' C C' C'' : Nat → Nat → Mat R} {m n : Nat}
    (hs : InMemory s A T) (hr : t.tiledQr p q A p q T = .ok (A', T'))
    (hc : t.leftMulTiled p q A' p q T' m n C false = .ok C')
    (hd : t.leftMulTiled p q A' p q T' m n C' true = .ok C'')
    (run : ParallelRun p q body bodyN bodyT C s s1 s3 s4) :
    (∀ i j, tile s1 i j = A' i j ∧ s1 (.t i j) = T' i j) ∧
      (∀ i j, s3 (.q i j) = C' i j ∧ tile s3 i j = A' i j ∧ s3 (.t i j) = T' i j) ∧
      ∀ i j, s4 (.q i j) = C'' i j := by
  have seq : ∀ l s, sequential l body s = runJobsOf t l s := by
    intro l s
    unfold Omp.sequential runJobsOf
    simp only [hb.2]
  have seqN : ∀ l s, sequential l bodyN s = runQJobsOf t false l s := by
    intro l s
    unfold Omp.sequential runQJobsOf
    simp only [hn.2]
  have seqT : ∀ l s, sequential l bodyT s = runQJobsOf t true l s := by
    intro l s
    unfold Omp.sequential runQJobsOf
    simp only [ht.2]
  have e1 : s1 = sequential (tiledJobs p q) body s := by
    rcases run.factor with h | h
    · exact Region.deterministic (P := taskQr p q body) (tiledJobs_nodup p q) (taskQr_covered hpq hb.1) s s1 h
    · rw [← tiledStages_flatten]
      exact runs_sequential hb.1 (tiledStages_apart p q) h
  have e3 : s3 = sequential (buildJobs p q) bodyN (storeQ s1 C) := by
    rcases run.build with h | h
    · exact Region.deterministic (P := taskBuildQ p q bodyN) (buildJobs_nodup p q) (taskBuildQ_covered hn.1) _ s3 h
    · rw [← buildStages_flatten]
      exact runs_sequential hn.1 (buildStages_apart p q) h
  have e4 : s4 = sequential (applyJobs p q) bodyT s3 := by
    rcases run.apply with h | h
    · exact Region.deterministic (P := taskApplyQ p q bodyT) (applyJobs_nodup p q) (taskApplyQ_covered hpq ht.1) s3 s4 h
    · rw [← applyStages_flatten]
      exact runs_sequential ht.1 (applyStages_apart p q) h
  have g1 := tiledQrOf_holds hl hs.holds hr
  rw [← seq, ← e1] at g1
  have g2 : HoldsQ A' T' (storeQ s1 C) C := ⟨fun i j => g1 i j, fun _ _ => rfl⟩
  have g3 := leftMulTiledOf_holds hl g2 hc
  simp only [Bool.false_eq_true, if_false] at g3
  rw [← seqN, ← e3] at g3
  have g4 := leftMulTiledOf_holds hl g3 hd
  simp only [if_true] at g4
  rw [← seqT, ← e4] at g4
  exact ⟨fun i j => ⟨g1.tile i j, (g1 i j).2⟩, fun i j => ⟨g3.2 i j, g3.1.tile i j, (g3.1 i j).2⟩, g4.2⟩

/-- C82: the result does not depend on the schedule, nor on whether the tasks or the parallel
loops are used, bit by bit; the kernels may round in any way and may fail. -/
theorem C82_reproducible (hpq : q ≤ p) {body : Job → List (Step Cell (Mat R))}
    {bodyN bodyT : QJob → List (Step Cell (Mat R))} (hb : RunsTiles t body) (hn : RunsQTiles t false bodyN)
    (ht : RunsQTiles t true bodyT) {C : Nat → Nat → Mat R} {s s1 s3 s4 s1' s3' s4' : Cell → Mat R}
    (run : ParallelRun p q body bodyN bodyT C s s1 s3 s4) (run' : ParallelRun p q body bodyN bodyT C s s1' s3' s4') :
    s1 = s1' ∧ s3 = s3' ∧ s4 = s4' := by
  have one : ∀ {s s1 s3 s4}, ParallelRun p q body bodyN bodyT C s s1 s3 s4 →
      s1 = sequential (tiledJobs p q) body s ∧ s3 = sequential (buildJobs p q) bodyN (storeQ s1 C) ∧
      s4 = sequential (applyJobs p q) bodyT s3 := by
    intro s s1 s3 s4 run
    refine ⟨?_, ?_, ?_⟩
    · rcases run.factor with h | h
      · exact Region.deterministic (P := taskQr p q body) (tiledJobs_nodup p q) (taskQr_covered hpq hb.1) s s1 h
      · rw [← tiledStages_flatten]
        exact runs_sequential hb.1 (tiledStages_apart p q) h
    · rcases run.build with h | h
      · exact Region.deterministic (P := taskBuildQ p q bodyN) (buildJobs_nodup p q) (taskBuildQ_covered hn.1) _ s3 h
      · rw [← buildStages_flatten]
        exact runs_sequential hn.1 (buildStages_apart p q) h
    · rcases run.apply with h | h
      · exact Region.deterministic (P := taskApplyQ p q bodyT) (applyJobs_nodup p q) (taskApplyQ_covered hpq ht.1) s3
          s4 h
      · rw [← applyStages_flatten]
        exact runs_sequential ht.1 (applyStages_apart p q) h
  obtain ⟨a, b, c⟩ := one run
  obtain ⟨a', b', c'⟩ := one run'
  subst a a'
  subst b b'
  exact ⟨rfl, rfl, c.trans c'.symm⟩

/-- Executing each kernel in one step is one way to run the tasks. -/
theorem runsTiles_atomic : RunsTiles t (fun x => [x.stepOf t]) := by
  refine ⟨fun x σ hσ => ?_, fun x s => rfl⟩
  rw [List.mem_singleton] at hσ
  subst hσ
  exact ⟨subset_rfl, subset_rfl⟩

theorem runsQTiles_atomic (trans : Bool) : RunsQTiles t trans (fun x => [x.stepOf t trans]) := by
  refine ⟨fun x σ hσ => ?_, fun x s => rfl⟩
  rw [List.mem_singleton] at hσ
  subst hσ
  exact ⟨subset_rfl, subset_rfl⟩

/-- C82: whatever the kernels compute, tasks that call them are confined to the blocks listed for them, so
that there are tasks as assumed in the other theorems, for example tasks of one step. -/
theorem C82_footprints : (∀ x : Job, Confined x.reads x.writes fun s => x.actOf t s) ∧
    (∀ (trans : Bool) (x : QJob), Confined x.reads x.writes fun s => x.actOf t trans s) ∧
    (∃ body, RunsTiles t body) ∧ ∀ trans, ∃ body, RunsQTiles t trans body := by
  refine ⟨fun x => ⟨(x.stepOf t).frame, (x.stepOf t).dep⟩,
    fun trans x => ⟨(x.stepOf t trans).frame, (x.stepOf t trans).dep⟩, ⟨_, runsTiles_atomic⟩,
    fun trans => ⟨_, runsQTiles_atomic trans⟩⟩

/-- C82: the programs do not get stuck, whichever of the two forms each phase has. -/
theorem C82_completes (p q : Nat) (body : Job → List (Step Cell (Mat R)))
    (bodyN bodyT : QJob → List (Step Cell (Mat R))) (C : Nat → Nat → Mat R) (s : Cell → Mat R) (tasks : Bool) :
    ∃ s1 s3 s4, ParallelRun p q body bodyN bodyT C s s1 s3 s4 ∧
      (if tasks then (taskQr p q body).Ends s s1 else Runs body (tiledStages p q) s s1) := by
  obtain ⟨c1, s1, e1, f1⟩ := (C36_completes (p := p) (q := q) (body := body) (bodyQ := bodyN)).1.2 s (fun _ => 0) s .refl
  obtain ⟨r1, g1⟩ := runs_exists (body := body) (tiledStages_apart p q) s
  cases tasks with
  | true =>
    obtain ⟨c3, s3, e3, f3⟩ := (C36_completes (p := p) (q := q) (body := body) (bodyQ := bodyN)).2.1.2
      (storeQ s1 C) (fun _ => 0) _ .refl
    obtain ⟨c4, s4, e4, f4⟩ := (C36_completes (p := p) (q := q) (body := body) (bodyQ := bodyT)).2.2.2
      s3 (fun _ => 0) _ .refl
    exact ⟨s1, s3, s4, ⟨Or.inl ⟨c1, e1, f1⟩, Or.inl ⟨c3, e3, f3⟩, Or.inl ⟨c4, e4, f4⟩⟩, ⟨c1, e1, f1⟩⟩
  | false =>
    obtain ⟨r3, g3⟩ := runs_exists (body := bodyN) (buildStages_apart p q) (storeQ r1 C)
    obtain ⟨r4, g4⟩ := runs_exists (body := bodyT) (applyStages_apart p q) r3
    exact ⟨r1, r3, r4, ⟨Or.inr g1, Or.inr g3, Or.inr g4⟩, g1⟩

/-- The parallel parts compute what the sequential functions with the same kernels compute. -/
theorem flTaskParts_compute (hl : t.Local) (hpq : q ≤ p) {body : Job → List (Step Cell (Mat R))}
    {bodyN bodyT : QJob → List (Step Cell (Mat R))} (hb : RunsTiles t body) (hn : RunsQTiles t false bodyN)
    (ht : RunsQTiles t true bodyT) (T0 : Nat → Nat → Mat R) :
    PartsCompute (taskParts body bodyN bodyT) (fun p q A => t.tiledQr p q A p q T0)
      (fun p q Y T C trans => t.leftMulTiled p q Y p q T p q C trans) T0 p q := by
  intro A C Y T Q Z s hr hc hd hs
  refine ⟨?_, fun s1 s2 s3 h1 h2 h3 => ?_⟩
  · obtain ⟨⟨-, c1⟩, ⟨-, c2⟩, -⟩ := C36_completes (p := p) (q := q) (body := body) (bodyQ := bodyN)
    obtain ⟨-, -, -, c3⟩ := C36_completes (p := p) (q := q) (body := body) (bodyQ := bodyT)
    obtain ⟨_, s1, e1, f1⟩ := c1 s (fun _ => 0) s .refl
    obtain ⟨_, s2, e2, f2⟩ := c2 (storeQ s1 C) (fun _ => 0) _ .refl
    obtain ⟨_, s3, e3, f3⟩ := c3 s2 (fun _ => 0) _ .refl
    exact ⟨s1, s2, s3, ⟨_, e1, f1⟩, ⟨_, e2, f2⟩, ⟨_, e3, f3⟩⟩
  · obtain ⟨-, k2, k3⟩ := C82_as_sequential hl hpq hb hn ht hs hr hc hd ⟨Or.inl h1, Or.inl h2, Or.inl h3⟩
    exact ⟨by funext i j; exact (k2 i j).2.1, by funext i j; exact (k2 i j).2.2, by funext i j; exact (k2 i j).1,
      by funext i j; exact k3 i j⟩

theorem flForkParts_compute (hl : t.Local) (hpq : q ≤ p) {body : Job → List (Step Cell (Mat R))}
    {bodyN bodyT : QJob → List (Step Cell (Mat R))} (hb : RunsTiles t body) (hn : RunsQTiles t false bodyN)
    (ht : RunsQTiles t true bodyT) (T0 : Nat → Nat → Mat R) :
    PartsCompute (forkParts body bodyN bodyT) (fun p q A => t.tiledQr p q A p q T0)
      (fun p q Y T C trans => t.leftMulTiled p q Y p q T p q C trans) T0 p q := by
  intro A C Y T Q Z s hr hc hd hs
  refine ⟨?_, fun s1 s2 s3 h1 h2 h3 => ?_⟩
  · obtain ⟨s1, f1⟩ := runs_exists (body := body) (tiledStages_apart p q) s
    obtain ⟨s2, f2⟩ := runs_exists (body := bodyN) (buildStages_apart p q) (storeQ s1 C)
    obtain ⟨s3, f3⟩ := runs_exists (body := bodyT) (applyStages_apart p q) s2
    exact ⟨s1, s2, s3, f1, f2, f3⟩
  · obtain ⟨-, k2, k3⟩ := C82_as_sequential hl hpq hb hn ht hs hr hc hd ⟨Or.inr h1, Or.inr h2, Or.inr h3⟩
    exact ⟨by funext i j; exact (k2 i j).2.1, by funext i j; exact (k2 i j).2.2, by funext i j; exact (k2 i j).1,
      by funext i j; exact k3 i j⟩

end

section
variable {F : FlQr} {nb : Nat} {ε : ℝ} {p q : Nat} {h w : Nat → Nat}

/-- C82, rounding errors: every execution of the parallel programs on dense tiles, with kernels in
floating-point arithmetic that meet the bounds of C79 and with the identity as second operand,
leaves factors `Q`, `R` in memory with `‖A - Q R‖ ≤ (g + g (1+g) √N) ‖A‖`, `g = (1+ε)^c - 1`, a
product of the transposed reflectors with `Q` within `((1+ε)^(2c) - 1) √N` of the identity, and the
columns of `Q` are orthonormal up to `2 g √N + g^2 N`. -/
theorem C82_errors (hF : F.Sound nb ε) (hε : 0 ≤ ε) (hqp : q ≤ p) (hnb : ∀ i < p, h i ≤ nb)
    (hsq : ∀ k < q, h k = w k) {A T C : Nat → Nat → Mat ℝ} (hA : DenseTiles p q h w A)
    (hT : TriangleTiles p q w T) (hC : DenseTiles p q h w C)
    (hI : ∀ i < psum h p, ∀ j < psum w q, (Mat.hier p q C).entry i j = if i = j then 1 else 0)
    {body : Job → List (Step Cell (Mat ℝ))} {bodyN bodyT : QJob → List (Step Cell (Mat ℝ))}
    (hb : RunsTiles F.tiles body) (hn : RunsQTiles F.tiles false bodyN) (ht : RunsQTiles F.tiles true bodyT)
    {s s1 s3 s4 : Cell → Mat ℝ} (hs : InMemory s A T) (run : ParallelRun p q body bodyN bodyT C s s1 s3 s4) :
    ∃ R, (Mat.hier p q (tile s1)).zeroLower = .ok (.hier p q R) ∧
      (let g := (1 + ε) ^ tileCount p q - 1
       frob (psum h p) (psum w q) (fun i j => (Mat.hier p q A).entry i j -
          ∑ l ∈ range (psum w q), (Mat.hier p q (fun i j => s3 (.q i j))).entry i l * (Mat.hier p q R).entry l j) ≤
        (g + g * (1 + g) * √(psum w q)) * frob (psum h p) (psum w q) (Mat.hier p q A).entry) ∧
      frob (psum h p) (psum w q) (fun i j => (Mat.hier p q (fun i j => s4 (.q i j))).entry i j -
          if i = j then 1 else 0) ≤
        ((1 + ε) ^ (2 * tileCount p q) - 1) * √(psum w q) ∧
      (let g := (1 + ε) ^ tileCount p q - 1
       frob (psum w q) (psum w q) (fun i j => ∑ l ∈ range (psum h p),
          (Mat.hier p q (fun i j => s3 (.q i j))).entry l i * (Mat.hier p q (fun i j => s3 (.q i j))).entry l j -
            if i = j then 1 else 0) ≤
        2 * (g * √(psum w q)) + (g * √(psum w q)) ^ 2) := by
  obtain ⟨Y, T', R, h1, h2, h3⟩ := C79_residual hF hε hqp hnb hsq hA hT
  obtain ⟨Q, E, h4, h5, h6, h7⟩ := h3 C hC hI
  obtain ⟨k1, k3, k4⟩ := C82_as_sequential F.local_tiles hqp hb hn ht hs h1 h4 h5 run
  have e1 : tile s1 = Y := by funext i j; exact (k1 i j).1
  have e3 : (fun i j => s3 (.q i j)) = Q := by funext i j; exact (k3 i j).1
  have e4 : (fun i j => s4 (.q i j)) = E := by funext i j; exact k4 i j
  obtain ⟨Y', T'', Q', g1, g2, g3⟩ := C79_orthogonality hF hε hqp hnb hsq hA hT hC hI
  rw [h1] at g1
  injection g1 with g1
  injection g1 with y1 y2
  subst y1 y2
  rw [h4] at g2
  injection g2 with g2
  subst g2
  rw [e1, e3, e4]
  exact ⟨R, h2, h6, h7, g3⟩

/-- The hypotheses hold together for 3-by-2 tiles with kernels that err by `10^(-6)`; there are
executions of both forms. -/
example (tasks : Bool) : ∃ (F : FlQr) (s s1 s3 s4 : Cell → Mat ℝ), F.Sound 3 (1 / 10 ^ 6) ∧
    InMemory s (fun i j => .dense ⟨if i = 1 then 3 else 2, if j = 1 then 3 else 2,
      fun r s => 1 / ((i + 2 * j + r + 3 * s : Nat) + 1)⟩)
      (fun _ j => .dense ⟨if j = 1 then 3 else 2, if j = 1 then 3 else 2, fun _ _ => 0⟩) ∧
    ParallelRun 3 2 (fun x => [x.stepOf F.tiles]) (fun x => [x.stepOf F.tiles false]) (fun x => [x.stepOf F.tiles true])
      (fun i j => .dense ⟨if i = 1 then 3 else 2, if j = 1 then 3 else 2, fun r s => if i = j ∧ r = s then 1 else 0⟩)
      s s1 s3 s4 ∧
    (if tasks then (taskQr 3 2 fun x => [x.stepOf F.tiles]).Ends s s1
      else Runs (fun x : Job => [x.stepOf F.tiles]) (tiledStages 3 2) s s1) ∧
    ∃ R, (Mat.hier 3 2 (tile s1)).zeroLower = .ok (.hier 3 2 R) := by
  obtain ⟨F, hF, -⟩ := C79_kernels_exist (ε := 1 / 10 ^ 6) (by norm_num)
  let s : Cell → Mat ℝ
    | .a i j _ => .dense ⟨if i = 1 then 3 else 2, if j = 1 then 3 else 2,
      fun r s => 1 / ((i + 2 * j + r + 3 * s : Nat) + 1)⟩
    | .t _ j => .dense ⟨if j = 1 then 3 else 2, if j = 1 then 3 else 2, fun _ _ => 0⟩
    | _ => .empty 0 0
  obtain ⟨s1, s3, s4, run, e⟩ := C82_completes 3 2 (fun x => [x.stepOf F.tiles]) (fun x => [x.stepOf F.tiles false])
    (fun x => [x.stepOf F.tiles true]) (fun i j => .dense ⟨if i = 1 then 3 else 2, if j = 1 then 3 else 2,
      fun r s => if i = j ∧ r = s then 1 else 0⟩) s tasks
  have hs : InMemory s (fun i j => .dense ⟨if i = 1 then 3 else 2, if j = 1 then 3 else 2,
      fun r s => 1 / ((i + 2 * j + r + 3 * s : Nat) + 1)⟩)
      (fun _ j => .dense ⟨if j = 1 then 3 else 2, if j = 1 then 3 else 2, fun _ _ => 0⟩) :=
    fun i j => ⟨fun _ => rfl, rfl⟩
  have hC : DenseTiles 3 2 (fun i => if i = 1 then 3 else 2) (fun j => if j = 1 then 3 else 2)
      (fun i j => .dense ⟨if i = 1 then 3 else 2, if j = 1 then 3 else 2, fun r s => if i = j ∧ r = s then 1 else 0⟩) :=
    fun i _ j _ => ⟨_, rfl, rfl, rfl⟩
  obtain ⟨R, hR, -⟩ := C82_errors (p := 3) (q := 2) (h := fun i => if i = 1 then 3 else 2)
    (w := fun j => if j = 1 then 3 else 2) (hF 3) (by norm_num) (by norm_num) (fun i _ => by split <;> omega)
    (fun _ _ => rfl) (fun i _ j _ => ⟨_, rfl, rfl, rfl⟩) (fun k _ i _ _ => ⟨_, rfl, rfl, rfl⟩) hC
    (fun i hi j hj => by
      obtain ⟨c, hc, y, hy, rfl⟩ := Mat.exists_block _ _ i hi
      obtain ⟨c', hc', y', hy', rfl⟩ := Mat.exists_block _ _ j hj
      rw [hC.entry hc hc' hy hy']
      show (if c = c' ∧ y = y' then (1 : ℝ) else 0) = _
      refine if_congr ?_ rfl rfl
      interval_cases c <;> interval_cases c' <;> simp [psum, Finset.sum_range_succ] at hy hy' ⊢ <;> omega)
    runsTiles_atomic (runsQTiles_atomic false) (runsQTiles_atomic true) hs run
  exact ⟨F, s, s1, s3, s4, hF 3, hs, run, e, R, hR⟩

end

/-- Then the parallel program prints what the sequential program prints. -/
theorem flTiledPrints_iff {K : Type} [Field K] [LinearOrder K] {F : FlQr} {B : FlTrmm} {G : FlArith} {η : ℝ}
    {parts : Parts ℝ} {fuel : Nat} {k kid : KernelFn ℝ} {compressD compress : Dense ℝ → Except Err (LowRank ℝ)}
    {m n b : Nat} {a : Int} {r0 : FlBlrQrRun}
    (hp : PartsCompute parts (fun p q A => F.tiles.tiledQr p q A p q
        (fun i j => .dense ⟨if i < j then 0 else b, if i < j then 0 else b, fun _ _ => 0⟩))
      (fun p q Y T C trans => F.tiles.leftMulTiled p q Y p q T p q C trans)
      (fun i j => .dense ⟨if i < j then 0 else b, if i < j then 0 else b, fun _ _ => 0⟩) (m / b) (n / b))
    (h : F.tiledProgram (K := K) B G η fuel k kid compressD compress m n b a = .ok r0) (r : FlBlrQrRun) :
    flTiledPrints (K := K) parts B G η fuel k kid compressD compress m n b a r ↔ r = r0 := by
  unfold FlQr.tiledProgram flBlrQrProgram at h
  simp only [except_bind_eq_ok] at h
  obtain ⟨u1, a1, h⟩ := h
  by_cases hb : b = 0
  · rw [if_pos hb] at h
    cases h
  rw [if_neg hb] at h
  simp only [except_bind_eq_ok] at h
  obtain ⟨u2, a2, u3, a3, D, hD, MA, hA, comp, hcomp, gA, hgA, ⟨Y, T⟩, hYT, MC, hC, gC, hgC, Q, hQ, X, hX, res, hres, Z, hZ, I, hI,
    orth, horth, h⟩ := h
  cases h
  have run : ∀ Y' T' Q' Z', Y' = Y → T' = T → Q' = Q → Z' = Z →
      flBlrQrProgram (K := K) B G η fuel k kid compressD compress (fun _ _ _ => .ok (Y', T'))
        (fun _ _ _ _ _ trans => .ok (if trans then Z' else Q')) m n b a =
      .ok ⟨comp, res, orth, .hier (m / b) (n / b) Q, X, .hier (n / b) (n / b) Z⟩ := by
    rintro _ _ _ _ rfl rfl rfl rfl
    unfold flBlrQrProgram
    rw [a1, except_bind_ok, if_neg hb, a2, except_bind_ok, a3, except_bind_ok]
    simp only [hD, hA, hcomp, hgA, hC, hgC, hX, hres, hI, horth, except_bind_ok, Bool.false_eq_true, if_false, if_true]
  constructor
  · rintro ⟨MA', MC', gA', gC', e1, e2, e3, e4, s, s1, s2, s3, hs, f1, f2, f3, hr⟩
    rw [hA] at e1
    cases e1
    rw [hgA] at e2
    cases e2
    rw [hC] at e3
    cases e3
    rw [hgC] at e4
    cases e4
    obtain ⟨g1, g2, g3, g4⟩ := (hp _ _ _ _ _ _ s hYT hQ hZ hs).2 s1 s2 s3 f1 f2 f3
    rw [run _ _ _ _ g1 g2 g3 g4] at hr
    exact (Except.ok.inj hr).symm
  · rintro rfl
    let s : Cell → Mat ℝ
      | .a i j _ => gA.2.2 i j
      | .t i j => .dense ⟨if i < j then 0 else b, if i < j then 0 else b, fun _ _ => 0⟩
      | _ => .empty 0 0
    have hs : InMemory s gA.2.2 (fun i j => .dense ⟨if i < j then 0 else b, if i < j then 0 else b, fun _ _ => 0⟩) :=
      fun i j => ⟨fun _ => rfl, rfl⟩
    obtain ⟨⟨s1, s2, s3, f1, f2, f3⟩, hu⟩ := hp _ _ _ _ _ _ s hYT hQ hZ hs
    obtain ⟨g1, g2, g3, g4⟩ := hu s1 s2 s3 f1 f2 f3
    exact ⟨MA, MC, gA, gC, hA, hgA, hC, hgC, s, s1, s2, s3, hs, f1, f2, f3, run _ _ _ _ g1 g2 g3 g4⟩

/-- C82, the programs: with kernels in floating-point arithmetic, when no tile is compressed, the
task-parallel and the fork-join program compute and print, in every execution, bit for bit what the
sequential program computes and prints, which is bounded in C81; and they do finish. -/
theorem C82_programs {F : FlQr} {B : FlTrmm} {G : FlArith} {ε u η : ℝ} {p q b : Nat} {K : Type} [Field K]
    [LinearOrder K] (hF : F.Sound b ε) (hε : 0 ≤ ε) (hB : B.Sound u) (hG : G.Sound u) (hη : 0 < η)
    {k kid : KernelFn ℝ} {f : Int → Int → ℝ} (hk : ComputesEntries k f)
    (hi : ComputesEntries kid (fun i j => if i = j then 1 else 0))
    (hk' : KernelReturns k (p * b) (q * b)) (hi' : KernelReturns kid (p * b) (q * b))
    (compressD compress : Dense ℝ → Except Err (LowRank ℝ)) (hb : 1 ≤ b) (hq : 1 ≤ q) (hqp : q ≤ p) {a : Int}
    (ha : b = 1 ∨ (p : Int) ≤ a + 1) {fuel : Nat} (hfu : 5 ≤ fuel)
    {body : Job → List (Step Cell (Mat ℝ))} {bodyN bodyT : QJob → List (Step Cell (Mat ℝ))}
    (hj : RunsTiles F.tiles body) (hn : RunsQTiles F.tiles false bodyN) (ht : RunsQTiles F.tiles true bodyT) :
    ∃ r0, F.tiledProgram (K := K) B G η fuel k kid compressD compress (p * b) (q * b) b a = .ok r0 ∧
      (∀ r, flTiledPrints (K := K) (taskParts body bodyN bodyT) B G η fuel k kid compressD compress
        (p * b) (q * b) b a r ↔ r = r0) ∧
      ∀ r, flTiledPrints (K := K) (forkParts body bodyN bodyT) B G η fuel k kid compressD compress
        (p * b) (q * b) b a r ↔ r = r0 := by
  obtain ⟨r0, -, h, -⟩ := C81_tiled_program (K := K) hF hε hB hG hη hk hi hk' hi' compressD compress hb hq hqp ha hfu
  have hd : p * b / b = p := Nat.mul_div_cancel p hb
  have hd' : q * b / b = q := Nat.mul_div_cancel q hb
  refine ⟨r0, h, fun r => flTiledPrints_iff ?_ h r, fun r => flTiledPrints_iff ?_ h r⟩
  · rw [hd, hd']
    exact flTaskParts_compute F.local_tiles hqp hj hn ht _
  · rw [hd, hd']
    exact flForkParts_compute F.local_tiles hqp hj hn ht _

/-- Any matrix of 3-by-2 tiles of order 4: both programs finish, and every execution of either prints
the numbers of the sequential program, whose compression error is 0. -/
example (f : Int → Int → ℝ) (compress : Dense ℝ → Except Err (LowRank ℝ)) :
    ∃ (F : FlQr) (r0 : FlBlrQrRun), F.Sound 4 (1 / 10 ^ 6) ∧ r0.comp = 0 ∧
      ∀ parts ∈ [taskParts (fun x => [x.stepOf F.tiles]) (fun x => [x.stepOf F.tiles false]) (fun x => [x.stepOf F.tiles true]),
          forkParts (fun x => [x.stepOf F.tiles]) (fun x => [x.stepOf F.tiles false]) (fun x => [x.stepOf F.tiles true])],
        ∀ r, flTiledPrints (K := ℚ) parts (FlTrmm.ofRounding nearest53) (FlArith.ofRounding nearest53) (2 ^ (-52 : ℤ)) 5
          (indexKernel f) (Builtin.identity.kernel []) compress compress 12 8 4 2 r ↔ r = r0 := by
  obtain ⟨F, hF, -⟩ := C79_kernels_exist (ε := 1 / 10 ^ 6) (by norm_num)
  have hB := C78_rounding (by positivity) nearest53_error
  have hG := FlArith.ofRounding_sound (by positivity) (by norm_num) nearest53_error
  have hη : (0 : ℝ) < 2 ^ (-52 : ℤ) := by positivity
  obtain ⟨r0, h, h1, h2⟩ := C82_programs (K := ℚ) (p := 3) (q := 2) (b := 4) (hF 4) (by norm_num) hB hG hη
    (indexKernel_computes f) identity_computes (fun _ _ _ _ _ _ _ _ => ⟨_, rfl⟩) (identity_returns _ _) compress compress
    (by omega) (by omega) (by omega) (a := 2) (Or.inr (by norm_num)) (le_refl 5) runsTiles_atomic
    (runsQTiles_atomic false) (runsQTiles_atomic true)
  obtain ⟨c, -⟩ := C81_printed (K := ℚ) (p := 3) (q := 2) (b := 4) (hF 4) (by norm_num) hB hG hη
    (indexKernel_computes f) identity_computes (fun _ _ _ _ _ _ _ _ => ⟨_, rfl⟩) (identity_returns _ _)
    (by omega) (by omega) (by omega) (a := 2) (Or.inr (by norm_num)) (le_refl 5) h
  refine ⟨F, r0, hF 4, c, fun parts hp => ?_⟩
  rcases List.mem_pair.1 hp with rfl | rfl
  · exact h1
  · exact h2

end Verif
