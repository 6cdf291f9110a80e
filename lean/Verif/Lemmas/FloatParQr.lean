import Verif.Model.FloatParQr
import Verif.Lemmas.ParQrTiles

/-
Running the tasks of the parallel tiled QR programs in program order is
`tiled_householder_blr_qr`, for any tile kernels that touch only the half tiles the task graph
accounts for.
-/

namespace Verif

variable {R : Type}

/-- `larfb` reads only the part of its first argument below the diagonal, `tpqrt` reads and
writes only the part of its first argument on and above the diagonal. -/
structure TileOps.Local (t : TileOps R) : Prop where
  larfb : ∀ {X lo up : Mat R}, ParQr.Rep X lo up → ∀ trans T C, t.larfb trans lo T C = t.larfb trans X T C
  tpqrt : ∀ {X lo up : Mat R}, ParQr.Rep X lo up → ∀ {B T x}, t.tpqrt X B T = .ok x →
    ∃ y, t.tpqrt up B T = .ok y ∧ y.2 = x.2 ∧ ParQr.Rep x.1 lo y.1

theorem TileOps.local_exact [CommRing R] [DecidableEq R] (K : QrKernels R) (o : LrOps R) (fuel : Nat) :
    (TileOps.exact K o fuel).Local :=
  ⟨fun {_ _ _} h trans T C => ParQr.larfb_lower h trans T C,
    fun {_ _ _} h {_ _ _} hx => ParQr.tpqrt_upper K h hx⟩

theorem Dense.tri_lower_congr {l d : Dense ℝ} (h : ∀ i j, j < i → l.val i j = d.val i j) :
    l.tri .lower true = d.tri .lower true := by
  funext i j
  unfold Dense.tri
  by_cases e : i = j
  · rw [if_pos e, if_pos e]; rfl
  · rw [if_neg e, if_neg e]
    dsimp only
    by_cases e' : j < i
    · rw [if_pos e', if_pos e', h i j e']
    · rw [if_neg e', if_neg e']

/-- The kernels in floating-point arithmetic. -/
theorem FlQr.local_tiles (F : FlQr) : F.tiles.Local := by
  refine ⟨fun {X lo up} h trans T C => ?_, fun {X lo up} h {B T x} hx => ?_⟩
  · rcases h with ⟨rfl, rfl⟩ | ⟨d, l, u, rfl, rfl, rfl, h1, h2, h3, h4, h⟩
    · rfl
    · cases T <;> cases C <;>
        simp only [FlQr.tiles, FlQr.larfb, h1, h2, Dense.tri_lower_congr (fun i j => (h i j).1)]
  · have d1 : ∃ a b t, X = .dense a ∧ B = .dense b ∧ T = .dense t := by
      cases X <;> cases B <;> cases T <;> first | exact ⟨_, _, _, rfl, rfl, rfl⟩ | cases hx
    obtain ⟨a, b, t, rfl, rfl, rfl⟩ := d1
    have e : ∀ a b t : Dense ℝ, F.tiles.tpqrt (.dense a) (.dense b) (.dense t) =
      Mat.tpqrt F.toQrKernels (.dense a) (.dense b) (.dense t) := fun _ _ _ => rfl
    rw [e] at hx
    obtain ⟨y, hy, h1, h2⟩ := ParQr.tpqrt_upper F.toQrKernels h hx
    have : ∃ u, up = .dense u := by
      rcases h with ⟨-, rfl⟩ | ⟨d, l, u, -, -, rfl, -⟩
      · exact ⟨_, rfl⟩
      · exact ⟨_, rfl⟩
    obtain ⟨u, rfl⟩ := this
    exact ⟨y, (e u b t).trans hy, h1, h2⟩

namespace ParQr
open Omp

theorem put_eq : @TileOps.put R = @Mat.putBlk R := rfl

/-- The kernels touch no other cells than those declared for the tasks. -/
def Job.stepOf (t : TileOps R) (x : Job) : Step Cell (Mat R) where
  reads := x.reads
  writes := x.writes
  act := fun s => x.actOf t s
  frame := by
    intro s c hc
    cases x <;>
      simp only [Job.writes, tileA, Set.mem_union, Set.mem_insert_iff, Set.mem_singleton_iff, not_or] at hc <;>
      refine onOk_frame fun a => ?_ <;> simp only [setCell, setTile] <;> simp [hc]
  dep := by
    intro s s' hr c hc
    have hs : s c = s' c := by
      apply hr
      cases x <;>
        simp only [Job.writes, Job.reads, tileA, Set.mem_union, Set.mem_insert_iff,
          Set.mem_singleton_iff] at hc ⊢ <;> tauto
    cases x with
    | geqrt k =>
      refine onOk_congr ?_ hs fun a => ?_
      · rw [tile, tile, hr (.t k k) (by simp [Job.reads]), hr (.a k k .lower) (by simp [Job.reads, tileA]),
          hr (.a k k .upper) (by simp [Job.reads, tileA])]
      · simp only [setCell, setTile, hs]
    | larfb k j =>
      refine onOk_congr ?_ hs fun a => ?_
      · rw [tile, tile, hr (.t k k) (by simp [Job.reads]), hr (.a k k .lower) (by simp [Job.reads, tileA]),
          hr (.a k j .lower) (by simp [Job.reads, tileA]), hr (.a k j .upper) (by simp [Job.reads, tileA])]
      · simp only [setTile, hs]
    | tpqrt i k =>
      refine onOk_congr ?_ hs fun a => ?_
      · rw [tile, tile, hr (.t i k) (by simp [Job.reads]), hr (.a k k .upper) (by simp [Job.reads, tileA]),
          hr (.a i k .lower) (by simp [Job.reads, tileA]), hr (.a i k .upper) (by simp [Job.reads, tileA])]
      · simp only [setCell, setTile, hs]
    | tpmqrt i j k =>
      refine onOk_congr ?_ hs fun a => ?_
      · simp only [tile]
        rw [hr (.t i k) (by simp [Job.reads]), hr (.a k j .upper) (by simp [Job.reads, tileA]),
          hr (.a i k .lower) (by simp [Job.reads, tileA]), hr (.a i k .upper) (by simp [Job.reads, tileA]),
          hr (.a k j .lower) (by simp [Job.reads, tileA]), hr (.a i j .lower) (by simp [Job.reads, tileA]),
          hr (.a i j .upper) (by simp [Job.reads, tileA])]
      · simp only [setTile, hs]

/-- The same for the tasks that multiply with the reflectors. -/
def QJob.stepOf (t : TileOps R) (trans : Bool) (x : QJob) : Step Cell (Mat R) where
  reads := x.reads
  writes := x.writes
  act := fun s => x.actOf t trans s
  frame := by
    intro s c hc
    cases x <;>
      simp only [QJob.writes, Set.mem_insert_iff, Set.mem_singleton_iff, not_or] at hc <;>
      refine onOk_frame fun a => ?_ <;> simp only [setCell] <;> simp [hc]
  dep := by
    intro s s' hr c hc
    have hs : s c = s' c := by
      apply hr
      cases x <;>
        simp only [QJob.writes, QJob.reads, tileA, Set.mem_union, Set.mem_insert_iff,
          Set.mem_singleton_iff] at hc ⊢ <;> tauto
    cases x with
    | larfb k j =>
      refine onOk_congr ?_ hs fun a => ?_
      · rw [hr (.t k k) (by simp [QJob.reads]), hr (.a k k .lower) (by simp [QJob.reads]),
          hr (.q k j) (by simp [QJob.reads])]
      · simp only [setCell, hs]
    | tpmqrt i j k =>
      refine onOk_congr ?_ hs fun a => ?_
      · simp only [tile]
        rw [hr (.t i k) (by simp [QJob.reads]), hr (.a i k .lower) (by simp [QJob.reads, tileA]),
          hr (.a i k .upper) (by simp [QJob.reads, tileA]), hr (.q k j) (by simp [QJob.reads]),
          hr (.q i j) (by simp [QJob.reads])]
      · simp only [setCell, hs]

/-- One task on tiles. -/
def Job.onTilesOf (t : TileOps R) (x : Job)
    (st : (Nat → Nat → Mat R) × (Nat → Nat → Mat R)) :
    Except Err ((Nat → Nat → Mat R) × (Nat → Nat → Mat R)) :=
  match x with
  | .geqrt k => do
    let x ← t.geqrt (st.1 k k) (st.2 k k)
    .ok (Mat.putBlk st.1 k k x.1, Mat.putBlk st.2 k k x.2)
  | .larfb k j => do
    let x ← t.larfb true (st.1 k k) (st.2 k k) (st.1 k j)
    .ok (Mat.putBlk st.1 k j x, st.2)
  | .tpqrt i k => do
    let x ← t.tpqrt (st.1 k k) (st.1 i k) (st.2 i k)
    .ok (Mat.putBlk (Mat.putBlk st.1 k k x.1) i k x.2.1, Mat.putBlk st.2 i k x.2.2)
  | .tpmqrt i j k => do
    let x ← t.tpmqrt true (st.1 i k) (st.2 i k) (st.1 k j) (st.1 i j)
    .ok (Mat.putBlk (Mat.putBlk st.1 k j x.1) i j x.2, st.2)

theorem Holds.jobOf {t : TileOps R} (ht : t.Local) {s : Cell → Mat R}
    {st st' : (Nat → Nat → Mat R) × (Nat → Nat → Mat R)} (h : Holds s st) (x : Job)
    (hx : x.onTilesOf t st = .ok st') : Holds (x.actOf t s) st' := by
  obtain ⟨A, T⟩ := st
  cases x with
  | geqrt k =>
    simp only [Job.onTilesOf, except_bind_eq_ok] at hx
    obtain ⟨y, hy, hx⟩ := hx
    cases hx
    simp only [Job.actOf, h.tile, (h k k).2, hy, onOk]
    exact (h.setTile k k y.1).setT k k y.2
  | larfb k j =>
    simp only [Job.onTilesOf, except_bind_eq_ok] at hx
    obtain ⟨y, hy, hx⟩ := hx
    cases hx
    simp only [Job.actOf, h.tile, (h k k).2, ht.larfb (h k k).1, hy, onOk]
    exact h.setTile k j y
  | tpqrt i k =>
    simp only [Job.onTilesOf, except_bind_eq_ok] at hx
    obtain ⟨y, hy, hx⟩ := hx
    cases hx
    obtain ⟨z, hz, e, hr⟩ := ht.tpqrt (h k k).1 hy
    simp only [Job.actOf, h.tile, (h i k).2, hz, onOk, e]
    have h1 : Holds (setCell s (.a k k .upper) z.1) (Mat.putBlk A k k y.1, T) := by
      intro a b
      have := h a b
      by_cases e : a = k ∧ b = k
      · obtain ⟨rfl, rfl⟩ := e
        simp only [ParQr.setCell, Mat.putBlk]
        exact ⟨by simpa using hr, by simpa using this.2⟩
      · simp only [ParQr.setCell, Mat.putBlk, if_neg e]
        simpa [e] using this
    exact (h1.setTile i k y.2.1).setT i k y.2.2
  | tpmqrt i j k =>
    simp only [Job.onTilesOf, except_bind_eq_ok] at hx
    obtain ⟨y, hy, hx⟩ := hx
    cases hx
    simp only [Job.actOf, h.tile, (h i k).2, hy, onOk]
    exact (h.setTile k j y.1).setTile i j y.2

/-- The tasks in program order. -/
abbrev runJobsOf (t : TileOps R) (l : List Job) (s : Cell → Mat R) : Cell → Mat R :=
  l.foldl (fun s x => Job.actOf t s x) s

theorem tiledInnerOf_holds {t : TileOps R} (ht : t.Local) {p q tr tc k i : Nat} (hi : k < i)
    {st st' : (Nat → Nat → Mat R) × (Nat → Nat → Mat R)} {s : Cell → Mat R} (h : Holds s st)
    (hr : t.tiledInner p q tr tc k i st = .ok st') :
    Holds (runJobsOf t (Job.tpqrt i k :: (upto (k + 1) q).map fun j => Job.tpmqrt i j k) s) st' := by
  obtain ⟨A, T⟩ := st
  simp only [TileOps.tiledInner, put_eq, except_bind_eq_ok] at hr
  obtain ⟨akk, h1, aik, h2, tk, h3, x, hx, B, hl, hr⟩ := hr
  cases hr
  rw [(Mat.blockAt_ok h1).2.2, (Mat.blockAt_ok h2).2.2, (Mat.blockAt_ok h3).2.2] at hx
  rw [runJobsOf, List.foldl_cons, upto_map]
  have h0 : Holds (Job.actOf t s (.tpqrt i k))
      (Mat.putBlk (Mat.putBlk A k k x.1) i k x.2.1, Mat.putBlk T i k x.2.2) := by
    refine h.jobOf ht _ ?_
    simp only [Job.onTilesOf, except_bind_eq_ok]
    exact ⟨x, hx, rfl⟩
  refine (loop_holds (Rel := fun s A' => Holds s (A', Mat.putBlk T i k x.2.2) ∧ A' i k = x.2.1)
    (act := fun x s => Job.actOf t s x) ?_ ⟨h0, by simp [Mat.putBlk]⟩ hl).1
  rintro u hu s' a b ⟨ha, hk⟩ hf
  rw [except_bind_eq_ok] at hf
  obtain ⟨y, hy, hf⟩ := hf
  cases hf
  refine ⟨?_, ?_⟩
  · simp only [List.foldl_cons, List.foldl_nil]
    refine ha.jobOf ht _ ?_
    simp only [Job.onTilesOf, except_bind_eq_ok]
    refine ⟨y, ?_, rfl⟩
    rw [hk]
    simpa [Mat.putBlk] using hy
  · simp only [Mat.putBlk]
    rw [if_neg (by omega), if_neg (by omega), hk]

theorem tiledStepOf_holds {t : TileOps R} (ht : t.Local) {p q tr tc k : Nat}
    {st st' : (Nat → Nat → Mat R) × (Nat → Nat → Mat R)} {s : Cell → Mat R} (h : Holds s st)
    (hr : t.tiledStep p q tr tc k st = .ok st') :
    Holds (runJobsOf t (Job.geqrt k :: (upto (k + 1) q).map (Job.larfb k) ++
      (upto (k + 1) p).flatMap fun i =>
        Job.tpqrt i k :: (upto (k + 1) q).map fun j => Job.tpmqrt i j k) s) st' := by
  obtain ⟨A, T⟩ := st
  simp only [TileOps.tiledStep, put_eq, except_bind_eq_ok] at hr
  obtain ⟨akk, h1, tk, h3, x, hx, B, hl, hr⟩ := hr
  rw [(Mat.blockAt_ok h1).2.2, (Mat.blockAt_ok h3).2.2] at hx
  have h0 : Holds (Job.actOf t s (.geqrt k)) (Mat.putBlk A k k x.1, Mat.putBlk T k k x.2) := by
    refine h.jobOf ht _ ?_
    simp only [Job.onTilesOf, except_bind_eq_ok]
    exact ⟨x, hx, rfl⟩
  have h2 : Holds (runJobsOf t (Job.geqrt k :: (upto (k + 1) q).map (Job.larfb k)) s)
      (B, Mat.putBlk T k k x.2) := by
    rw [runJobsOf, List.foldl_cons, upto_map]
    refine (loop_holds (Rel := fun s A' => Holds s (A', Mat.putBlk T k k x.2) ∧ A' k k = x.1)
      (act := fun x s => Job.actOf t s x) ?_ ⟨h0, by simp [Mat.putBlk]⟩ hl).1
    rintro u hu s' a b ⟨ha, hk⟩ hf
    rw [except_bind_eq_ok] at hf
    obtain ⟨y, hy, hf⟩ := hf
    cases hf
    refine ⟨?_, ?_⟩
    · simp only [List.foldl_cons, List.foldl_nil]
      refine ha.jobOf ht _ ?_
      simp only [Job.onTilesOf, except_bind_eq_ok]
      refine ⟨y, ?_, rfl⟩
      rw [hk]
      simpa [Mat.putBlk] using hy
    · simp only [Mat.putBlk]
      rw [if_neg (by omega), hk]
  rw [runJobsOf, List.foldl_append, upto_flatMap]
  exact loop_holds (Rel := Holds) (act := fun x s => Job.actOf t s x)
    (fun u _ s' a b ha hf => tiledInnerOf_holds ht (by omega) ha hf) h2 hr

/-- The tasks in program order compute what `tiled_householder_blr_qr` computes. -/
theorem tiledQrOf_holds {t : TileOps R} (ht : t.Local) {p q tr tc : Nat} {A T A' T' : Nat → Nat → Mat R}
    {s : Cell → Mat R} (h : Holds s (A, T)) (hr : t.tiledQr p q A tr tc T = .ok (A', T')) :
    Holds (runJobsOf t (tiledJobs p q) s) (A', T') := by
  simp only [TileOps.tiledQr, except_bind_eq_ok] at hr
  obtain ⟨_, _, _, _, hl⟩ := hr
  exact loop_holds (Rel := Holds) (act := fun x s => Job.actOf t s x)
    (fun u _ s' a b ha hf => tiledStepOf_holds ht ha hf) h hl

abbrev runQJobsOf (t : TileOps R) (trans : Bool) (l : List QJob) (s : Cell → Mat R) :
    Cell → Mat R := l.foldl (fun s x => QJob.actOf t trans s x) s

theorem leftMulLarfbOf_holds {t : TileOps R} (ht : t.Local) {p q tr tc m n k : Nat} {trans : Bool}
    {Y T C C' : Nat → Nat → Mat R} {s : Cell → Mat R} (h : HoldsQ Y T s C)
    (hr : t.leftMulLarfb p q Y tr tc T m n trans k C = .ok C') :
    HoldsQ Y T (runQJobsOf t trans ((upto k q).map (QJob.larfb k)) s) C' := by
  rw [runQJobsOf, upto_map]
  refine loop_holds (Rel := HoldsQ Y T) (act := fun x s => QJob.actOf t trans s x) ?_ h hr
  intro u hu s' a b ha hf
  simp only [except_bind_eq_ok] at hf
  obtain ⟨v, h1, tk, h2, c, h3, y, hy, hf⟩ := hf
  cases hf
  rw [(Mat.blockAt_ok h1).2.2, (Mat.blockAt_ok h2).2.2, (Mat.blockAt_ok h3).2.2] at hy
  simp only [List.foldl_cons, List.foldl_nil, QJob.actOf, (ha.1 k k).2, ha.2, ht.larfb (ha.1 k k).1, hy, onOk]
  exact ha.set _ _ _

theorem leftMulTpmqrtOf_holds {t : TileOps R} {p q tr tc m n k i : Nat} {trans : Bool}
    {Y T C C' : Nat → Nat → Mat R} {s : Cell → Mat R} (h : HoldsQ Y T s C)
    (hr : t.leftMulTpmqrt p q Y tr tc T m n trans k i C = .ok C') :
    HoldsQ Y T (runQJobsOf t trans ((upto k q).map fun j => QJob.tpmqrt i j k) s) C' := by
  rw [runQJobsOf, upto_map]
  refine loop_holds (Rel := HoldsQ Y T) (act := fun x s => QJob.actOf t trans s x) ?_ h hr
  intro u hu s' a b ha hf
  simp only [except_bind_eq_ok] at hf
  obtain ⟨v, h1, tk, h2, c, h3, d, h4, y, hy, hf⟩ := hf
  cases hf
  rw [(Mat.blockAt_ok h1).2.2, (Mat.blockAt_ok h2).2.2, (Mat.blockAt_ok h3).2.2, (Mat.blockAt_ok h4).2.2] at hy
  simp only [List.foldl_cons, List.foldl_nil, QJob.actOf, (ha.1 i k).2, ha.2, ha.1.tile, hy, onOk]
  exact (ha.set _ _ _).set _ _ _

/-- The tasks in program order compute what `left_multiply_tiled_reflector` computes. -/
theorem leftMulTiledOf_holds {t : TileOps R} (ht : t.Local) {p q tr tc m n : Nat} {trans : Bool}
    {Y T C C' : Nat → Nat → Mat R} {s : Cell → Mat R} (h : HoldsQ Y T s C)
    (hr : t.leftMulTiled p q Y tr tc T m n C trans = .ok C') :
    HoldsQ Y T (runQJobsOf t trans (if trans then applyJobs p q else buildJobs p q) s) C' := by
  unfold TileOps.leftMulTiled at hr
  cases trans
  · simp only [Bool.false_eq_true, if_false] at hr ⊢
    rw [runQJobsOf, buildJobs, downto_flatMap]
    refine loop_holds (Rel := HoldsQ Y T) (act := fun x s => QJob.actOf t false s x) ?_ h hr
    intro v hv s' a b ha hf
    rw [except_bind_eq_ok] at hf
    obtain ⟨c, hc, hb⟩ := hf
    rw [List.foldl_append]
    refine leftMulLarfbOf_holds ht ?_ hb
    rw [downto_flatMap]
    exact loop_holds (Rel := HoldsQ Y T) (act := fun x s => QJob.actOf t false s x)
      (fun u _ s' a b ha hf => leftMulTpmqrtOf_holds ha hf) ha hc
  · simp only [if_true] at hr ⊢
    refine loop_holds (Rel := HoldsQ Y T) (act := fun x s => QJob.actOf t true s x) ?_ h hr
    intro k hk s' a b ha hf
    rw [except_bind_eq_ok] at hf
    obtain ⟨c, hc, hb⟩ := hf
    rw [List.foldl_append, upto_flatMap]
    exact loop_holds (Rel := HoldsQ Y T) (act := fun x s => QJob.actOf t true s x)
      (fun u _ s' a b ha hf => leftMulTpmqrtOf_holds ha hf) (leftMulLarfbOf_holds ht ha hc) hb

end ParQr
end Verif
