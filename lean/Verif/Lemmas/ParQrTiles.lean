import Verif.Model.ParQrTiles
import Verif.Lemmas.ParQr2
import Verif.Lemmas.Trsm

/-
The kernels touch only the half tiles the task graph accounts for; running the tasks in
program order is `tiled_householder_blr_qr`.
-/

namespace Verif.ParQr
open Omp

variable {R : Type}

/-- `lo` agrees with the tile `X` below the diagonal and `up` agrees with it elsewhere. -/
def Rep (X lo up : Mat R) : Prop :=
  (lo = X ∧ up = X) ∨ ∃ d l u : Dense R, X = .dense d ∧ lo = .dense l ∧ up = .dense u ∧
    l.rows = d.rows ∧ l.cols = d.cols ∧ u.rows = d.rows ∧ u.cols = d.cols ∧
    ∀ i j, (j < i → l.val i j = d.val i j) ∧ (i ≤ j → u.val i j = d.val i j)

theorem Rep.self (X : Mat R) : Rep X X X := .inl ⟨rfl, rfl⟩

theorem Rep.glue {X lo up : Mat R} (h : Rep X lo up) : glue lo up = X := by
  rcases h with ⟨rfl, rfl⟩ | ⟨d, l, u, rfl, rfl, rfl, h1, h2, h3, h4, h⟩
  · cases up <;> simp [ParQr.glue]
  · obtain ⟨r, c, v⟩ := d
    simp only [ParQr.glue]
    dsimp only at *
    subst h3 h4
    congr 2
    funext i j
    by_cases e : j < i
    · rw [if_pos e]; exact (h i j).1 e
    · rw [if_neg e]; exact (h i j).2 (by omega)

section
variable [CommRing R]

/-- `larfb` reads only the part of its first argument below the diagonal. -/
theorem larfb_lower {X lo up : Mat R} (h : Rep X lo up) (trans : Bool) (t c : Mat R) :
    Mat.larfb trans lo t c = Mat.larfb trans X t c := by
  rcases h with ⟨rfl, rfl⟩ | ⟨d, l, u, rfl, rfl, rfl, h1, h2, h3, h4, h⟩
  · rfl
  · have e : ∀ t c : Dense R, Dense.larfb l t c trans = Dense.larfb d t c trans := by
      intro t c
      have ht : ∀ i j, l.tri .lower true i j = d.tri .lower true i j := by
        intro i j
        unfold Dense.tri
        by_cases e : i = j
        · rw [if_pos e, if_pos e]; rfl
        · rw [if_neg e, if_neg e]
          dsimp only
          by_cases e' : j < i
          · rw [if_pos e', if_pos e', (h i j).1 e']
          · rw [if_neg e', if_neg e']
      simp only [Dense.larfb, h1, h2, ht]
    cases t <;> cases c <;> simp only [Mat.larfb, e]

/-- `tpqrt` reads and writes only the part of its first argument on and above the diagonal. -/
theorem tpqrt_upper (K : QrKernels R) {X lo up : Mat R} (h : Rep X lo up) {b t : Mat R}
    {x : Mat R × Mat R × Mat R} (hx : Mat.tpqrt K X b t = .ok x) :
    ∃ y, Mat.tpqrt K up b t = .ok y ∧ y.2 = x.2 ∧ Rep x.1 lo y.1 := by
  rcases h with ⟨rfl, rfl⟩ | ⟨d, l, u, rfl, rfl, rfl, h1, h2, h3, h4, h⟩
  · refine ⟨x, hx, rfl, ?_⟩
    have key : ∀ (a b t : Dense R) y, Dense.tpqrt K a b t = .ok y → Rep (.dense y.1) (.dense a) (.dense y.1) := by
      intro a b t y hy
      simp only [Dense.tpqrt] at hy
      split at hy
      · rw [← Except.ok.inj hy]
        refine .inr ⟨_, _, _, rfl, rfl, rfl, rfl, rfl, rfl, rfl, fun i j => ⟨fun hji => ?_, fun _ => rfl⟩⟩
        dsimp only
        rw [if_neg (by omega)]
      · cases hy
    cases up with
    | dense a =>
      cases t with
      | dense t =>
        cases b with
        | dense b =>
          simp only [Mat.tpqrt, except_bind_eq_ok] at hx
          obtain ⟨y, hy, hx⟩ := hx
          cases hx
          exact key _ _ _ _ hy
        | lowRank b =>
          simp only [Mat.tpqrt, except_bind_eq_ok] at hx
          obtain ⟨sv, -, y, hy, hx⟩ := hx
          cases hx
          exact key _ _ _ _ hy
        | hier | empty => cases hx
      | lowRank | hier | empty => cases b <;> cases hx
    | lowRank | hier | empty => cases b <;> cases t <;> cases hx
  · have key : ∀ (b t : Dense R) y, Dense.tpqrt K d b t = .ok y →
        ∃ z, Dense.tpqrt K u b t = .ok z ∧ z.2 = y.2 ∧ Rep (.dense y.1) (.dense l) (.dense z.1) := by
      intro b t y hy
      simp only [Dense.tpqrt] at hy ⊢
      rw [h3, h4]
      split at hy
      · rename_i hc
        rw [if_pos hc]
        have e : (fun i j => if i ≤ j ∧ j < b.cols then u.val i j else 0) =
            fun i j => if i ≤ j ∧ j < b.cols then d.val i j else 0 := by
          funext i j
          by_cases e : i ≤ j ∧ j < b.cols
          · rw [if_pos e, if_pos e, (h i j).2 e.1]
          · rw [if_neg e, if_neg e]
        rw [e]
        rw [← Except.ok.inj hy]
        refine ⟨_, rfl, rfl, .inr ⟨_, _, _, rfl, rfl, rfl, h1, h2, rfl, rfl, fun i j => ⟨fun hji => ?_, fun hij => ?_⟩⟩⟩
        · dsimp only
          rw [if_neg (by omega)]
          exact (h i j).1 hji
        · dsimp only
          by_cases e : i ≤ j ∧ j < b.cols
          · rw [if_pos e, if_pos e]
          · rw [if_neg e, if_neg e, (h i j).2 hij]
      · cases hy
    cases t with
    | dense t =>
      cases b with
      | dense b =>
        simp only [Mat.tpqrt, except_bind_eq_ok] at hx
        obtain ⟨y, hy, hx⟩ := hx
        obtain ⟨z, hz, e, hr⟩ := key _ _ _ hy
        cases hx
        exact ⟨_, by simp only [Mat.tpqrt, hz, except_bind_ok]; rfl, by rw [e], hr⟩
      | lowRank b =>
        simp only [Mat.tpqrt, except_bind_eq_ok] at hx
        obtain ⟨sv, hsv, y, hy, hx⟩ := hx
        obtain ⟨z, hz, e, hr⟩ := key _ _ _ hy
        cases hx
        exact ⟨_, by simp only [Mat.tpqrt, hsv, hz, except_bind_ok]; rfl, by rw [e], hr⟩
      | hier | empty => cases hx
    | lowRank | hier | empty => cases b <;> cases hx

end

/-! ### footprints of the kernels -/

theorem onOk_frame {α : Type} {s : Cell → Mat R} {x : Except Err α} {f : α → Cell → Mat R} {c : Cell}
    (h : ∀ a, f a c = s c) : onOk s x f c = s c := by
  cases x with
  | ok a => exact h a
  | error e => rfl

theorem onOk_congr {α : Type} {s s' : Cell → Mat R} {x x' : Except Err α} {f f' : α → Cell → Mat R} {c : Cell}
    (hx : x = x') (hs : s c = s' c) (h : ∀ a, f a c = f' a c) : onOk s x f c = onOk s' x' f' c := by
  subst hx
  cases x with
  | ok a => exact h a
  | error e => exact hs

section
variable [CommRing R] [DecidableEq R]

/-- The kernels touch no other cells than those declared for the tasks. -/
def Job.step (K : QrKernels R) (o : LrOps R) (fuel : Nat) (x : Job) : Step Cell (Mat R) where
  reads := x.reads
  writes := x.writes
  act := fun s => x.act K o fuel s
  frame := by
    intro s c hc
    cases x <;>
      simp only [Job.writes, tileA, Set.mem_union, Set.mem_insert_iff, Set.mem_singleton_iff, not_or] at hc <;>
      refine onOk_frame fun a => ?_ <;> simp only [setCell, setTile] <;> simp [hc]
  dep := by
    intro s s' hr c hc
    have hs : s c = s' c := by
      apply hr
      cases x <;>
        simp only [Job.writes, Job.reads, tileA, Set.mem_union, Set.mem_insert_iff,
          Set.mem_singleton_iff] at hc ⊢ <;> tauto
    cases x with
    | geqrt k =>
      refine onOk_congr ?_ hs fun a => ?_
      · rw [tile, tile, hr (.t k k) (by simp [Job.reads]), hr (.a k k .lower) (by simp [Job.reads, tileA]),
          hr (.a k k .upper) (by simp [Job.reads, tileA])]
      · simp only [setCell, setTile, hs]
    | larfb k j =>
      refine onOk_congr ?_ hs fun a => ?_
      · rw [tile, tile, hr (.t k k) (by simp [Job.reads]), hr (.a k k .lower) (by simp [Job.reads, tileA]),
          hr (.a k j .lower) (by simp [Job.reads, tileA]), hr (.a k j .upper) (by simp [Job.reads, tileA])]
      · simp only [setTile, hs]
    | tpqrt i k =>
      refine onOk_congr ?_ hs fun a => ?_
      · rw [tile, tile, hr (.t i k) (by simp [Job.reads]), hr (.a k k .upper) (by simp [Job.reads, tileA]),
          hr (.a i k .lower) (by simp [Job.reads, tileA]), hr (.a i k .upper) (by simp [Job.reads, tileA])]
      · simp only [setCell, setTile, hs]
    | tpmqrt i j k =>
      refine onOk_congr ?_ hs fun a => ?_
      · simp only [tile]
        rw [hr (.t i k) (by simp [Job.reads]), hr (.a k j .upper) (by simp [Job.reads, tileA]),
          hr (.a i k .lower) (by simp [Job.reads, tileA]), hr (.a i k .upper) (by simp [Job.reads, tileA]),
          hr (.a k j .lower) (by simp [Job.reads, tileA]), hr (.a i j .lower) (by simp [Job.reads, tileA]),
          hr (.a i j .upper) (by simp [Job.reads, tileA])]
      · simp only [setTile, hs]

/-- The same for the tasks that multiply with the reflectors. -/
def QJob.step (o : LrOps R) (fuel : Nat) (trans : Bool) (x : QJob) : Step Cell (Mat R) where
  reads := x.reads
  writes := x.writes
  act := fun s => x.act o fuel trans s
  frame := by
    intro s c hc
    cases x <;>
      simp only [QJob.writes, Set.mem_insert_iff, Set.mem_singleton_iff, not_or] at hc <;>
      refine onOk_frame fun a => ?_ <;> simp only [setCell] <;> simp [hc]
  dep := by
    intro s s' hr c hc
    have hs : s c = s' c := by
      apply hr
      cases x <;>
        simp only [QJob.writes, QJob.reads, tileA, Set.mem_union, Set.mem_insert_iff,
          Set.mem_singleton_iff] at hc ⊢ <;> tauto
    cases x with
    | larfb k j =>
      refine onOk_congr ?_ hs fun a => ?_
      · rw [hr (.t k k) (by simp [QJob.reads]), hr (.a k k .lower) (by simp [QJob.reads]),
          hr (.q k j) (by simp [QJob.reads])]
      · simp only [setCell, hs]
    | tpmqrt i j k =>
      refine onOk_congr ?_ hs fun a => ?_
      · simp only [tile]
        rw [hr (.t i k) (by simp [QJob.reads]), hr (.a i k .lower) (by simp [QJob.reads, tileA]),
          hr (.a i k .upper) (by simp [QJob.reads, tileA]), hr (.q k j) (by simp [QJob.reads]),
          hr (.q i j) (by simp [QJob.reads])]
      · simp only [setCell, hs]

/-! ### program order -/

/-- The memory holds the tiles of `A` and `T`. -/
def Holds (s : Cell → Mat R) (st : (Nat → Nat → Mat R) × (Nat → Nat → Mat R)) : Prop :=
  ∀ i j, Rep (st.1 i j) (s (.a i j .lower)) (s (.a i j .upper)) ∧ s (.t i j) = st.2 i j

omit [CommRing R] [DecidableEq R] in
theorem Holds.tile {s : Cell → Mat R} {st : (Nat → Nat → Mat R) × (Nat → Nat → Mat R)} (h : Holds s st)
    (i j : Nat) : tile s i j = st.1 i j := (h i j).1.glue

omit [CommRing R] [DecidableEq R] in
theorem Holds.setTile {s : Cell → Mat R} {A T : Nat → Nat → Mat R} (h : Holds s (A, T)) (i j : Nat)
    (X : Mat R) : Holds (setTile s i j X) (Mat.putBlk A i j X, T) := by
  intro a b
  by_cases e : a = i ∧ b = j
  · obtain ⟨rfl, rfl⟩ := e
    simp only [ParQr.setTile, Mat.putBlk]
    exact ⟨by simpa using Rep.self X, by simpa using (h a b).2⟩
  · simp only [ParQr.setTile, Mat.putBlk, if_neg e]
    have := h a b
    simpa [e] using this

omit [CommRing R] [DecidableEq R] in
theorem Holds.setT {s : Cell → Mat R} {A T : Nat → Nat → Mat R} (h : Holds s (A, T)) (i j : Nat)
    (X : Mat R) : Holds (setCell s (.t i j) X) (A, Mat.putBlk T i j X) := by
  intro a b
  have := h a b
  by_cases e : a = i ∧ b = j
  · obtain ⟨rfl, rfl⟩ := e
    simpa [ParQr.setCell, Mat.putBlk] using this.1
  · simp only [ParQr.setCell, Mat.putBlk, if_neg e]
    simpa [e] using this

/-- One task on tiles. -/
def Job.onTiles (K : QrKernels R) (o : LrOps R) (fuel : Nat) (x : Job)
    (st : (Nat → Nat → Mat R) × (Nat → Nat → Mat R)) :
    Except Err ((Nat → Nat → Mat R) × (Nat → Nat → Mat R)) :=
  match x with
  | .geqrt k => do
    let x ← Mat.geqrt K (st.1 k k) (st.2 k k)
    .ok (Mat.putBlk st.1 k k x.1, Mat.putBlk st.2 k k x.2)
  | .larfb k j => do
    let x ← Mat.larfb true (st.1 k k) (st.2 k k) (st.1 k j)
    .ok (Mat.putBlk st.1 k j x, st.2)
  | .tpqrt i k => do
    let x ← Mat.tpqrt K (st.1 k k) (st.1 i k) (st.2 i k)
    .ok (Mat.putBlk (Mat.putBlk st.1 k k x.1) i k x.2.1, Mat.putBlk st.2 i k x.2.2)
  | .tpmqrt i j k => do
    let x ← Mat.tpmqrt o fuel true (st.1 i k) (st.2 i k) (st.1 k j) (st.1 i j)
    .ok (Mat.putBlk (Mat.putBlk st.1 k j x.1) i j x.2, st.2)

theorem Holds.job {K : QrKernels R} {o : LrOps R} {fuel : Nat} {s : Cell → Mat R}
    {st st' : (Nat → Nat → Mat R) × (Nat → Nat → Mat R)} (h : Holds s st) (x : Job)
    (hx : x.onTiles K o fuel st = .ok st') : Holds (x.act K o fuel s) st' := by
  obtain ⟨A, T⟩ := st
  cases x with
  | geqrt k =>
    simp only [Job.onTiles, except_bind_eq_ok] at hx
    obtain ⟨y, hy, hx⟩ := hx
    cases hx
    simp only [Job.act, h.tile, (h k k).2, hy, onOk]
    exact (h.setTile k k y.1).setT k k y.2
  | larfb k j =>
    simp only [Job.onTiles, except_bind_eq_ok] at hx
    obtain ⟨y, hy, hx⟩ := hx
    cases hx
    simp only [Job.act, h.tile, (h k k).2, larfb_lower (h k k).1, hy, onOk]
    exact h.setTile k j y
  | tpqrt i k =>
    simp only [Job.onTiles, except_bind_eq_ok] at hx
    obtain ⟨y, hy, hx⟩ := hx
    cases hx
    obtain ⟨z, hz, e, hr⟩ := tpqrt_upper K (h k k).1 hy
    simp only [Job.act, h.tile, (h i k).2, hz, onOk, e]
    have h1 : Holds (setCell s (.a k k .upper) z.1) (Mat.putBlk A k k y.1, T) := by
      intro a b
      have := h a b
      by_cases e : a = k ∧ b = k
      · obtain ⟨rfl, rfl⟩ := e
        simp only [ParQr.setCell, Mat.putBlk]
        exact ⟨by simpa using hr, by simpa using this.2⟩
      · simp only [ParQr.setCell, Mat.putBlk, if_neg e]
        simpa [e] using this
    exact (h1.setTile i k y.2.1).setT i k y.2.2
  | tpmqrt i j k =>
    simp only [Job.onTiles, except_bind_eq_ok] at hx
    obtain ⟨y, hy, hx⟩ := hx
    cases hx
    simp only [Job.act, h.tile, (h i k).2, hy, onOk]
    exact (h.setTile k j y.1).setTile i j y.2

omit [CommRing R] [DecidableEq R] in
/-- A loop and the corresponding part of the list of tasks. -/
theorem loop_holds {J σ : Type} {Rel : (Cell → Mat R) → σ → Prop} {f : Nat → σ → Except Err σ}
    {act : J → (Cell → Mat R) → Cell → Mat R} {jobs : Nat → List J} {n : Nat}
    (hstep : ∀ u < n, ∀ s a b, Rel s a → f u a = .ok b → Rel ((jobs u).foldl (fun s x => act x s) s) b)
    {s : Cell → Mat R} {a b : σ} (h : Rel s a) (hl : loop n f a = .ok b) :
    Rel (((List.range n).flatMap jobs).foldl (fun s x => act x s) s) b := by
  induction n generalizing b with
  | zero => cases hl; exact h
  | succ n ih =>
    rw [loop_succ, except_bind_eq_ok] at hl
    obtain ⟨c, hc, hb⟩ := hl
    rw [List.range_succ, List.flatMap_append, List.foldl_append]
    have := hstep n (by omega) _ _ _ (ih (fun u hu => hstep u (by omega)) hc) hb
    simpa using this

theorem upto_eq (lo hi : Nat) : upto lo hi = (List.range (hi - lo)).map (lo + ·) := by
  unfold upto
  rw [List.range_eq_range', List.map_add_range']
  rfl

theorem upto_map {J : Type} (lo hi : Nat) (f : Nat → J) :
    (upto lo hi).map f = (List.range (hi - lo)).flatMap fun u => [f (lo + u)] := by
  rw [upto_eq, List.map_map, ← List.map_eq_flatMap]
  rfl

theorem upto_flatMap {J : Type} (lo hi : Nat) (f : Nat → List J) :
    (upto lo hi).flatMap f = (List.range (hi - lo)).flatMap fun u => f (lo + u) := by
  rw [upto_eq, List.flatMap_map]

theorem downto_flatMap {J : Type} (lo hi : Nat) (f : Nat → List J) :
    (downto hi lo).flatMap f = (List.range (hi - lo)).flatMap fun u => f (hi - 1 - u) := by
  have : downto hi lo = (List.range (hi - lo)).map fun u => hi - 1 - u := by
    unfold downto
    rw [upto_eq, ← List.map_reverse, List.range_eq_range', List.reverse_range']
    rw [List.map_map, ← List.range_eq_range']
    refine List.map_congr_left fun u hu => ?_
    rw [List.mem_range] at hu
    simp only [Function.comp]
    omega
  rw [this, List.flatMap_map]

/-- The tasks in program order. -/
abbrev runJobs (K : QrKernels R) (o : LrOps R) (fuel : Nat) (l : List Job) (s : Cell → Mat R) : Cell → Mat R :=
  l.foldl (fun s x => Job.act K o fuel s x) s

theorem tiledInner_holds {K : QrKernels R} {o : LrOps R} {fuel p q tr tc k i : Nat} (hi : k < i)
    {st st' : (Nat → Nat → Mat R) × (Nat → Nat → Mat R)} {s : Cell → Mat R} (h : Holds s st)
    (hr : Mat.tiledInner K o fuel p q tr tc k i st = .ok st') :
    Holds (runJobs K o fuel (Job.tpqrt i k :: (upto (k + 1) q).map fun j => Job.tpmqrt i j k) s) st' := by
  obtain ⟨A, T⟩ := st
  simp only [Mat.tiledInner, except_bind_eq_ok] at hr
  obtain ⟨akk, h1, aik, h2, t, h3, x, hx, B, hl, hr⟩ := hr
  cases hr
  rw [(Mat.blockAt_ok h1).2.2, (Mat.blockAt_ok h2).2.2, (Mat.blockAt_ok h3).2.2] at hx
  rw [runJobs, List.foldl_cons, upto_map]
  have h0 : Holds (Job.act K o fuel s (.tpqrt i k))
      (Mat.putBlk (Mat.putBlk A k k x.1) i k x.2.1, Mat.putBlk T i k x.2.2) := by
    refine h.job _ ?_
    simp only [Job.onTiles, except_bind_eq_ok]
    exact ⟨x, hx, rfl⟩
  refine (loop_holds (Rel := fun s A' => Holds s (A', Mat.putBlk T i k x.2.2) ∧ A' i k = x.2.1)
    (act := fun x s => Job.act K o fuel s x) ?_ ⟨h0, by simp [Mat.putBlk]⟩ hl).1
  rintro u hu s' a b ⟨ha, hk⟩ hf
  rw [except_bind_eq_ok] at hf
  obtain ⟨y, hy, hf⟩ := hf
  cases hf
  refine ⟨?_, ?_⟩
  · simp only [List.foldl_cons, List.foldl_nil]
    refine ha.job _ ?_
    simp only [Job.onTiles, except_bind_eq_ok]
    refine ⟨y, ?_, rfl⟩
    rw [hk]
    simpa [Mat.putBlk] using hy
  · simp only [Mat.putBlk]
    rw [if_neg (by omega), if_neg (by omega), hk]

theorem tiledStep_holds {K : QrKernels R} {o : LrOps R} {fuel p q tr tc k : Nat}
    {st st' : (Nat → Nat → Mat R) × (Nat → Nat → Mat R)} {s : Cell → Mat R} (h : Holds s st)
    (hr : Mat.tiledStep K o fuel p q tr tc k st = .ok st') :
    Holds (runJobs K o fuel (Job.geqrt k :: (upto (k + 1) q).map (Job.larfb k) ++
      (upto (k + 1) p).flatMap fun i =>
        Job.tpqrt i k :: (upto (k + 1) q).map fun j => Job.tpmqrt i j k) s) st' := by
  obtain ⟨A, T⟩ := st
  simp only [Mat.tiledStep, except_bind_eq_ok] at hr
  obtain ⟨akk, h1, t, h3, x, hx, B, hl, hr⟩ := hr
  rw [(Mat.blockAt_ok h1).2.2, (Mat.blockAt_ok h3).2.2] at hx
  have h0 : Holds (Job.act K o fuel s (.geqrt k)) (Mat.putBlk A k k x.1, Mat.putBlk T k k x.2) := by
    refine h.job _ ?_
    simp only [Job.onTiles, except_bind_eq_ok]
    exact ⟨x, hx, rfl⟩
  have h2 : Holds (runJobs K o fuel (Job.geqrt k :: (upto (k + 1) q).map (Job.larfb k)) s)
      (B, Mat.putBlk T k k x.2) := by
    rw [runJobs, List.foldl_cons, upto_map]
    refine (loop_holds (Rel := fun s A' => Holds s (A', Mat.putBlk T k k x.2) ∧ A' k k = x.1)
      (act := fun x s => Job.act K o fuel s x) ?_ ⟨h0, by simp [Mat.putBlk]⟩ hl).1
    rintro u hu s' a b ⟨ha, hk⟩ hf
    rw [except_bind_eq_ok] at hf
    obtain ⟨y, hy, hf⟩ := hf
    cases hf
    refine ⟨?_, ?_⟩
    · simp only [List.foldl_cons, List.foldl_nil]
      refine ha.job _ ?_
      simp only [Job.onTiles, except_bind_eq_ok]
      refine ⟨y, ?_, rfl⟩
      rw [hk]
      simpa [Mat.putBlk] using hy
    · simp only [Mat.putBlk]
      rw [if_neg (by omega), hk]
  rw [runJobs, List.foldl_append, upto_flatMap]
  exact loop_holds (Rel := Holds) (act := fun x s => Job.act K o fuel s x)
    (fun u _ s' a b ha hf => tiledInner_holds (by omega) ha hf) h2 hr

/-- The tasks in program order compute what `tiled_householder_blr_qr` computes. -/
theorem tiledQr_holds {K : QrKernels R} {o : LrOps R} {fuel p q tr tc : Nat} {A T A' T' : Nat → Nat → Mat R}
    {s : Cell → Mat R} (h : Holds s (A, T)) (hr : Mat.tiledQr K o fuel p q A tr tc T = .ok (A', T')) :
    Holds (runJobs K o fuel (tiledJobs p q) s) (A', T') := by
  simp only [Mat.tiledQr, except_bind_eq_ok] at hr
  obtain ⟨_, _, _, _, hl⟩ := hr
  exact loop_holds (Rel := Holds) (act := fun x s => Job.act K o fuel s x)
    (fun u _ s' a b ha hf => tiledStep_holds ha hf) h hl

/-! ### multiplication with the reflectors -/

/-- The memory holds the tiles of `Y`, `T` and `C`. -/
def HoldsQ (Y T : Nat → Nat → Mat R) (s : Cell → Mat R) (C : Nat → Nat → Mat R) : Prop :=
  Holds s (Y, T) ∧ ∀ i j, s (.q i j) = C i j

omit [CommRing R] [DecidableEq R] in
theorem HoldsQ.set {Y T C : Nat → Nat → Mat R} {s : Cell → Mat R} (h : HoldsQ Y T s C) (i j : Nat)
    (X : Mat R) : HoldsQ Y T (setCell s (.q i j) X) (Mat.putBlk C i j X) := by
  refine ⟨fun a b => ?_, fun a b => ?_⟩
  · simpa [setCell] using h.1 a b
  · by_cases e : a = i ∧ b = j
    · obtain ⟨rfl, rfl⟩ := e
      simp [setCell, Mat.putBlk]
    · simp only [setCell, Mat.putBlk, if_neg e]
      simpa [e] using h.2 a b

abbrev runQJobs (o : LrOps R) (fuel : Nat) (trans : Bool) (l : List QJob) (s : Cell → Mat R) :
    Cell → Mat R := l.foldl (fun s x => QJob.act o fuel trans s x) s

theorem leftMulLarfb_holds {o : LrOps R} {fuel p q tr tc m n k : Nat} {trans : Bool}
    {Y T C C' : Nat → Nat → Mat R} {s : Cell → Mat R} (h : HoldsQ Y T s C)
    (hr : Mat.leftMulLarfb p q Y tr tc T m n trans k C = .ok C') :
    HoldsQ Y T (runQJobs o fuel trans ((upto k q).map (QJob.larfb k)) s) C' := by
  rw [runQJobs, upto_map]
  refine loop_holds (Rel := HoldsQ Y T) (act := fun x s => QJob.act o fuel trans s x) ?_ h hr
  intro u hu s' a b ha hf
  simp only [except_bind_eq_ok] at hf
  obtain ⟨v, h1, t, h2, c, h3, y, hy, hf⟩ := hf
  cases hf
  rw [(Mat.blockAt_ok h1).2.2, (Mat.blockAt_ok h2).2.2, (Mat.blockAt_ok h3).2.2] at hy
  simp only [List.foldl_cons, List.foldl_nil, QJob.act, (ha.1 k k).2, ha.2, larfb_lower (ha.1 k k).1, hy, onOk]
  exact ha.set _ _ _

theorem leftMulTpmqrt_holds {o : LrOps R} {fuel p q tr tc m n k i : Nat} {trans : Bool}
    {Y T C C' : Nat → Nat → Mat R} {s : Cell → Mat R} (h : HoldsQ Y T s C)
    (hr : Mat.leftMulTpmqrt o fuel p q Y tr tc T m n trans k i C = .ok C') :
    HoldsQ Y T (runQJobs o fuel trans ((upto k q).map fun j => QJob.tpmqrt i j k) s) C' := by
  rw [runQJobs, upto_map]
  refine loop_holds (Rel := HoldsQ Y T) (act := fun x s => QJob.act o fuel trans s x) ?_ h hr
  intro u hu s' a b ha hf
  simp only [except_bind_eq_ok] at hf
  obtain ⟨v, h1, t, h2, c, h3, d, h4, y, hy, hf⟩ := hf
  cases hf
  rw [(Mat.blockAt_ok h1).2.2, (Mat.blockAt_ok h2).2.2, (Mat.blockAt_ok h3).2.2, (Mat.blockAt_ok h4).2.2] at hy
  simp only [List.foldl_cons, List.foldl_nil, QJob.act, (ha.1 i k).2, ha.2, ha.1.tile, hy, onOk]
  exact (ha.set _ _ _).set _ _ _

/-- The tasks in program order compute what `left_multiply_tiled_reflector` computes. -/
theorem leftMulTiled_holds {o : LrOps R} {fuel p q tr tc m n : Nat} {trans : Bool}
    {Y T C C' : Nat → Nat → Mat R} {s : Cell → Mat R} (h : HoldsQ Y T s C)
    (hr : Mat.leftMulTiled o fuel p q Y tr tc T m n C trans = .ok C') :
    HoldsQ Y T (runQJobs o fuel trans (if trans then applyJobs p q else buildJobs p q) s) C' := by
  unfold Mat.leftMulTiled at hr
  cases trans
  · simp only [Bool.false_eq_true, if_false] at hr ⊢
    rw [runQJobs, buildJobs, downto_flatMap]
    refine loop_holds (Rel := HoldsQ Y T) (act := fun x s => QJob.act o fuel false s x) ?_ h hr
    intro v hv s' a b ha hf
    rw [except_bind_eq_ok] at hf
    obtain ⟨c, hc, hb⟩ := hf
    rw [List.foldl_append]
    refine leftMulLarfb_holds ?_ hb
    rw [downto_flatMap]
    exact loop_holds (Rel := HoldsQ Y T) (act := fun x s => QJob.act o fuel false s x)
      (fun u _ s' a b ha hf => leftMulTpmqrt_holds ha hf) ha hc
  · simp only [if_true] at hr ⊢
    refine loop_holds (Rel := HoldsQ Y T) (act := fun x s => QJob.act o fuel true s x) ?_ h hr
    intro k hk s' a b ha hf
    rw [except_bind_eq_ok] at hf
    obtain ⟨c, hc, hb⟩ := hf
    rw [List.foldl_append, upto_flatMap]
    exact loop_holds (Rel := HoldsQ Y T) (act := fun x s => QJob.act o fuel true s x)
      (fun u _ s' a b ha hf => leftMulTpmqrt_holds ha hf) (leftMulLarfb_holds ha hc) hb

end
end Verif.ParQr
