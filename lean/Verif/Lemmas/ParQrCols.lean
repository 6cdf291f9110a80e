import Verif.Model.ParQrCols
import Verif.Lemmas.ParQrTiles
import Verif.Lemmas.ParQr2

/-!
The fork-join blocked QR program and the fork-join Gram-Schmidt program: what the tasks do
in program order.
-/

namespace Verif

theorem collect_ext {α : Type _} [Inhabited α] {n : Nat} {f g : Nat → Except Err α} (h : ∀ i < n, f i = g i) :
    collect n f = collect n g := by
  induction n with
  | zero => rfl
  | succ n ih => rw [collect, collect, ih fun i hi => h i (by omega), h n (by omega)]

namespace ParQr
open Omp

variable {R : Type}

theorem within_pos {k p i : Nat} (c : Nat → Mat R) (h1 : k ≤ i) (h2 : i < p) : within k p c i = c i := if_pos ⟨h1, h2⟩

theorem within_congr {k p : Nat} {c d : Nat → Mat R} (h : ∀ i, k ≤ i → i < p → c i = d i) : within k p c = within k p d := by
  funext i
  unfold within
  split
  · rename_i e
    exact h i e.1 e.2
  · rfl

section
variable [CommRing R]

theorem triangularizeCol_within {K : QrKernels R} {p k : Nat} {c : Nat → Mat R} {x}
    (h : Mat.triangularizeCol K p k c = .ok x) :
    ∃ x', Mat.triangularizeCol K p k (within k p c) = .ok x' ∧ x'.2 = x.2 ∧ (∀ i, k ≤ i → i < p → x'.1 i = x.1 i) ∧
      ∀ i, ¬ (k ≤ i ∧ i < p) → x.1 i = c i := by
  unfold Mat.triangularizeCol at h ⊢
  split at h
  · rename_i hk
    rw [if_pos hk]
    simp only [except_bind_eq_ok] at h
    obtain ⟨Rj, h1, D, h2, y, h3, new, h4, h⟩ := h
    rw [← Except.ok.inj h]
    rw [collect_ext (g := fun i => Mat.rightFactor (c (k + i)))
      (fun i hi => by rw [within_pos c (by omega) (by omega)]), h1, except_bind_ok, h2, except_bind_ok, h3, except_bind_ok]
    refine ⟨(fun i => if k ≤ i ∧ i < p then new (i - k) else within k p c i, y.2), ?_, rfl, fun i hi hi' => ?_, fun i hi => ?_⟩
    · rw [collect_ext fun i hi => by rw [within_pos c (by omega) (by omega)], h4, except_bind_ok]
    · simp only [if_pos (And.intro hi hi')]
    · simp only [if_neg hi]
  · cases h

variable [DecidableEq R]

theorem applyBlockCol_within {o : LrOps R} {fuel p k : Nat} {trans : Bool} {Y c : Nat → Mat R} {t : Mat R} {x}
    (h : Mat.applyBlockCol o fuel p Y t k trans c = .ok x) :
    ∃ x', Mat.applyBlockCol o fuel p (within k p Y) t k trans (within k p c) = .ok x' ∧
      (∀ i, k ≤ i → i < p → x' i = x i) ∧ ∀ i, ¬ (k ≤ i ∧ i < p) → x i = c i := by
  unfold Mat.applyBlockCol at h ⊢
  simp only [except_bind_eq_ok, assertM_eq_ok, decide_eq_true_eq] at h
  obtain ⟨Yt, h1, _, hk, C1, h2, C2, h3, C3, h4, C4, h5, n, h6, ak, h7, rest, h8, h⟩ := h
  rw [← Except.ok.inj h]
  have hpos : decide (k < p) = true := decide_eq_true hk
  rw [collect_ext (g := fun i => (Y (i + k)).transpose)
      (fun i hi => by rw [within_pos Y (by omega) (by omega)]), h1, except_bind_ok, hpos, assertM, if_pos rfl, except_bind_ok,
    within_pos Y (le_refl k) hk, within_pos c (le_refl k) hk, h2, except_bind_ok,
    loop_congr (f' := fun u C => Mat.gemm o fuel (Yt (u + 1)) (c (k + 1 + u)) C 1 1 false false) _
      (fun u hu X => by rw [within_pos c (by omega) (by omega)]), h3, except_bind_ok, h4, except_bind_ok, h5,
    except_bind_ok, h6, except_bind_ok, h7, except_bind_ok,
    collect_ext (g := fun u => Mat.gemm o fuel (Y (k + 1 + u)) C3 (c (k + 1 + u)) (-1) 1 false false)
      (fun u hu => by rw [within_pos c (by omega) (by omega), within_pos Y (by omega) (by omega)]), h8, except_bind_ok]
  refine ⟨_, rfl, fun i hi hi' => ?_, fun i hi => ?_⟩
  · by_cases e : i = k
    · simp only [if_pos e]
    · simp only [if_neg e, if_pos (show k < i ∧ i < p by omega)]
  · beta_reduce
    rw [if_neg (by omega), if_neg (by omega)]

/-! ### the tasks touch the declared cells only -/

omit [CommRing R] [DecidableEq R] in
theorem readA_congr {s s' : Cell → Mat R} {k p j : Nat} (h : ∀ c ∈ colA p k j, s c = s' c) : readA s k p j = readA s' k p j := by
  refine within_congr fun i h1 h2 => ?_
  rw [tile, tile, h (.a i j .lower) ⟨i, _, h1, h2, rfl⟩, h (.a i j .upper) ⟨i, _, h1, h2, rfl⟩]

omit [CommRing R] [DecidableEq R] in
theorem readQ_congr {s s' : Cell → Mat R} {k p j : Nat} (h : ∀ c ∈ colQ p k j, s c = s' c) : readQ s k p j = readQ s' k p j :=
  within_congr fun i h1 h2 => h (.q i j) ⟨i, h1, h2, rfl⟩

omit [CommRing R] [DecidableEq R] in
theorem writeA_frame {s : Cell → Mat R} {k p j : Nat} {x : Nat → Mat R} {c : Cell} (h : c ∉ colA p k j) :
    writeA s k p j x c = s c := by
  cases c with
  | a i j' hf =>
    refine if_neg fun e => h ⟨i, hf, e.2.1, e.2.2, ?_⟩
    rw [e.1]
  | t | q | r => rfl

omit [CommRing R] [DecidableEq R] in
theorem writeQ_frame {s : Cell → Mat R} {k p j : Nat} {x : Nat → Mat R} {c : Cell} (h : c ∉ colQ p k j) :
    writeQ s k p j x c = s c := by
  cases c with
  | q i j' =>
    refine if_neg fun e => h ⟨i, e.2.1, e.2.2, ?_⟩
    rw [e.1]
  | t | a | r => rfl

omit [CommRing R] [DecidableEq R] in
theorem writeA_congr {s s' : Cell → Mat R} {k p j : Nat} {x : Nat → Mat R} {c : Cell} (h : s c = s' c) :
    writeA s k p j x c = writeA s' k p j x c := by
  cases c <;> simp only [writeA, h]

omit [CommRing R] [DecidableEq R] in
theorem writeQ_congr {s s' : Cell → Mat R} {k p j : Nat} {x : Nat → Mat R} {c : Cell} (h : s c = s' c) :
    writeQ s k p j x c = writeQ s' k p j x c := by
  cases c <;> simp only [writeQ, h]

def BJob.step (K : QrKernels R) (o : LrOps R) (fuel p : Nat) (trans : Bool) (x : BJob) : Step Cell (Mat R) where
  reads := x.reads p
  writes := x.writes p
  act := fun s => x.act K o fuel p trans s
  frame := by
    intro s c hc
    cases x with
    | triangularize k =>
      simp only [BJob.writes, Set.mem_union, Set.mem_singleton_iff, not_or] at hc
      refine onOk_frame fun a => ?_
      rw [setCell, if_neg hc.2, writeA_frame hc.1]
    | applyA k j => exact onOk_frame fun a => writeA_frame hc
    | applyQ k j => exact onOk_frame fun a => writeQ_frame hc
  dep := by
    intro s s' hr c hc
    cases x with
    | triangularize k =>
      have hs := hr c hc
      refine onOk_congr ?_ hs fun a => ?_
      · rw [readA_congr fun c hc => hr c (Or.inl hc)]
      · simp only [setCell]
        rw [writeA_congr hs]
    | applyA k j =>
      have hs := hr c (Or.inr hc)
      refine onOk_congr ?_ hs fun a => writeA_congr hs
      rw [readA_congr fun c hc => hr c (Or.inl (Or.inl hc)), readA_congr fun c hc => hr c (Or.inr hc),
        hr (.t k 0) (Or.inl (Or.inr rfl))]
    | applyQ k j =>
      have hs := hr c (Or.inr hc)
      refine onOk_congr ?_ hs fun a => writeQ_congr hs
      rw [readA_congr fun c hc => hr c (Or.inl (Or.inl hc)), readQ_congr fun c hc => hr c (Or.inr hc),
        hr (.t k 0) (Or.inl (Or.inr rfl))]

def MJob.step (L : Lapack R) (o : LrOps R) (fuel p : Nat) (x : MJob) : Step Cell (Mat R) where
  reads := x.reads p
  writes := x.writes p
  act := fun s => x.act L o fuel p s
  frame := by
    intro s c hc
    cases x with
    | orth j =>
      simp only [MJob.writes, Set.mem_union, Set.mem_singleton_iff, not_or] at hc
      refine onOk_frame fun a => ?_
      rw [setCell, if_neg hc.2, writeQ_frame hc.1]
    | project j k =>
      refine onOk_frame fun a => ?_
      exact if_neg hc
    | subtract j k i =>
      refine onOk_frame fun a => ?_
      exact if_neg hc
  dep := by
    intro s s' hr c hc
    cases x with
    | orth j =>
      have hs : s c = s' c := hr c (hc.elim (fun h => Or.inl (Or.inr h)) Or.inr)
      refine onOk_congr ?_ hs fun a => ?_
      · rw [readA_congr fun c hc => hr c (Or.inl (Or.inl hc)), readQ_congr fun c hc => hr c (Or.inl (Or.inr hc)),
          hr (.r j j) (Or.inr rfl)]
      · simp only [setCell]
        rw [writeQ_congr hs]
    | project j k =>
      have hs : s c = s' c := hr c (Or.inr hc)
      refine onOk_congr ?_ hs fun a => ?_
      · rw [readQ_congr fun c hc => hr c (Or.inl (Or.inl hc)), readA_congr fun c hc => hr c (Or.inl (Or.inr hc)),
          hr (.r j k) (Or.inr rfl)]
      · simp only [setCell, hs]
    | subtract j k i =>
      have hs : s c = s' c := hr c (Or.inr hc)
      refine onOk_congr ?_ hs fun a => ?_
      · rw [tile, tile, hr (.q i j) (Or.inl (Or.inl rfl)), hr (.r j k) (Or.inl (Or.inr rfl)),
          hr (.a i k .lower) (Or.inr (Or.inl rfl)), hr (.a i k .upper) (Or.inr (Or.inr rfl))]
      · simp only [setTile, hs]

/-! ### the blocked program in program order -/

omit [CommRing R] [DecidableEq R] in
theorem InMemory.tile {s : Cell → Mat R} {A T : Nat → Nat → Mat R} (h : InMemory s A T) (i j : Nat) : tile s i j = A i j := by
  rw [ParQr.tile, (h i j).1, (h i j).1]
  exact (Rep.self _).glue

omit [CommRing R] [DecidableEq R] in
theorem InMemory.readA {s : Cell → Mat R} {A T : Nat → Nat → Mat R} (h : InMemory s A T) (k p j : Nat) :
    readA s k p j = within k p fun i => A i j := within_congr fun i _ _ => h.tile i j

omit [CommRing R] [DecidableEq R] in
theorem InMemory.writeA {s : Cell → Mat R} {A T : Nat → Nat → Mat R} (h : InMemory s A T) {k p j : Nat} {x y : Nat → Mat R}
    (h1 : ∀ i, k ≤ i → i < p → x i = y i) (h2 : ∀ i, ¬ (k ≤ i ∧ i < p) → y i = A i j) :
    InMemory (writeA s k p j x) (Mat.putCol A j y) T := by
  intro a b
  refine ⟨fun hf => ?_, (h a b).2⟩
  simp only [ParQr.writeA, Mat.putCol]
  by_cases e : b = j
  · subst e
    by_cases e' : k ≤ a ∧ a < p
    · rw [if_pos ⟨rfl, e'⟩, if_pos rfl, h1 a e'.1 e'.2]
    · rw [if_neg fun h => e' h.2, if_pos rfl, h2 a e', (h a b).1]
  · rw [if_neg fun h => e h.1, if_neg e, (h a b).1]

abbrev runBJobs (K : QrKernels R) (o : LrOps R) (fuel p : Nat) (trans : Bool) (l : List BJob) (s : Cell → Mat R) : Cell → Mat R :=
  l.foldl (fun s x => BJob.act K o fuel p trans s x) s

theorem blockedStep_holds {K : QrKernels R} {o : LrOps R} {fuel p q k : Nat} {trans : Bool}
    {st st' : (Nat → Nat → Mat R) × (Nat → Nat → Mat R)} {s : Cell → Mat R} (h : InMemory s st.1 st.2)
    (hr : Mat.blockedStep K o fuel p q k st = .ok st') :
    InMemory (runBJobs K o fuel p trans ([[BJob.triangularize k], (upto (k + 1) q).map (BJob.applyA k)].flatten) s) st'.1 st'.2 := by
  obtain ⟨A, T⟩ := st
  simp only [Mat.blockedStep, except_bind_eq_ok] at hr
  obtain ⟨x, hx, B, hl, hr⟩ := hr
  cases hr
  obtain ⟨x', e1, e2, e3, e4⟩ := triangularizeCol_within hx
  have h0 : InMemory (BJob.act K o fuel p trans s (.triangularize k)) (Mat.putCol A k x.1) (Mat.putBlk T k 0 (.dense x.2)) := by
    have := h.writeA (p := p) e3 e4
    simp only [BJob.act, h.readA, e1, onOk, e2]
    intro i j
    refine ⟨fun hf => ?_, ?_⟩
    · rw [setCell, if_neg (by simp)]
      exact (this i j).1 hf
    · simp only [setCell, Mat.putBlk, Cell.t.injEq]
      by_cases e : i = k ∧ j = 0
      · rw [if_pos e, if_pos e]
      · rw [if_neg e, if_neg e]
        exact (this i j).2
  simp only [List.flatten_cons, List.flatten_nil, List.append_nil, List.cons_append, List.nil_append]
  rw [runBJobs, List.foldl_cons, upto_map]
  refine (loop_holds (Rel := fun s A' => InMemory s A' (Mat.putBlk T k 0 (.dense x.2)) ∧ ∀ i, A' i k = x.1 i)
    (act := fun x s => BJob.act K o fuel p trans s x) ?_ ⟨h0, fun i => if_pos rfl⟩ hl).1
  rintro u hu s' a b ⟨ha, hk⟩ hf
  rw [except_bind_eq_ok] at hf
  obtain ⟨y, hy, hf⟩ := hf
  cases hf
  obtain ⟨y', f1, f2, f3⟩ := applyBlockCol_within hy
  refine ⟨?_, fun i => ?_⟩
  · have et : s' (.t k 0) = .dense x.2 := by
      rw [(ha k 0).2]
      exact if_pos ⟨rfl, rfl⟩
    simp only [List.foldl_cons, List.foldl_nil, BJob.act, ha.readA, hk, et, f1, onOk]
    exact ha.writeA f2 f3
  · rw [← hk i]
    exact if_neg (by omega)

/-- The tasks in program order compute what `blocked_householder_blr_qr` computes. -/
theorem blockedQr_holds {K : QrKernels R} {o : LrOps R} {fuel p q tr tc : Nat} {trans : Bool} {A T A' T' : Nat → Nat → Mat R}
    {s : Cell → Mat R} (h : InMemory s A T) (hr : Mat.blockedQr K o fuel p q A tr tc T = .ok (A', T')) :
    InMemory (runBJobs K o fuel p trans (blockedStages q).flatten s) A' T' := by
  simp only [Mat.blockedQr, except_bind_eq_ok] at hr
  obtain ⟨_, _, _, _, hl⟩ := hr
  rw [blockedStages, flatten_flatMap]
  exact loop_holds (Rel := fun s st => InMemory s st.1 st.2) (act := fun x s => BJob.act K o fuel p trans s x)
    (fun u _ s' a b ha hf => blockedStep_holds ha hf) h hl

/-- The memory holds the blocks of `Y`, `T` and `C`. -/
def StoresQ (Y T : Nat → Nat → Mat R) (s : Cell → Mat R) (C : Nat → Nat → Mat R) : Prop :=
  InMemory s Y T ∧ ∀ i j, s (.q i j) = C i j

theorem leftMulBlockedStep_holds {K : QrKernels R} {o : LrOps R} {fuel p q tr tc m n k : Nat} {trans : Bool}
    {Y T C C' : Nat → Nat → Mat R} {s : Cell → Mat R} (h : StoresQ Y T s C)
    (hr : Mat.leftMulBlockedStep o fuel p q Y tr tc T m n trans k C = .ok C') :
    StoresQ Y T (runBJobs K o fuel p trans ((upto k q).map (BJob.applyQ k)) s) C' := by
  unfold Mat.leftMulBlockedStep at hr
  rw [runBJobs, upto_map]
  refine loop_holds (Rel := StoresQ Y T) (act := fun x s => BJob.act K o fuel p trans s x) ?_ h hr
  rintro u hu s' a b ⟨ha, hq⟩ hf
  simp only [except_bind_eq_ok] at hf
  obtain ⟨_, _, _, _, t, ht, y, hy, hf⟩ := hf
  cases hf
  rw [(Mat.blockAt_ok ht).2.2] at hy
  obtain ⟨y', f1, f2, f3⟩ := applyBlockCol_within hy
  have eq : readQ s' k p (k + u) = within k p fun i => a i (k + u) := within_congr fun i _ _ => hq i _
  simp only [List.foldl_cons, List.foldl_nil, BJob.act, ha.readA, eq, (ha k 0).2, f1, onOk]
  refine ⟨fun i j => ⟨fun hf => (ha i j).1 hf, (ha i j).2⟩, fun i j => ?_⟩
  simp only [writeQ, Mat.putCol]
  by_cases e : j = k + u
  · subst e
    by_cases e' : k ≤ i ∧ i < p
    · rw [if_pos ⟨rfl, e'⟩, if_pos rfl, f2 i e'.1 e'.2]
    · rw [if_neg fun h => e' h.2, if_pos rfl, f3 i e', hq]
  · rw [if_neg fun h => e h.1, if_neg e, hq]

/-- The tasks in program order compute what `left_multiply_blocked_reflector` computes. -/
theorem leftMulBlocked_holds {K : QrKernels R} {o : LrOps R} {fuel p q tr tc m n : Nat} {trans : Bool}
    {Y T C C' : Nat → Nat → Mat R} {s : Cell → Mat R} (h : StoresQ Y T s C)
    (hr : Mat.leftMulBlocked o fuel p q Y tr tc T m n C trans = .ok C') :
    StoresQ Y T (runBJobs K o fuel p trans (if trans then blockedApplyStages q else blockedBuildStages q).flatten s) C' := by
  unfold Mat.leftMulBlocked at hr
  cases trans
  · simp only [Bool.false_eq_true, if_false] at hr ⊢
    rw [blockedBuildStages, ← List.flatMap_def, runBJobs, downto_flatMap]
    exact loop_holds (Rel := StoresQ Y T) (act := fun x s => BJob.act K o fuel p false s x)
      (fun v _ s' a b ha hf => leftMulBlockedStep_holds ha hf) h hr
  · simp only [if_true] at hr ⊢
    rw [blockedApplyStages, ← List.flatMap_def, runBJobs]
    exact loop_holds (Rel := StoresQ Y T) (act := fun x s => BJob.act K o fuel p true s x)
      (fun v _ s' a b ha hf => leftMulBlockedStep_holds ha hf) h hr

/-! ### the Gram-Schmidt program in program order -/

theorem loop_sim {σ τ : Type} {Rel : σ → τ → Prop} {n : Nat} {f : Nat → σ → Except Err σ} {g : Nat → τ → Except Err τ}
    (hs : ∀ i < n, ∀ a b a', Rel a b → f i a = .ok a' → ∃ b', g i b = .ok b' ∧ Rel a' b') {a a' : σ} {b : τ} (h : Rel a b)
    (hl : loop n f a = .ok a') : ∃ b', loop n g b = .ok b' ∧ Rel a' b' := by
  induction n generalizing a' with
  | zero => cases hl; exact ⟨b, rfl, h⟩
  | succ n ih =>
    rw [loop_succ, except_bind_eq_ok] at hl
    obtain ⟨x, hx, hl⟩ := hl
    obtain ⟨y, hy, hr⟩ := ih (fun i hi => hs i (by omega)) hx
    obtain ⟨b', hb, hr'⟩ := hs n (by omega) x y a' hr hl
    exact ⟨b', by rw [loop_succ, hy, except_bind_ok, hb], hr'⟩

omit [DecidableEq R] in
theorem splitBlockCol_within (p : Nat) (A : Nat → Mat R) :
    Mat.splitBlockCol p (within 0 p A) = Mat.splitBlockCol p A := by
  have e : Mat.splitSize p (within 0 p A) = Mat.splitSize p A := by
    unfold Mat.splitSize
    refine List.foldl_ext _ _ _ fun s i hi => ?_
    rw [within_pos A (Nat.zero_le i) (List.mem_range.1 hi)]
  unfold Mat.splitBlockCol
  rw [e]
  simp only
  rw [loop_congr _ fun i hi st => by rw [within_pos A (Nat.zero_le i) hi]]

omit [DecidableEq R] in
theorem restoreBlockCol_within {p rows cols : Nat} {S : Nat → Nat → Mat R} {left : Nat → Dense R} {Q x : Nat → Mat R}
    (h : Mat.restoreBlockCol p rows cols S left Q = .ok x) :
    (∃ x', Mat.restoreBlockCol p rows cols S left (within 0 p Q) = .ok x' ∧ ∀ i < p, x' i = x i) ∧
      ∀ i, p ≤ i → x i = Q i := by
  unfold Mat.restoreBlockCol at h ⊢
  rw [except_bind_eq_ok] at h
  obtain ⟨y, hy, h⟩ := h
  cases h
  constructor
  · obtain ⟨z, hz, h1, -⟩ := loop_sim (f := fun i (st : (Nat → Mat R) × Nat) => do
        let y ← Mat.concatColumns rows cols S (st.1 i) (left i) st.2
        .ok (fun a => if a = i then y.1 else st.1 a, y.2)) (g := fun i (st : (Nat → Mat R) × Nat) => do
        let y ← Mat.concatColumns rows cols S (st.1 i) (left i) st.2
        .ok (fun a => if a = i then y.1 else st.1 a, y.2)) (b := (within 0 p Q, 0))
      (Rel := fun a b : (Nat → Mat R) × Nat => (∀ i < p, b.1 i = a.1 i) ∧ b.2 = a.2) (a := (Q, 0)) (by
        rintro i hi a b a' ⟨h1, h2⟩ hf
        rw [except_bind_eq_ok] at hf
        obtain ⟨w, hw, hf⟩ := hf
        cases hf
        refine ⟨(fun a => if a = i then w.1 else b.1 a, w.2), ?_, fun a ha => ?_, rfl⟩
        · rw [h1 i hi, h2, hw, except_bind_ok]
        · simp only
          split
          · rfl
          · exact h1 a ha) ⟨fun i hi => within_pos Q (Nat.zero_le i) hi, rfl⟩ hy
    exact ⟨z.1, by rw [hz, except_bind_ok], h1⟩
  · intro i hi
    refine loop_inv (fun _ (st : (Nat → Mat R) × Nat) => st.1 i = Q i) rfl (fun u hu a b ha hb => ?_) hy
    rw [except_bind_eq_ok] at hb
    obtain ⟨w, -, hb⟩ := hb
    cases hb
    exact (if_neg (by omega)).trans ha

theorem orthogonalizeBlockCol_within {L : Lapack R} {o : LrOps R} {fuel p : Nat} {mgs : Mat.MgsT R} {A Q : Nat → Mat R}
    {r : Mat R} {x} (h : Mat.orthogonalizeBlockCol L o fuel mgs p A Q r = .ok x) :
    (∃ x', Mat.orthogonalizeBlockCol L o fuel mgs p (within 0 p A) (within 0 p Q) r = .ok x' ∧ (∀ i < p, x'.1 i = x.1 i) ∧
      x'.2 = x.2) ∧ ∀ i, p ≤ i → x.1 i = Q i := by
  cases r with
  | dense d =>
    simp only [Mat.orthogonalizeBlockCol, Mat.orthogonalizeDense] at h ⊢
    rw [except_bind_eq_ok] at h
    obtain ⟨B, h1, h⟩ := h
    rw [except_bind_eq_ok] at h
    obtain ⟨D, h2, h⟩ := h
    rw [collect_ext (g := fun i => Mat.makeLeftOrthogonal (A i))
      (fun i hi => by rw [within_pos A (Nat.zero_le i) hi]), h1, except_bind_ok, h2, except_bind_ok]
    split at h
    · rename_i hc
      rw [if_pos hc]
      rw [except_bind_eq_ok (x := L.qrInto D D.rows D.cols D.cols D.cols)] at h
      obtain ⟨y, h3, h⟩ := h
      rw [except_bind_eq_ok] at h
      obtain ⟨new, h4, h⟩ := h
      cases h
      rw [h3, except_bind_ok, collect_ext fun i hi => by rw [within_pos Q (Nat.zero_le i) hi], h4, except_bind_ok]
      refine ⟨⟨_, rfl, fun i hi => ?_, rfl⟩, fun i hi => if_neg (by omega)⟩
      simp only [if_pos hi]
    · cases h
  | hier rr rc Rb =>
    simp only [Mat.orthogonalizeBlockCol, except_bind_eq_ok] at h ⊢
    obtain ⟨s, h1, y, h2, Q', h3, h⟩ := h
    cases h
    obtain ⟨⟨x', h4, h5⟩, h6⟩ := restoreBlockCol_within h3
    exact ⟨⟨_, ⟨s, by rw [splitBlockCol_within, h1], y, h2, x', h4, rfl⟩, h5, rfl⟩, h6⟩
  | lowRank => cases h
  | empty => cases h

theorem fold_range {S J : Type} {P : Nat → S → Prop} {act : S → J → S} {jobs : Nat → List J} {n : Nat} {s : S} (h0 : P 0 s)
    (hs : ∀ u < n, ∀ s, P u s → P (u + 1) ((jobs u).foldl act s)) : P n (((List.range n).flatMap jobs).foldl act s) := by
  induction n with
  | zero => exact h0
  | succ n ih =>
    rw [List.range_succ, List.flatMap_append, List.foldl_append]
    simp only [List.flatMap_cons, List.flatMap_nil, List.append_nil]
    exact hs n (by omega) _ (ih fun u hu => hs u (by omega))

/-- The columns do not depend on one another. -/
theorem projLoop_closed {o : LrOps R} {fuel p n j : Nat} {beta : R} {q qt : Nat → Mat R}
    {s y : (Nat → Nat → Mat R) × (Nat → Nat → Mat R)}
    (h : loop n (fun u (s : (Nat → Nat → Mat R) × (Nat → Nat → Mat R)) => do
      let z ← Mat.projectCol o fuel beta p q qt (s.2 j (j + 1 + u)) (fun i => s.1 i (j + 1 + u))
      .ok (Mat.putCol s.1 (j + 1 + u) z.2, Mat.putBlk s.2 j (j + 1 + u) z.1)) s = .ok y) :
    ∃ z : Nat → Mat R × (Nat → Mat R), (∀ u < n, Mat.projectCol o fuel beta p q qt (s.2 j (j + 1 + u))
        (fun i => s.1 i (j + 1 + u)) = .ok (z u)) ∧
      (∀ u < n, (∀ i, y.1 i (j + 1 + u) = (z u).2 i) ∧ y.2 j (j + 1 + u) = (z u).1) ∧
      (∀ i k, (∀ u < n, k ≠ j + 1 + u) → y.1 i k = s.1 i k) ∧
      ∀ i k, (∀ u < n, ¬ (i = j ∧ k = j + 1 + u)) → y.2 i k = s.2 i k := by
  induction n generalizing y with
  | zero =>
    cases h
    exact ⟨fun _ => (.empty 0 0, fun _ => .empty 0 0), fun u hu => absurd hu (by omega), fun u hu => absurd hu (by omega),
      fun _ _ _ => rfl, fun _ _ _ => rfl⟩
  | succ n ih =>
    rw [loop_succ, except_bind_eq_ok] at h
    obtain ⟨x, hx, h⟩ := h
    obtain ⟨z, h1, h2, h3, h4⟩ := ih hx
    rw [except_bind_eq_ok] at h
    obtain ⟨w, hw, h⟩ := h
    cases h
    have e1 : ∀ i, x.1 i (j + 1 + n) = s.1 i (j + 1 + n) := fun i => h3 i _ fun u hu => by omega
    have e2 : x.2 j (j + 1 + n) = s.2 j (j + 1 + n) := h4 j _ fun u hu => by omega
    rw [e2, funext e1] at hw
    refine ⟨fun u => if u = n then w else z u, fun u hu => ?_, fun u hu => ?_, fun i k hk => ?_, fun i k hk => ?_⟩
    · beta_reduce
      by_cases e : u = n
      · subst e
        rw [if_pos rfl, hw]
      · rw [if_neg e, h1 u (by omega)]
    · by_cases e : u = n
      · subst e
        simp only [if_true, Mat.putCol, Mat.putBlk, and_self, implies_true]
      · simp only [Mat.putCol, Mat.putBlk, if_neg e, if_neg (show ¬ j + 1 + u = j + 1 + n by omega),
          if_neg (show ¬ (True ∧ j + 1 + u = j + 1 + n) by omega)]
        exact h2 u (by omega)
    · simp only [Mat.putCol, if_neg (hk n (by omega))]
      exact h3 i k fun u hu => hk u (by omega)
    · simp only [Mat.putBlk, if_neg (hk n (by omega))]
      exact h4 i k fun u hu => hk u (by omega)

abbrev runMJobs (L : Lapack R) (o : LrOps R) (fuel p : Nat) (l : List MJob) (s : Cell → Mat R) : Cell → Mat R :=
  l.foldl (fun s x => MJob.act L o fuel p s x) s

/-- One step of the program. -/
theorem mgsStep_holds {L : Lapack R} {o : LrOps R} {fuel p q j : Nat}
    {st st' : (Nat → Nat → Mat R) × (Nat → Nat → Mat R) × (Nat → Nat → Mat R)} {s : Cell → Mat R} (h : InMemoryM s st.1 st.2.1 st.2.2)
    (hr : Mat.mgsStep L o fuel (Mat.mgsHier L o fuel fuel) 1 p q j st = .ok st') :
    InMemoryM (runMJobs L o fuel p ([[MJob.orth j], (upto (j + 1) q).map (MJob.project j),
      (upto (j + 1) q).flatMap fun k => (upto 0 p).map (MJob.subtract j k)].flatten) s) st'.1 st'.2.1 st'.2.2 := by
  obtain ⟨A, Q, Rb⟩ := st
  simp only [Mat.mgsStep, except_bind_eq_ok] at hr
  obtain ⟨x, hx, qt, hqt, y, hl, hr⟩ := hr
  cases hr
  obtain ⟨⟨x', o1, o2, o3⟩, o4⟩ := orthogonalizeBlockCol_within hx
  obtain ⟨z, z1, z2, z3, z4⟩ := projLoop_closed hl
  have rA : ∀ {s' : Cell → Mat R} {k}, (∀ i h, s' (.a i k h) = A i k) → readA s' 0 p k = within 0 p fun i => A i k :=
    fun h => within_congr fun i _ _ => by rw [tile, h, h]; exact (Rep.self _).glue
  -- after the orthogonalization
  have h1 : InMemoryM (MJob.act L o fuel p s (.orth j)) A (Mat.putCol Q j x.1) (Mat.putBlk Rb j j x.2) := by
    have eq : readQ s 0 p j = within 0 p fun i => Q i j := within_congr fun i _ _ => (h i j).2.1
    simp only [MJob.act, rA (fun i hf => (h i j).1 hf), eq, (h j j).2.2, o1, onOk]
    intro a b
    refine ⟨fun hf => ?_, ?_, ?_⟩
    · simp only [setCell, writeQ, reduceCtorEq, if_false]
      exact (h a b).1 hf
    · simp only [setCell, writeQ, reduceCtorEq, if_false, Mat.putCol]
      by_cases e : b = j
      · subst e
        by_cases e' : a < p
        · rw [if_pos ⟨rfl, Nat.zero_le a, e'⟩, if_pos rfl, o2 a e']
        · rw [if_neg fun h => e' h.2.2, if_pos rfl, o4 a (by omega)]
          exact (h a b).2.1
      · rw [if_neg fun h => e h.1, if_neg e]
        exact (h a b).2.1
    · simp only [setCell, writeQ, Cell.r.injEq, Mat.putBlk, o3]
      split
      · rfl
      · exact (h a b).2.2
  simp only [List.flatten_cons, List.flatten_nil, List.append_nil, List.cons_append, List.nil_append]
  rw [runMJobs, List.foldl_cons, List.foldl_append]
  generalize MJob.act L o fuel p s (.orth j) = s1 at h1 ⊢
  have k1 : ∀ u, j + 1 + u ≠ j := fun u => by omega
  -- the two parts of a projection
  have pr : ∀ u < q - (j + 1), ∃ new : Nat → Mat R,
      projectR o fuel p x.1 (fun i => A i (j + 1 + u)) (Rb j (j + 1 + u)) = .ok (z u).1 ∧
      (∀ i < p, Mat.gemm o fuel (x.1 i) (z u).1 (A i (j + 1 + u)) (-1) 1 false false = .ok (new i) ∧ (z u).2 i = new i) ∧
      ∀ i, p ≤ i → (z u).2 i = A i (j + 1 + u) := by
    intro u hu
    have := z1 u hu
    simp only [Mat.projectCol, except_bind_eq_ok] at this
    obtain ⟨r, e1, new, e2, e3⟩ := this
    rw [Mat.putBlk, if_neg (by have := k1 u; omega)] at e1
    rw [← Except.ok.inj e3]
    refine ⟨new, ?_, fun i hi => ⟨collect_ok e2 i hi, if_pos hi⟩, fun i hi => if_neg (by omega)⟩
    rw [projectR, hqt, except_bind_ok]
    refine Eq.trans (loop_congr _ fun i _ X => ?_) e1
    split <;> rfl
  -- after the projections
  have h2 : (∀ u < q - (j + 1), ((upto (j + 1) q).map (MJob.project j)).foldl (fun s x => MJob.act L o fuel p s x) s1
        (.r j (j + 1 + u)) = (z u).1) ∧
      ∀ c, (∀ u < q - (j + 1), c ≠ .r j (j + 1 + u)) →
        ((upto (j + 1) q).map (MJob.project j)).foldl (fun s x => MJob.act L o fuel p s x) s1 c = s1 c := by
    rw [upto_map]
    refine fold_range (P := fun w (s' : Cell → Mat R) => (∀ u < w, s' (.r j (j + 1 + u)) = (z u).1) ∧
      ∀ c, (∀ u < w, c ≠ .r j (j + 1 + u)) → s' c = s1 c) ⟨fun u hu => absurd hu (by omega), fun _ _ => rfl⟩ ?_
    rintro w hw s' ⟨g1, g2⟩
    obtain ⟨new, e1, -, -⟩ := pr w hw
    have ea : readA s' 0 p (j + 1 + w) = within 0 p fun i => A i (j + 1 + w) :=
      rA fun i hf => by rw [g2 _ (by simp)]; exact (h1 i _).1 hf
    have eq : readQ s' 0 p j = within 0 p x.1 := within_congr fun i _ _ => by
      rw [g2 _ (by simp), (h1 i j).2.1]
      exact if_pos rfl
    have er : s' (.r j (j + 1 + w)) = Rb j (j + 1 + w) := by
      rw [g2 _ (fun u hu => by simp; omega), (h1 j _).2.2]
      exact if_neg (by have := k1 w; omega)
    have ep : projectR o fuel p (within 0 p x.1) (within 0 p fun i => A i (j + 1 + w)) (Rb j (j + 1 + w)) = .ok (z w).1 := by
      rw [← e1, projectR, projectR, collect_ext fun i hi => by rw [within_pos x.1 (Nat.zero_le i) hi], hqt, except_bind_ok,
        except_bind_ok, loop_congr _ fun i hi X => by rw [within_pos _ (Nat.zero_le i) hi]]
    simp only [List.foldl_cons, List.foldl_nil, MJob.act, ea, eq, er, ep, onOk, setCell]
    refine ⟨fun u hu => ?_, fun c hc => ?_⟩
    · by_cases e : u = w
      · rw [e, if_pos rfl]
      · rw [if_neg (by simp; omega), g1 u (by omega)]
    · rw [if_neg (hc w (by omega)), g2 c fun u hu => hc u (by omega)]
  generalize ((upto (j + 1) q).map (MJob.project j)).foldl (fun s x => MJob.act L o fuel p s x) s1 = s2 at h2 ⊢
  -- after the subtractions
  have h3 : (∀ u < q - (j + 1), ∀ i < p, ∀ hf, ((upto (j + 1) q).flatMap fun k => (upto 0 p).map (MJob.subtract j k)).foldl
        (fun s x => MJob.act L o fuel p s x) s2 (.a i (j + 1 + u) hf) = (z u).2 i) ∧
      ∀ c, (∀ u < q - (j + 1), ∀ i < p, ∀ hf, c ≠ .a i (j + 1 + u) hf) →
        ((upto (j + 1) q).flatMap fun k => (upto 0 p).map (MJob.subtract j k)).foldl
          (fun s x => MJob.act L o fuel p s x) s2 c = s2 c := by
    rw [upto_flatMap]
    refine fold_range (P := fun w (s' : Cell → Mat R) => (∀ u < w, ∀ i < p, ∀ hf, s' (.a i (j + 1 + u) hf) = (z u).2 i) ∧
      ∀ c, (∀ u < w, ∀ i < p, ∀ hf, c ≠ .a i (j + 1 + u) hf) → s' c = s2 c)
      ⟨fun u hu => absurd hu (by omega), fun _ _ => rfl⟩ ?_
    rintro w hw s' ⟨g1, g2⟩
    obtain ⟨new, -, e2, -⟩ := pr w hw
    rw [upto_map, Nat.sub_zero]
    have inner := fold_range (P := fun v (s'' : Cell → Mat R) => (∀ i < v, ∀ hf, s'' (.a i (j + 1 + w) hf) = (z w).2 i) ∧
      ∀ c, (∀ i < v, ∀ hf, c ≠ .a i (j + 1 + w) hf) → s'' c = s' c) (act := fun s x => MJob.act L o fuel p s x)
      (jobs := fun u => [MJob.subtract j (j + 1 + w) (0 + u)]) (n := p) (s := s')
      ⟨fun u hu => absurd hu (by omega), fun _ _ => rfl⟩ (by
        rintro v hv s'' ⟨f1, f2⟩
        have ea : tile s'' v (j + 1 + w) = A v (j + 1 + w) := by
          have : ∀ hf, s'' (.a v (j + 1 + w) hf) = A v (j + 1 + w) := fun hf => by
            rw [f2 _ (fun i hi hf => by simp; omega), g2 _ (fun u hu i hi hf => by simp; omega), h2.2 _ (by simp)]
            exact (h1 _ _).1 hf
          rw [tile, this, this]
          exact (Rep.self _).glue
        have eq : s'' (.q v j) = x.1 v := by
          rw [f2 _ (by simp), g2 _ (by simp), h2.2 _ (by simp), (h1 _ _).2.1]
          exact if_pos rfl
        have er : s'' (.r j (j + 1 + w)) = (z w).1 := by
          rw [f2 _ (by simp), g2 _ (by simp), h2.1 w hw]
        simp only [List.foldl_cons, List.foldl_nil, MJob.act, Nat.zero_add, ea, eq, er, (e2 v hv).1, onOk, setTile]
        refine ⟨fun i hi hf => ?_, fun c hc => ?_⟩
        · by_cases e : i = v
          · rw [e, if_pos (by cases hf <;> simp), (e2 v hv).2]
          · rw [if_neg (by cases hf <;> simp [e]), f1 i (by omega)]
        · rw [if_neg (by
            rintro (e | e)
            · exact hc v (by omega) _ e
            · exact hc v (by omega) _ e), f2 c fun i hi => hc i (by omega)])
    refine ⟨fun u hu i hi hf => ?_, fun c hc => ?_⟩
    · by_cases e : u = w
      · rw [e]
        exact inner.1 i hi hf
      · rw [inner.2 _ (fun i hi hf => by simp; omega), g1 u (by omega) i hi]
    · rw [inner.2 c fun i hi hf => hc w (by omega) i hi hf, g2 c fun u hu => hc u (by omega)]
  generalize ((upto (j + 1) q).flatMap fun k => (upto 0 p).map (MJob.subtract j k)).foldl
    (fun s x => MJob.act L o fuel p s x) s2 = s3 at h3 ⊢
  intro a b
  refine ⟨fun hf => ?_, ?_, ?_⟩
  · by_cases e : ∃ u < q - (j + 1), b = j + 1 + u
    · obtain ⟨u, hu, rfl⟩ := e
      rw [(z2 u hu).1 a]
      by_cases e' : a < p
      · exact h3.1 u hu a e' hf
      · obtain ⟨-, -, -, e3⟩ := pr u hu
        rw [e3 a (by omega), h3.2 _ (fun v hv i hi hf => by simp; omega), h2.2 _ (by simp)]
        exact (h1 _ _).1 hf
    · have e' : ∀ u < q - (j + 1), b ≠ j + 1 + u := fun u hu h => e ⟨u, hu, h⟩
      rw [z3 a b e', h3.2 _ (fun v hv i hi hf => by simp; intro _ h; exact absurd h (e' v hv)), h2.2 _ (by simp)]
      exact (h1 _ _).1 hf
  · rw [h3.2 _ (by simp), h2.2 _ (by simp)]
    exact (h1 _ _).2.1
  · rw [h3.2 _ (by simp)]
    by_cases e : ∃ u < q - (j + 1), a = j ∧ b = j + 1 + u
    · obtain ⟨u, hu, rfl, rfl⟩ := e
      rw [(z2 u hu).2]
      exact h2.1 u hu
    · have e' : ∀ u < q - (j + 1), ¬ (a = j ∧ b = j + 1 + u) := fun u hu h => e ⟨u, hu, h⟩
      rw [z4 a b e', h2.2 _ (fun v hv h => e' v hv (by simpa using h))]
      exact (h1 _ _).2.2

/-- The tasks in program order compute what the loop of `mgs_qr` computes, with the old
blocks of `R` added. -/
theorem mgsFork_holds {L : Lapack R} {o : LrOps R} {fuel p q : Nat} {A Q Rb : Nat → Nat → Mat R} {x} {s : Cell → Mat R}
    (h : InMemoryM s A Q Rb) (hr : Mat.mgsWith L o fuel (Mat.mgsHier L o fuel fuel) 1 p q A p q Q q q Rb = .ok x) :
    ∃ A', InMemoryM (runMJobs L o fuel p (mgsStages p q).flatten s) A' x.1 x.2 := by
  simp only [Mat.mgsWith, except_bind_eq_ok] at hr
  obtain ⟨_, -, _, -, _, -, _, -, y, hl, hr⟩ := hr
  cases hr
  refine ⟨y.1, ?_⟩
  rw [mgsStages, flatten_flatMap]
  exact loop_holds (Rel := fun s st => InMemoryM s st.1 st.2.1 st.2.2) (act := fun x s => MJob.act L o fuel p s x)
    (fun u _ s' a b ha hf => mgsStep_holds ha hf) h hl

end
end ParQr
end Verif
