import Verif.Lemmas.QrTiledFac
import Verif.Model.FloatQr

/-!
Tiled Householder QR over any tile kernels, one block column at a time.
-/

set_option linter.unusedSectionVars false
set_option linter.unusedVariables false

namespace Verif
open Finset

namespace TileOps
open Mat (LowEq putRow putCol colLoop blockAt_ok stepPairs mem_stepPairs stepPairs_cons stepPairs_reverse pairs
  mem_pairs pairs_succ torder mem_torder StepCols)

variable {R : Type} [CommRing R] [DecidableEq R] {W : TileOps R}

/-- What the drivers rely on: `larfb` reads only the part of `V` below the diagonal, and
`tpqrt` keeps that part of its first argument. -/
structure Low (W : TileOps R) : Prop where
  larfb : ∀ X Y, LowEq X Y → ∀ trans t c, W.larfb trans X t c = W.larfb trans Y t c
  tpqrt : ∀ A B T y, W.tpqrt A B T = .ok y → LowEq A y.1

theorem put_eq (A : Nat → Nat → Mat R) (i j : Nat) (X : Mat R) :
    put A i j X = putCol A j (putRow (fun i => A i j) i X) := Mat.putBlk_eq A i j X

theorem put_eq2 (A : Nat → Nat → Mat R) (i i' j : Nat) (X X' : Mat R) :
    put (put A i j X) i' j X' = putCol A j (putRow (putRow (fun i => A i j) i X) i' X') :=
  Mat.putBlk_eq2 A i i' j X X'

/-- `larfb` or `tpmqrt` with tile `(i,k)`, `e = (k,i)`, on a block column. -/
def tstep (W : TileOps R) (Y T : Nat → Nat → Mat R) (trans : Bool) (e : Nat × Nat)
    (c : Nat → Mat R) : Except Err (Nat → Mat R) :=
  if e.2 = e.1 then do
    let y ← W.larfb trans (Y e.1 e.1) (T e.1 e.1) (c e.1)
    .ok (putRow c e.1 y)
  else do
    let y ← W.tpmqrt trans (Y e.2 e.1) (T e.2 e.1) (c e.1) (c e.2)
    .ok (putRow (putRow c e.1 y.1) e.2 y.2)


/-- Kernel calls one after the other. -/
def runT (W : TileOps R) (Y T : Nat → Nat → Mat R) (trans : Bool) (ks : List (Nat × Nat))
    (c : Nat → Mat R) : Except Err (Nat → Mat R) :=
  ks.foldlM (fun c e => tstep W Y T trans e c) c

theorem runT_append {Y T : Nat → Nat → Mat R} {trans : Bool} {ks ks' : List (Nat × Nat)}
    {c : Nat → Mat R} : runT W Y T trans (ks ++ ks') c =
      (runT W Y T trans ks c >>= runT W Y T trans ks') := by
  unfold runT
  rw [List.foldlM_append]

theorem runT_one {Y T : Nat → Nat → Mat R} {trans : Bool} {e : Nat × Nat} {c : Nat → Mat R} :
    runT W Y T trans [e] c = tstep W Y T trans e c := by
  simp [runT]

theorem runT_congr (hlow : W.Low) {Y Y' T T' : Nat → Nat → Mat R} {trans : Bool} {ks : List (Nat × Nat)}
    {c : Nat → Mat R} (H : ∀ e ∈ ks, T e.2 e.1 = T' e.2 e.1 ∧
      (Y e.2 e.1 = Y' e.2 e.1 ∨ (e.2 = e.1 ∧ LowEq (Y e.2 e.1) (Y' e.2 e.1)))) :
    runT W Y T trans ks c = runT W Y' T' trans ks c := by
  induction ks generalizing c with
  | nil => rfl
  | cons e ks ih =>
    unfold runT at ih ⊢
    rw [List.foldlM_cons, List.foldlM_cons]
    have e1 : tstep W Y T trans e c = tstep W Y' T' trans e c := by
      obtain ⟨h1, h2⟩ := H e List.mem_cons_self
      obtain ⟨k, i⟩ := e
      simp only at h1 h2
      unfold tstep
      by_cases hik : i = k
      · subst hik
        rw [if_pos rfl, if_pos rfl]
        simp only
        rw [h1]
        rcases h2 with h2 | ⟨-, h2⟩
        · rw [h2]
        · rw [hlow.larfb _ _ h2]
      · rw [if_neg hik, if_neg hik]
        simp only
        rw [h1, h2.resolve_right (fun h => hik h.1)]
    rw [e1]
    congr 1
    funext c
    exact ih (fun e' he' => H e' (List.mem_cons_of_mem _ he'))


theorem leftMulLarfb_cols {p q tr tc m n k : Nat} {Y T C C' : Nat → Nat → Mat R} {trans : Bool}
    (h : W.leftMulLarfb p q Y tr tc T m n trans k C = .ok C') :
    ∀ j, (k ≤ j → j < q → (k < p ∧ j < n) ∧
        tstep W Y T trans (k, k) (fun i => C i j) = .ok (fun i => C' i j)) ∧
      (¬ (k ≤ j ∧ j < q) → (fun i => C' i j) = (fun i => C i j)) := by
  have key := colLoop (n := q - k) (k := k) (f := fun j c => do
      assertM (decide (k < p))
      assertM (decide (j < n))
      tstep W Y T trans (k, k) c) (by
    intro u A B hB
    simp only [except_bind_eq_ok, assertM_eq_ok, decide_eq_true_eq] at hB ⊢
    obtain ⟨v, hv, t, ht, c, hc, y, hy, hB⟩ := hB
    obtain ⟨h1, -, rfl⟩ := blockAt_ok hv
    obtain ⟨-, -, rfl⟩ := blockAt_ok ht
    obtain ⟨-, h2, rfl⟩ := blockAt_ok hc
    refine ⟨putRow (fun i => A i (k + u)) k y, ⟨⟨⟩, h1, ⟨⟩, h2, ?_⟩, ?_⟩
    · simp only [tstep, if_true, hy, except_bind_ok]
    · rw [← Except.ok.inj hB, put_eq]) h
  intro j
  refine ⟨fun h1 h2 => ?_, fun hn => (key j).2 (by omega)⟩
  have := (key j).1 h1 (by omega)
  simp only [except_bind_eq_ok, assertM_eq_ok, decide_eq_true_eq] at this
  obtain ⟨_, h3, _, h4, h5⟩ := this
  exact ⟨⟨h3, h4⟩, h5⟩

theorem leftMulTpmqrt_cols {p q tr tc m n k i : Nat} {Y T C C' : Nat → Nat → Mat R} {trans : Bool}
    (hki : i ≠ k) (h : W.leftMulTpmqrt p q Y tr tc T m n trans k i C = .ok C') :
    ∀ j, (k ≤ j → j < q → tstep W Y T trans (k, i) (fun i => C i j) = .ok (fun i => C' i j)) ∧
      (¬ (k ≤ j ∧ j < q) → (fun i => C' i j) = (fun i => C i j)) := by
  have key := colLoop (n := q - k) (k := k) (f := fun j c => tstep W Y T trans (k, i) c) (by
    intro u A B hB
    simp only [except_bind_eq_ok] at hB
    obtain ⟨v, hv, t, ht, a, ha, b, hb, y, hy, hB⟩ := hB
    obtain ⟨-, -, rfl⟩ := blockAt_ok hv
    obtain ⟨-, -, rfl⟩ := blockAt_ok ht
    obtain ⟨-, -, rfl⟩ := blockAt_ok ha
    obtain ⟨-, -, rfl⟩ := blockAt_ok hb
    refine ⟨putRow (putRow (fun i => A i (k + u)) k y.1) i y.2, ?_, ?_⟩
    · simp only [tstep, if_neg hki, hy, except_bind_ok]
    · rw [← Except.ok.inj hB, put_eq2]) h
  intro j
  exact ⟨fun h1 h2 => (key j).1 h1 (by omega), fun hn => (key j).2 (by omega)⟩

/-- A step changes the block columns `k..q-1`, one by one. -/
def StepCols (q k : Nat) (f : (Nat → Mat R) → Except Err (Nat → Mat R)) (C C' : Nat → Nat → Mat R) : Prop :=
  ∀ j, (k ≤ j → j < q → f (fun i => C i j) = .ok (fun i => C' i j)) ∧
    (¬ (k ≤ j ∧ j < q) → (fun i => C' i j) = (fun i => C i j))

theorem stepCols_runT {q k : Nat} {Y T : Nat → Nat → Mat R} {trans : Bool} {ks ks' : List (Nat × Nat)}
    {C D E : Nat → Nat → Mat R} (h : StepCols q k (runT W Y T trans ks) C D)
    (h' : StepCols q k (runT W Y T trans ks') D E) :
    StepCols q k (runT W Y T trans (ks ++ ks')) C E := by
  intro j
  refine ⟨fun h1 h2 => ?_, fun hn => ((h' j).2 hn).trans ((h j).2 hn)⟩
  rw [runT_append, (h j).1 h1 h2, except_bind_ok]
  exact (h' j).1 h1 h2

theorem stepCols_nil {q k : Nat} {Y T : Nat → Nat → Mat R} {trans : Bool} (C : Nat → Nat → Mat R) :
    StepCols q k (runT W Y T trans []) C C :=
  fun j => ⟨fun _ _ => rfl, fun _ => rfl⟩

theorem loop_up_cols {q : Nat} {Y T : Nat → Nat → Mat R} {trans : Bool}
    {l : Nat → List (Nat × Nat)}
    {body : Nat → (Nat → Nat → Mat R) → Except Err (Nat → Nat → Mat R)} {C C' : Nat → Nat → Mat R}
    (hb : ∀ k < q, ∀ A B, body k A = .ok B → StepCols q k (runT W Y T trans (l k)) A B)
    (h : loop q body C = .ok C') :
    ∀ j, (j < q → runT W Y T trans ((List.range (j + 1)).flatMap l) (fun i => C i j) =
        .ok (fun i => C' i j)) ∧ (q ≤ j → (fun i => C' i j) = (fun i => C i j)) := by
  have key := loop_inv (fun s D => ∀ j, (j < q →
      (s ≤ j → runT W Y T trans ((List.range s).flatMap l) (fun i => C i j) = .ok (fun i => D i j)) ∧
      (j < s → runT W Y T trans ((List.range (j + 1)).flatMap l) (fun i => C i j) =
        .ok (fun i => D i j))) ∧
      (q ≤ j → (fun i => D i j) = (fun i => C i j))) (by
    intro j
    exact ⟨fun _ => ⟨fun _ => rfl, fun h => by omega⟩, fun _ => rfl⟩) (by
    intro s hs D E hI hE j
    have hc := hb s hs D E hE j
    refine ⟨fun hj => ?_, fun hj => by rw [hc.2 (by omega)]; exact (hI j).2 hj⟩
    obtain ⟨i2, i3⟩ := (hI j).1 hj
    have run : s ≤ j → runT W Y T trans ((List.range (s + 1)).flatMap l) (fun i => C i j) =
        .ok (fun i => E i j) := by
      intro hsj
      rw [List.range_succ, List.flatMap_append, runT_append, i2 hsj, except_bind_ok]
      simp only [List.flatMap_cons, List.flatMap_nil, List.append_nil]
      exact hc.1 hsj hj
    refine ⟨fun hsj => run (by omega), fun hsj => ?_⟩
    by_cases hsj' : j < s
    · rw [hc.2 (by omega)]
      exact i3 hsj'
    · have : j = s := by omega
      subst this
      exact run (le_refl _)) h
  intro j
  exact ⟨fun hj => ((key j).1 hj).2 hj, (key j).2⟩

theorem loop_down_cols {q : Nat} {Y T : Nat → Nat → Mat R} {trans : Bool}
    {l : Nat → List (Nat × Nat)}
    {body : Nat → (Nat → Nat → Mat R) → Except Err (Nat → Nat → Mat R)} {C C' : Nat → Nat → Mat R}
    (hb : ∀ v < q, ∀ A B, body v A = .ok B → StepCols q (q - 1 - v) (runT W Y T trans (l (q - 1 - v)).reverse) A B)
    (h : loop q body C = .ok C') :
    ∀ j, (j < q → runT W Y T trans ((List.range (j + 1)).flatMap l).reverse (fun i => C i j) =
        .ok (fun i => C' i j)) ∧ (q ≤ j → (fun i => C' i j) = (fun i => C i j)) := by
  have key := loop_inv (fun s D => ∀ j, (j < q →
      (j < q - s → (fun i => D i j) = (fun i => C i j)) ∧
      (q - s ≤ j → runT W Y T trans
        (((List.range (j + 1 - (q - s))).map (fun a => q - s + a)).flatMap l).reverse (fun i => C i j) =
        .ok (fun i => D i j))) ∧
      (q ≤ j → (fun i => D i j) = (fun i => C i j))) (by
    intro j
    exact ⟨fun hj => ⟨fun _ => rfl, fun h => by omega⟩, fun _ => rfl⟩) (by
    intro s hs D E hI hE j
    have hc := hb s hs D E hE j
    refine ⟨fun hj => ?_, fun hj => by rw [hc.2 (by omega)]; exact (hI j).2 hj⟩
    obtain ⟨i1, i2⟩ := (hI j).1 hj
    refine ⟨fun hlt => by rw [hc.2 (by omega)]; exact i1 (by omega), fun hle => ?_⟩
    have c3 := hc.1 (by omega) hj
    have e : (List.range (j + 1 - (q - (s + 1)))).map (fun a => q - (s + 1) + a) =
        (q - (s + 1)) :: (List.range (j + 1 - (q - s))).map (fun a => q - s + a) := by
      rw [show j + 1 - (q - (s + 1)) = (j + 1 - (q - s)) + 1 by omega, List.range_succ_eq_map,
        List.map_cons, List.map_map]
      congr 1
      refine List.map_congr_left (fun a _ => ?_)
      simp only [Function.comp_apply]
      omega
    have hk : q - 1 - s = q - (s + 1) := by omega
    rw [e, List.flatMap_cons, List.reverse_append, runT_append]
    rw [hk] at c3
    by_cases hjs : j < q - s
    · have : j + 1 - (q - s) = 0 := by omega
      rw [this]
      have hnil : runT W Y T trans
        (((List.range 0).map (fun a => q - s + a)).flatMap l).reverse (fun i => C i j) = .ok (fun i => C i j) := rfl
      rw [hnil, except_bind_ok, ← i1 hjs]
      exact c3
    · rw [i2 (by omega), except_bind_ok]
      exact c3) h
  intro j
  refine ⟨fun hj => ?_, (key j).2⟩
  have := ((key j).1 hj).2 (by omega)
  simpa using this

theorem leftMulTiled_cols {p q tr tc m n : Nat} {Y T C C' : Nat → Nat → Mat R} {trans : Bool}
    (h : W.leftMulTiled p q Y tr tc T m n C trans = .ok C') :
    (0 < q → q ≤ p ∧ q ≤ n) ∧
    ∀ j, (j < q → runT W Y T trans (torder trans p j) (fun i => C i j) = .ok (fun i => C' i j)) ∧
      (q ≤ j → (fun i => C' i j) = (fun i => C i j)) := by
  cases trans with
  | true =>
    simp only [leftMulTiled, if_true] at h
    have hb : ∀ k < q, ∀ A B, (W.leftMulLarfb p q Y tr tc T m n true k A >>= fun C =>
        loop (p - (k + 1)) (fun u C => W.leftMulTpmqrt p q Y tr tc T m n true k (k + 1 + u) C) C) = .ok B →
        (k < p ∧ q ≤ n) ∧ StepCols q k (runT W Y T true (stepPairs p k)) A B := by
      intro k hk A B hB
      rw [except_bind_eq_ok] at hB
      obtain ⟨D, hD, hB⟩ := hB
      have c := leftMulLarfb_cols (W := W) hD
      have hkp := ((c k).1 (le_refl _) hk).1.1
      have hn := ((c (q - 1)).1 (by omega) (by omega)).1.2
      refine ⟨⟨hkp, by omega⟩, ?_⟩
      rw [stepPairs_cons hkp]
      have s1 : StepCols q k (runT W Y T true [(k, k)]) A D := fun j =>
        ⟨fun h1 h2 => by rw [runT_one]; exact ((c j).1 h1 h2).2, (c j).2⟩
      refine stepCols_runT s1 ?_
      refine loop_inv (fun u E => StepCols q k (runT W Y T true
        ((List.range u).map (fun u => (k, k + 1 + u)))) D E) (stepCols_nil _) ?_ hB
      intro u hu E F hI hF
      rw [List.range_succ, List.map_append]
      refine stepCols_runT hI (fun j => ?_)
      have := leftMulTpmqrt_cols (by omega) hF j
      simp only [List.map_cons, List.map_nil, runT_one]
      exact this
    refine ⟨fun hq => ?_, fun j => ?_⟩
    · have := loop_inv (fun s E => ∀ k < s, k < p ∧ q ≤ n) (by intro k hk; omega) (by
        intro s hs E F hI hF k hk
        rcases Nat.lt_succ_iff_lt_or_eq.1 hk with h1 | rfl
        · exact hI k h1
        · exact (hb k hs E F hF).1) h
      have := this (q - 1) (by omega)
      omega
    · have := loop_up_cols (l := stepPairs p) (fun k hk A B hB => (hb k hk A B hB).2) h j
      simpa only [torder, if_true, pairs] using this
  | false =>
    simp only [leftMulTiled, Bool.false_eq_true, if_false] at h
    have hb : ∀ v < q, ∀ A B, (loop (p - (q - 1 - v + 1)) (fun u C =>
        W.leftMulTpmqrt p q Y tr tc T m n false (q - 1 - v) (p - 1 - u) C) A >>= fun C =>
        W.leftMulLarfb p q Y tr tc T m n false (q - 1 - v) C) = .ok B →
        (q - 1 - v < p ∧ q ≤ n) ∧ StepCols q (q - 1 - v) (runT W Y T false (stepPairs p (q - 1 - v)).reverse) A B := by
      intro v hv A B hB
      generalize hk : q - 1 - v = k at hB ⊢
      rw [except_bind_eq_ok] at hB
      obtain ⟨D, hB, hD⟩ := hB
      have c := leftMulLarfb_cols (W := W) hD
      have hkp := ((c k).1 (le_refl _) (by omega)).1.1
      have hn := ((c (q - 1)).1 (by omega) (by omega)).1.2
      refine ⟨⟨hkp, by omega⟩, ?_⟩
      rw [stepPairs_reverse hkp]
      have s1 : StepCols q k (runT W Y T false [(k, k)]) D B := fun j =>
        ⟨fun h1 h2 => by rw [runT_one]; exact ((c j).1 h1 h2).2, (c j).2⟩
      refine stepCols_runT ?_ s1
      refine loop_inv (fun u E => StepCols q k (runT W Y T false
        ((List.range u).map (fun u => (k, p - 1 - u)))) A E) (stepCols_nil _) ?_ hB
      intro u hu E F hI hF
      rw [List.range_succ, List.map_append]
      refine stepCols_runT hI (fun j => ?_)
      have := leftMulTpmqrt_cols (by omega) hF j
      simp only [List.map_cons, List.map_nil, runT_one]
      exact this
    refine ⟨fun hq => ?_, fun j => ?_⟩
    · have := loop_inv (fun s E => ∀ v < s, q - 1 - v < p ∧ q ≤ n) (by intro k hk; omega) (by
        intro s hs E F hI hF k hk
        rcases Nat.lt_succ_iff_lt_or_eq.1 hk with h1 | rfl
        · exact hI k h1
        · exact (hb k hs E F hF).1) h
      have := this 0 (by omega)
      omega
    · have := loop_down_cols (l := stepPairs p) (fun k hk A B hB => (hb k hk A B hB).2) h j
      simpa only [torder, Bool.false_eq_true, if_false, pairs] using this

/-- The calls of step `k` that work on block column `k`: `geqrt` on the diagonal tile, then
`tpqrt` with the tiles below. -/
def colFactor (W : TileOps R) (p k : Nat) (c T : Nat → Mat R) :
    Except Err ((Nat → Mat R) × (Nat → Mat R)) := do
  let x ← W.geqrt (c k) (T k)
  loop (p - (k + 1)) (fun u st => do
    let y ← W.tpqrt (st.1 k) (st.1 (k + 1 + u)) (st.2 (k + 1 + u))
    .ok (putRow (putRow st.1 k y.1) (k + 1 + u) y.2.1, putRow st.2 (k + 1 + u) y.2.2))
    (putRow c k x.1, putRow T k x.2)


theorem tiledInner_cols {p q tr tc k i : Nat} (hki : k < i)
    {st st' : (Nat → Nat → Mat R) × (Nat → Nat → Mat R)}
    (h : W.tiledInner p q tr tc k i st = .ok st') :
    (∃ y, W.tpqrt (st.1 k k) (st.1 i k) (st.2 i k) = .ok y ∧
      (fun b => st'.1 b k) = putRow (putRow (fun b => st.1 b k) k y.1) i y.2.1 ∧
      (fun b => st'.2 b k) = putRow (fun b => st.2 b k) i y.2.2) ∧
    (∀ j, k < j → j < q → tstep W st'.1 st'.2 true (k, i) (fun b => st.1 b j) = .ok (fun b => st'.1 b j)) ∧
    (∀ j, ¬ (k ≤ j ∧ j < q) → j ≠ k → (fun b => st'.1 b j) = fun b => st.1 b j) ∧
    ∀ j, j ≠ k → (fun b => st'.2 b j) = fun b => st.2 b j := by
  simp only [tiledInner, except_bind_eq_ok] at h
  obtain ⟨akk, h1, aik, h2, t, h3, y, hy, A, hA, h⟩ := h
  obtain ⟨-, -, rfl⟩ := blockAt_ok h1
  obtain ⟨-, -, rfl⟩ := blockAt_ok h2
  obtain ⟨-, -, rfl⟩ := blockAt_ok h3
  cases Except.ok.inj h
  have key := colLoop (n := q - (k + 1)) (k := k + 1)
    (f := fun j c => do
      let z ← W.tpmqrt true y.2.1 y.2.2 (c k) (c i)
      .ok (putRow (putRow c k z.1) i z.2)) (by
    intro u C D hD
    simp only [except_bind_eq_ok] at hD
    obtain ⟨z, hz, hD⟩ := hD
    refine ⟨putRow (putRow (fun b => C b (k + 1 + u)) k z.1) i z.2, ?_, ?_⟩
    · simp only [hz, except_bind_ok]
    · rw [← Except.ok.inj hD, put_eq2]) hA
  have ck : (fun b => A b k) = putRow (putRow (fun b => st.1 b k) k y.1) i y.2.1 := by
    rw [(key k).2 (by omega), put_eq2]
    funext b
    simp [putCol]
  have oth : ∀ j, j ≠ k → (fun b => put (put st.1 k k y.1) i k y.2.1 b j) = fun b => st.1 b j := by
    intro j hj
    funext b
    simp [put, hj]
  refine ⟨⟨y, hy, ck, ?_⟩, ?_, ?_, ?_⟩
  · funext b
    simp [put, putRow]
  · intro j h1 h2
    have := (key j).1 (by omega) (by omega)
    rw [oth j (by omega)] at this
    have e1 : A i k = y.2.1 := by
      have := congrFun ck i
      simpa [putRow] using this
    simp only [tstep, if_neg (show i ≠ k by omega), e1]
    rw [show put st.2 i k y.2.2 i k = y.2.2 by simp [put]]
    exact this
  · intro j hj hjk
    simp only
    rw [(key j).2 (by omega), oth j hjk]
  · intro j hj
    funext b
    simp [put, hj]

theorem tiledStep_cols (hlow : W.Low) {p q tr tc k : Nat}
    {st st' : (Nat → Nat → Mat R) × (Nat → Nat → Mat R)}
    (h : W.tiledStep p q tr tc k st = .ok st') :
    k < p ∧ colFactor W p k (fun i => st.1 i k) (fun i => st.2 i k) =
      .ok (fun i => st'.1 i k, fun i => st'.2 i k) ∧
    (∀ j, k < j → j < q → runT W st'.1 st'.2 true (stepPairs p k) (fun i => st.1 i j) =
      .ok (fun i => st'.1 i j)) ∧
    (∀ j, ¬ (k ≤ j ∧ j < q) → j ≠ k → (fun b => st'.1 b j) = fun b => st.1 b j) ∧
    ∀ j, j ≠ k → (fun b => st'.2 b j) = fun b => st.2 b j := by
  simp only [tiledStep, except_bind_eq_ok] at h
  obtain ⟨akk, h1, t, h2, x, hx, A, hA, h⟩ := h
  obtain ⟨hkp, -, rfl⟩ := blockAt_ok h1
  obtain ⟨-, -, rfl⟩ := blockAt_ok h2
  have key := colLoop (n := q - (k + 1)) (k := k + 1)
    (f := fun j c => do
      let z ← W.larfb true x.1 x.2 (c k)
      .ok (putRow c k z)) (by
    intro u C D hD
    simp only [except_bind_eq_ok] at hD
    obtain ⟨z, hz, hD⟩ := hD
    refine ⟨putRow (fun b => C b (k + 1 + u)) k z, ?_, ?_⟩
    · simp only [hz, except_bind_ok]
    · rw [← Except.ok.inj hD, put_eq]) hA
  have ck : (fun b => A b k) = putRow (fun b => st.1 b k) k x.1 := by
    rw [(key k).2 (by omega), put_eq]
    funext b
    simp [putCol]
  have oth : ∀ j, j ≠ k → (fun b => put st.1 k k x.1 b j) = fun b => st.1 b j := by
    intro j hj
    funext b
    simp [put, hj]
  have fin := loop_inv (fun u (s : (Nat → Nat → Mat R) × (Nat → Nat → Mat R)) =>
      loop u (fun u (st : (Nat → Mat R) × (Nat → Mat R)) => do
        let y ← W.tpqrt (st.1 k) (st.1 (k + 1 + u)) (st.2 (k + 1 + u))
        .ok (putRow (putRow st.1 k y.1) (k + 1 + u) y.2.1, putRow st.2 (k + 1 + u) y.2.2))
        (putRow (fun i => st.1 i k) k x.1, putRow (fun i => st.2 i k) k x.2) =
        .ok (fun i => s.1 i k, fun i => s.2 i k) ∧
      (∀ j, k < j → j < q → runT W s.1 s.2 true (stepPairs (k + 1 + u) k) (fun i => st.1 i j) =
        .ok (fun i => s.1 i j)) ∧
      (∀ j, ¬ (k ≤ j ∧ j < q) → j ≠ k → (fun b => s.1 b j) = fun b => st.1 b j) ∧
      ∀ j, j ≠ k → (fun b => s.2 b j) = fun b => st.2 b j) (by
    refine ⟨?_, ?_, ?_, ?_⟩
    · rw [loop_zero]
      simp only
      rw [ck]
      congr 2
      funext b
      simp [put, putRow]
    · intro j h1 h2
      have := (key j).1 (by omega) (by omega)
      rw [oth j (by omega)] at this
      rw [show stepPairs (k + 1 + 0) k = [(k, k)] by simp [stepPairs], runT_one]
      have e1 : A k k = x.1 := by
        have := congrFun ck k
        simpa [putRow] using this
      simp only [tstep, if_true, e1]
      rw [show put st.2 k k x.2 k k = x.2 by simp [put]]
      exact this
    · intro j hj hjk
      simp only
      rw [(key j).2 (by omega), oth j hjk]
    · intro j hj
      funext b
      simp [put, hj]) (by
    intro u hu s s' ⟨i1, i2, i3, i4⟩ hs
    obtain ⟨⟨y, hy, c1, c2⟩, c3, c4, c5⟩ := tiledInner_cols (by omega) hs
    refine ⟨?_, ?_, ?_, ?_⟩
    · rw [loop_succ, i1, except_bind_ok]
      simp only
      rw [hy, except_bind_ok, c1, c2]
    · intro j h1 h2
      have e : stepPairs (k + 1 + (u + 1)) k = stepPairs (k + 1 + u) k ++ [(k, k + 1 + u)] := by
        unfold stepPairs
        rw [show k + 1 + (u + 1) - k = (k + 1 + u - k) + 1 by omega, List.range_succ, List.map_append]
        simp only [List.map_cons, List.map_nil]
        rw [show k + (k + 1 + u - k) = k + 1 + u by omega]
      have cong : runT W s'.1 s'.2 true (stepPairs (k + 1 + u) k) (fun i => st.1 i j) =
          runT W s.1 s.2 true (stepPairs (k + 1 + u) k) (fun i => st.1 i j) := by
        refine runT_congr hlow (fun e he => ?_)
        obtain ⟨e1, e2, e3⟩ := mem_stepPairs.1 he
        rw [e1]
        have t1 := congrFun c2 e.2
        have t2 := congrFun c1 e.2
        simp only [putRow, if_neg (show e.2 ≠ k + 1 + u by omega)] at t1 t2
        refine ⟨t1, ?_⟩
        by_cases hk : e.2 = k
        · rw [hk] at t2 ⊢
          rw [if_pos rfl] at t2
          refine Or.inr ⟨rfl, ?_⟩
          rw [t2]
          exact (hlow.tpqrt _ _ _ _ hy).symm
        · rw [if_neg hk] at t2
          exact Or.inl t2
      rw [e, runT_append, cong, i2 j h1 h2, except_bind_ok, runT_one]
      exact c3 j h1 h2
    · intro j h1 h2
      rw [c4 j h1 h2, i3 j h1 h2]
    · intro j h1
      rw [c5 j h1, i4 j h1]) h
  obtain ⟨f1, f2, f3, f4⟩ := fin
  rw [show k + 1 + (p - (k + 1)) = p by omega] at f2
  refine ⟨hkp, ?_, f2, f3, f4⟩
  simp only [colFactor]
  rw [hx, except_bind_ok]
  exact f1

/-- The run of `tiled_householder_blr_qr` on one block column. -/
theorem tiledQr_cols (hlow : W.Low) {p q tr tc : Nat} {A A' T T' : Nat → Nat → Mat R}
    (h : W.tiledQr p q A tr tc T = .ok (A', T')) :
    (tr = p ∧ tc = q) ∧ ∀ j < q, j < p ∧
      ∃ c, runT W A' T' true (pairs p j) (fun i => A i j) = .ok c ∧
        colFactor W p j c (fun i => T i j) = .ok (fun i => A' i j, fun i => T' i j) := by
  simp only [tiledQr, except_bind_eq_ok, assertM_eq_ok, decide_eq_true_eq] at h
  obtain ⟨_, h1, _, h2, h⟩ := h
  refine ⟨⟨h1, h2⟩, ?_⟩
  have key := loop_inv (fun s (st : (Nat → Nat → Mat R) × (Nat → Nat → Mat R)) =>
      (∀ j < s, j < p ∧ ∃ c, runT W st.1 st.2 true (pairs p j) (fun i => A i j) = .ok c ∧
          colFactor W p j c (fun i => T i j) = .ok (fun i => st.1 i j, fun i => st.2 i j)) ∧
      ∀ j, s ≤ j → j < q → runT W st.1 st.2 true (pairs p s) (fun i => A i j) =
        .ok (fun i => st.1 i j) ∧ (fun i => st.2 i j) = fun i => T i j) (by
    exact ⟨by intro j hj; omega, fun j _ _ => ⟨rfl, rfl⟩⟩) (by
    rintro s hs st st' ⟨i1, i2⟩ hst
    obtain ⟨hsp, c1, c2, c3, c4⟩ := tiledStep_cols hlow hst
    have cong : ∀ l ≤ s, ∀ c, runT W st'.1 st'.2 true (pairs p l) c =
        runT W st.1 st.2 true (pairs p l) c := by
      intro l hl c
      refine runT_congr hlow (fun e he => ?_)
      obtain ⟨e1, -⟩ := mem_pairs.1 he
      exact ⟨congrFun (c4 e.1 (by omega)) e.2, Or.inl (congrFun (c3 e.1 (by omega) (by omega)) e.2)⟩
    refine ⟨?_, ?_⟩
    · intro j hj
      by_cases hjs : j = s
      · subst hjs
        obtain ⟨r1, r2⟩ := i2 j (le_refl _) hs
        refine ⟨hsp, _, (cong j (le_refl _) _).trans r1, ?_⟩
        rw [← r2]
        exact c1
      · obtain ⟨r0, c, r1, r2⟩ := i1 j (by omega)
        refine ⟨r0, c, (cong j (by omega) _).trans r1, ?_⟩
        rw [c3 j (by omega) hjs, c4 j hjs]
        exact r2
    · intro j h1 h2
      obtain ⟨r1, r2⟩ := i2 j (by omega) h2
      refine ⟨?_, (c4 j (by omega)).trans r2⟩
      rw [pairs_succ, runT_append, cong s (le_refl _), r1, except_bind_ok]
      exact c2 j (by omega) h2) h
  exact key.1

/-! ### the reflectors the factorization returns -/


end TileOps
end Verif
