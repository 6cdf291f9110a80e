import Verif.Lemmas.GemmTotal
import Verif.Props.LrAdd

/-
C22: products of regularly subdivided matrices return.
-/

namespace Verif
open Finset

variable {R : Type}

/-! ### C22 -/

/-- C22.  With operands of the same even `b`-by-`b` subdivision and fitting
dimensions `gemm` returns, for every recursion bound from `6 * depth + 1` on (so
the recursion terminates), if the low-rank operations return on the low-rank
blocks of the target.

Partial: FRANK's own low-rank operations do not always return on blocks with a
fixed rank; see `C22_gemm_library_partial` and
`C22_fixed_rank_target_fails`. -/
theorem C22_gemm_returns_partial [CommRing R] [DecidableEq R] {o : LrOps R} {sq : Prop}
    {Q : LowRank R → Prop} (hf : o.Fits sq) (hT : o.Total sq Q) {b : Nat} (hb : 2 ≤ b)
    {A B C : Mat R} {α β : R} {ta tb : Bool} (hA : A.Regular b) (hB : B.Regular b) (hC : C.Regular b)
    (hCs : C.Square) (hQ : C.All Q) (ht : Mat.TransSafe ta tb A B) (hr : Mat.RankSafe sq A B)
    (h0 : (if ta then A.nCols else A.nRows) = C.nRows)
    (h1 : (if ta then A.nRows else A.nCols) = (if tb then B.nCols else B.nRows))
    (h2 : (if tb then B.nRows else B.nCols) = C.nCols)
    {fuel : Nat} (hfuel : 6 * max A.depth (max B.depth C.depth) + 1 ≤ fuel) :
    ∃ C', Mat.gemm o fuel A B C α β ta tb = .ok C' := by
  obtain ⟨C', h, -⟩ := (Mat.totalUpTo hf hT hb (max A.depth (max B.depth C.depth))).1 fuel hfuel A B C α β
    ta tb hA hB hC hCs hQ (by omega) (by omega) (by omega) ht hr ⟨h0, h1, h2⟩
  exact ⟨C', h⟩

/-- C22.  The version returning a new matrix needs nothing of the low-rank
operations: its targets are dense. -/
theorem C22_gemm_new_returns [CommRing R] [DecidableEq R] {o : LrOps R} (hf : o.Fits False)
    {b : Nat} (hb : 2 ≤ b) {A B : Mat R} {α : R} {ta tb : Bool} (hA : A.Regular b) (hB : B.Regular b)
    (ht : Mat.TransSafe ta tb A B)
    (h1 : (if ta then A.nRows else A.nCols) = (if tb then B.nCols else B.nRows))
    {fuel : Nat} (hfuel : 6 * max A.depth B.depth + 2 ≤ fuel) :
    ∃ D, Mat.gemmNew o fuel A B α ta tb = .ok D := by
  have hT : o.Total False (fun _ => False) :=
    ⟨fun _ _ h => h, fun _ _ _ _ _ _ _ _ h => h.elim, fun _ _ h => h.elim, fun _ _ h => h.elim,
      fun _ _ h => h.elim⟩
  obtain ⟨D, h, -⟩ := (Mat.totalUpTo hf hT hb (max A.depth B.depth)).2 fuel hfuel A B α ta tb hA hB
    (by omega) (by omega) ht (fun h => h.elim) h1
  exact ⟨D, h⟩

theorem evenSize_one (n : Nat) : Mat.evenSize n 1 0 = n := by
  have := Mat.splitChild_evenSize (Mat.esplit_one n) (i := 0) (by omega)
  simp [IndexRange.splitChild] at this
  omega

/-- C22.  The product of two dense matrices returns for every evenly subdivided
target of dense blocks, also for single block rows and block columns (for 1-by-1
subdivisions it aborts, gemm.cpp:449-451). -/
theorem C22_dense_into_blocks [CommRing R] [DecidableEq R] {o : LrOps R} (hf : o.Fits False)
    {a b : Dense R} {m n : Nat} {C : Nat → Nat → Mat R} {α β : R} {ta tb : Bool}
    (hC : (Mat.hier m n C).WF) (he : (Mat.hier m n C).Even) (hd : ∀ i < m, ∀ j < n, ∃ d, C i j = .dense d)
    (hmn : ¬ (m = 1 ∧ n = 1))
    (h0 : (if ta then a.cols else a.rows) = (Mat.hier m n C).nRows)
    (h1 : (if ta then a.rows else a.cols) = (if tb then b.cols else b.rows))
    (h2 : (if tb then b.rows else b.cols) = (Mat.hier m n C).nCols) {fuel : Nat} (hfuel : 3 ≤ fuel) :
    ∃ C', Mat.gemm o fuel (.dense a) (.dense b) (.hier m n C) α β ta tb = .ok C' := by
  have hT : o.Total False (fun _ => False) :=
    ⟨fun _ _ h => h, fun _ _ _ _ _ _ _ _ h => h.elim, fun _ _ h => h.elim, fun _ _ h => h.elim,
      fun _ _ h => h.elim⟩
  have dl := Mat.dense_leaves hd
  have tg : (Mat.hier m n C).Target (fun _ => False) := ⟨hC, dl.noEmpty, dl.square, he, dl.all _⟩
  have hdim : Mat.GemmDims ta tb (.dense a) (.dense b) (.hier m n C) := ⟨h0, h1, h2⟩
  obtain ⟨n', rfl⟩ : ∃ n', fuel = n' + 1 + 2 := ⟨fuel - 3, by omega⟩
  have tile : ∀ d d' c : Dense R, Mat.GemmDims ta tb (.dense d) (.dense d') (.dense c) →
      Mat.Tot (fun _ => False) (Mat.gemm o (n' + 1)) ta tb (.dense d) (.dense d') (.dense c) := by
    intro d d' c hdd
    exact (Mat.totalUpTo hf hT (le_refl 2) 0).tot (by omega) (Mat.regular_dense _ _) (Mat.regular_dense _ _)
      (Mat.regular_dense _ _) (le_refl _) (le_refl _) (le_refl _) trivial (fun h => h.elim) hdd
  have hm1 : 1 ≤ m := Mat.opDim0_pos (t := false) hC
  have hn1 : 1 ≤ n := Mat.opDim1_pos (t := false) hC
  obtain ⟨s1, s2, s3⟩ := Mat.even_grid (t := false) hC he
  by_cases hn : n = 1
  · subst hn
    have hm : m ≠ 1 := fun h => hmn ⟨h, rfl⟩
    have s1' : Mat.ESplit (Mat.hier m 1 C).nRows m := s1
    rw [← hdim.rows] at s1'
    obtain ⟨a', hsa, wa, eva, samea, ha⟩ := Mat.split_dense_total (a := a)
      (nr := if ta then 1 else m) (nc := if ta then m else 1)
      (by split <;> omega) (by split <;> omega)
      (by cases ta; exact s1'; exact Mat.esplit_one _) (by cases ta; exact Mat.esplit_one _; exact s1')
    have hd2 : Mat.GemmDims ta tb (.hier (if ta then 1 else m) (if ta then m else 1) a') (.dense b) (.hier m 1 C) :=
      ⟨by rw [Mat.opRows_same samea]; exact hdim.rows, by rw [Mat.opCols_same samea]; exact hdim.inner, hdim.cols⟩
    have q0 : Mat.opDim0 ta (if ta then 1 else m) (if ta then m else 1) = m := by cases ta <;> rfl
    have q1 : Mat.opDim1 ta (if ta then 1 else m) (if ta then m else 1) = 1 := by cases ta <;> rfl
    obtain ⟨-, -, s4⟩ := Mat.even_grid (t := ta) wa eva
    rw [q0, q1] at s4
    have step : ∀ i < m, ∃ X, (do
        let x ← Mat.vecAt (if ta then 1 else m) (if ta then m else 1) a' i
        let c ← Mat.vecAt m 1 C i
        Mat.gemm o (n' + 1) x (.dense b) c α β ta tb) = .ok X := by
      intro i hi
      have v1 : Mat.vecAt (if ta then 1 else m) (if ta then m else 1) a' i = .ok (Mat.opBlk ta a' i 0) := by
        cases ta
        · simp [Mat.vecAt, assertM, hm, hi, Mat.opBlk]
        · simp [Mat.vecAt, assertM, hi, Mat.opBlk]
      have v2 : Mat.vecAt m 1 C i = .ok (C i 0) := by
        simp [Mat.vecAt, assertM, hm, hi]
      rw [v1, v2]
      simp only [except_bind_ok]
      obtain ⟨c, hc⟩ := hd i hi 0 (by omega)
      have : ∃ d, Mat.opBlk ta a' i 0 = .dense d := by
        cases ta
        · exact ha i hi 0 (by simp)
        · exact ha 0 (by simp) i hi
      obtain ⟨d, hdd⟩ := this
      obtain ⟨r1, r2⟩ := s4 i hi 0 (by omega)
      obtain ⟨r3, r4⟩ := s3 i hi 0 (show 0 < 1 by omega)
      have r3 : (C i 0).nRows = Mat.evenSize (Mat.hier m 1 C).nRows m i := r3
      have r4 : (C i 0).nCols = Mat.evenSize (Mat.hier m 1 C).nCols 1 0 := r4
      rw [evenSize_one] at r2 r4
      have dims : Mat.GemmDims ta tb (Mat.opBlk ta a' i 0) (.dense b) (C i 0) :=
        ⟨by rw [r1, r3, hd2.rows], by rw [r2, hd2.inner], by rw [r4, hdim.cols]⟩
      rw [hdd, hc] at dims
      rw [hdd, hc]
      obtain ⟨X, hX, -⟩ := tile d b c dims α β (.dense c) (Mat.SameShape.refl _) (Mat.target_dense _ _)
      exact ⟨X, hX⟩
    obtain ⟨f, hf'⟩ := collect_exists step
    rw [Mat.gemm_succ hdim]
    simp only [Mat.gemmOmm, Mat.gemmToHier, Mat.gemmDDH, hsa, except_bind_ok]
    rw [if_neg (fun h => hm h.1), if_pos trivial, Mat.gemm_succ hd2]
    simp only [Mat.gemmOmm, Mat.gemmToHier, Mat.gemmHDH]
    rw [if_neg (by cases ta <;> simp [hm]), if_pos ⟨q1, trivial⟩]
    unfold Mat.gemmColLoop
    rw [q0, hf']
    exact ⟨_, rfl⟩
  · by_cases hm : m = 1
    · subst hm
      have s2' : Mat.ESplit (Mat.hier 1 n C).nCols n := s2
      rw [← hdim.cols] at s2'
      obtain ⟨b', hsb, wb, evb, sameb, hb⟩ := Mat.split_dense_total (a := b)
        (nr := if tb then n else 1) (nc := if tb then 1 else n)
        (by split <;> omega) (by split <;> omega)
        (by cases tb; exact Mat.esplit_one _; exact s2') (by cases tb; exact s2'; exact Mat.esplit_one _)
      have hd2 : Mat.GemmDims ta tb (.dense a) (.hier (if tb then n else 1) (if tb then 1 else n) b')
          (.hier 1 n C) :=
        ⟨hdim.rows, by rw [Mat.opRows_same sameb]; exact hdim.inner, by rw [Mat.opCols_same sameb]; exact hdim.cols⟩
      have r0 : Mat.opDim0 tb (if tb then n else 1) (if tb then 1 else n) = 1 := by cases tb <;> rfl
      have r1 : Mat.opDim1 tb (if tb then n else 1) (if tb then 1 else n) = n := by cases tb <;> rfl
      obtain ⟨-, -, s4⟩ := Mat.even_grid (t := tb) wb evb
      rw [r0, r1] at s4
      have step : ∀ j < n, ∃ X, (do
          let x ← Mat.vecAt (if tb then n else 1) (if tb then 1 else n) b' j
          let c ← Mat.vecAt 1 n C j
          Mat.gemm o (n' + 1) (.dense a) x c α β ta tb) = .ok X := by
        intro j hj
        have v1 : Mat.vecAt (if tb then n else 1) (if tb then 1 else n) b' j = .ok (Mat.opBlk tb b' 0 j) := by
          cases tb
          · simp [Mat.vecAt, assertM, hj, Mat.opBlk]
          · simp [Mat.vecAt, assertM, hn, hj, Mat.opBlk]
        have v2 : Mat.vecAt 1 n C j = .ok (C 0 j) := by
          simp [Mat.vecAt, assertM, hj]
        rw [v1, v2]
        simp only [except_bind_ok]
        obtain ⟨c, hc⟩ := hd 0 (by omega) j hj
        have : ∃ d, Mat.opBlk tb b' 0 j = .dense d := by
          cases tb
          · exact hb 0 (by simp) j hj
          · exact hb j hj 0 (by simp)
        obtain ⟨d, hdd⟩ := this
        obtain ⟨x1, x2⟩ := s4 0 (by omega) j hj
        obtain ⟨r3, r4⟩ := s3 0 (show 0 < 1 by omega) j hj
        have r3 : (C 0 j).nRows = Mat.evenSize (Mat.hier 1 n C).nRows 1 0 := r3
        have r4 : (C 0 j).nCols = Mat.evenSize (Mat.hier 1 n C).nCols n j := r4
        rw [evenSize_one] at x1 r3
        have dims : Mat.GemmDims ta tb (.dense a) (Mat.opBlk tb b' 0 j) (C 0 j) :=
          ⟨by rw [r3, hdim.rows], by rw [x1, hd2.inner], by rw [x2, r4, hd2.cols]⟩
        rw [hdd, hc] at dims
        rw [hdd, hc]
        obtain ⟨X, hX, -⟩ := tile a d c dims α β (.dense c) (Mat.SameShape.refl _) (Mat.target_dense _ _)
        exact ⟨X, hX⟩
      obtain ⟨f, hf'⟩ := collect_exists step
      rw [Mat.gemm_succ hdim]
      simp only [Mat.gemmOmm, Mat.gemmToHier, Mat.gemmDDH, hsb, except_bind_ok]
      rw [if_neg (fun h => hn h.2), if_neg hn, if_pos trivial, Mat.gemm_succ hd2]
      simp only [Mat.gemmOmm, Mat.gemmToHier, Mat.gemmDHH, r1, decide_true, assertM, if_true, except_bind_ok]
      rw [if_neg (by cases tb <;> simp [hn]), if_pos ⟨r0, trivial⟩]
      unfold Mat.gemmRowLoop
      rw [r1, hf']
      exact ⟨_, rfl⟩
    · obtain ⟨C', h, -⟩ := Mat.ddh_total (n' := n' + 1) hf hT tg hdim hm hn (fun i hi j hj d d' hdd => by
        obtain ⟨c, hc⟩ := hd i hi j hj
        rw [hc] at hdd ⊢
        exact tile d d' c hdd) α β
      exact ⟨C', h⟩

example : ∃ C', Mat.gemm (exactOps ℤ) 3 (.dense ⟨4, 3, fun i j => i + j⟩) (.dense ⟨3, 2, fun i j => i - j⟩)
    (.hier 2 1 (fun _ _ => .dense ⟨2, 2, fun _ _ => 1⟩)) 1 1 false false = .ok C' :=
  C22_dense_into_blocks (C := fun _ _ => .dense ⟨2, 2, fun _ _ => 1⟩) exactOps_fits ⟨by omega, by omega, fun _ _ _ _ => ⟨trivial, rfl, rfl⟩⟩
    (fun i hi j hj => ⟨trivial, by
      have : i = 0 ∨ i = 1 := by omega
      rcases this with rfl | rfl <;> rfl, by
      have : j = 0 := by omega
      subst this; rfl⟩) (fun _ _ _ _ => ⟨_, rfl⟩) (by omega) rfl rfl rfl (by omega)

/-- What the library needs of `find_svd_truncation_rank` and `truncated_geqp3`
(for the first see `C27_truncation_rank`). -/
structure Lapack.Ranks (L : Lapack R) : Prop where
  trunc : ∀ S e, 0 < S.rows → 1 ≤ L.truncRank S e ∧ L.truncRank S e ≤ S.rows
  geqp3 : ∀ A e, 1 ≤ (L.geqp3 A e).1

/-- Low-rank blocks with a tolerance, of non-zero dimensions and rank. -/
def LowRank.WithTolerance [Zero R] (c : LowRank R) : Prop :=
  c.WF ∧ c.Square ∧ c.eps ≠ 0 ∧ 0 < c.dim0 ∧ 0 < c.dim1 ∧ 0 < c.rank

theorem Lapack.ops_total [CommRing R] [DecidableEq R] {L : Lapack R} (hL : L.Ranks) {mode : LraMode}
    (hm : mode ≠ .naive) (fuel : Nat) :
    (L.ops mode fuel).Total (mode = .naive) LowRank.WithTolerance where
  scale := by
    rintro c β ⟨w, s, e, h0, h1, h2⟩
    exact ⟨⟨w.urows, w.ucols, w.srows, w.vrows, w.vcols⟩, s, e, h0, h1, h2⟩
  add := by
    rintro A B hA hAs hB - h0 h1 ⟨-, -, e, d0, d1, r⟩
    have hadd : (L.ops mode fuel).add A B = A.roundedAdd L B := by
      cases mode with
      | naive => exact absurd rfl hm
      | rounded => rfl
      | fast =>
        change A.fastAdd L B = _
        rw [LowRank.fastAdd, if_pos e]
    rw [hadd]
    have hs : A.S.cols = A.rank := hAs
    have hpos : ∀ k, k = min (min A.dim0 (A.S.cols + B.S.cols)) (min (A.S.cols + B.S.cols) A.dim1) → 0 < k := by
      intro k hk
      omega
    obtain ⟨C, hC⟩ := LowRank.roundedAdd_total (L := L) hA hB h0 h1 (fun k s hk => by
      rw [if_pos e]
      exact (hL.trunc ⟨k, k, fun i j => if i = j then s i else 0⟩ A.eps (hpos k hk)).2)
    refine ⟨C, hC, ?_⟩
    obtain ⟨-, he, k, u, s, v, rd, hk, hr, -⟩ := LowRank.roundedAdd_ok hA hB h1 hC
    rw [if_pos e] at hr
    refine ⟨rd.wf, rd.sqr, by rw [he]; exact e, by rw [rd.dim0]; exact d0, by rw [rd.dim1]; exact d1, ?_⟩
    rw [hr]
    exact (hL.trunc ⟨k, k, fun i j => if i = j then s i else 0⟩ A.eps (hpos k hk)).1
  ofRank := by
    rintro c D ⟨-, -, e, -⟩ - e0
    exact absurd e0 e
  ofEps := by
    rintro c D ⟨-, -, e, d0, d1, r⟩ - - h0 h1
    obtain ⟨x, hx⟩ := L.ofEps_total D c.eps
    obtain ⟨w, s, x0, x1, xr, xe, -⟩ := Lapack.ofEps_ok hx
    refine ⟨x, hx, w, s, by rw [xe]; exact e, by omega, by omega, ?_⟩
    rw [xr]
    exact hL.geqp3 D c.eps
  ofHier := by
    rintro c D ⟨-, -, e, -⟩ - e0
    exact absurd e0 e

/-- C21 for the library's own low-rank operations, in all three addition modes and
whatever the external routines return: whenever `gemm` returns, every entry in a
dense block of the target is `alpha * op(A) * op(B) + beta * C`, and the target
keeps its structure.

Partial: `TransSafe`, as in `C21_gemm_partial`; entries in low-rank blocks are the
subject of C26. -/
theorem C21_gemm_library_partial [CommRing R] [DecidableEq R] (L : Lapack R) (mode : LraMode)
    (lfuel fuel : Nat) {A B C C' : Mat R} {α β : R} {ta tb : Bool} (hA : A.WF) (hB : B.WF)
    (hC : C.WF) (hCs : C.Square) (ht : Mat.TransSafe ta tb A B)
    (h : Mat.gemm (L.ops mode lfuel) fuel A B C α β ta tb = .ok C') :
    C'.WF ∧ C'.Square ∧ C.SameShape C' ∧ C'.nRows = C.nRows ∧ C'.nCols = C.nCols ∧
    ∀ i < C.nRows, ∀ j < C.nCols, C.denseAt i j →
      C'.EntryIs i j (α * ∑ l ∈ range (if ta then A.nRows else A.nCols),
        (if ta then A.entry l i else A.entry i l) * (if tb then B.entry j l else B.entry l j) +
        β * C.entry i j) := by
  obtain ⟨h1, h2, h3, h4, h5, h6⟩ :=
    C21_gemm_partial (L.ops_fits mode lfuel) fuel hA hB hC hCs ht (fun h => h.elim) h
  exact ⟨h1, h2, h3, h4, h5, fun i hi j hj hd => h6 i hi j hj (Or.inl hd)⟩

/-- C22 for the library's own low-rank operations in rounded and fast rounded
mode.

Partial: low-rank blocks of the target must have a tolerance; naive addition is
left out. -/
theorem C22_gemm_library_partial [CommRing R] [DecidableEq R] {L : Lapack R} (hL : L.Ranks)
    {mode : LraMode} (hm : mode ≠ .naive) (lfuel : Nat) {b : Nat} (hb : 2 ≤ b)
    {A B C : Mat R} {α β : R} {ta tb : Bool} (hA : A.Regular b) (hB : B.Regular b) (hC : C.Regular b)
    (hCs : C.Square) (hQ : C.All LowRank.WithTolerance) (ht : Mat.TransSafe ta tb A B)
    (h0 : (if ta then A.nCols else A.nRows) = C.nRows)
    (h1 : (if ta then A.nRows else A.nCols) = (if tb then B.nCols else B.nRows))
    (h2 : (if tb then B.nRows else B.nCols) = C.nCols)
    {fuel : Nat} (hfuel : 6 * max A.depth (max B.depth C.depth) + 1 ≤ fuel) :
    ∃ C', Mat.gemm (L.ops mode lfuel) fuel A B C α β ta tb = .ok C' :=
  C22_gemm_returns_partial ((L.ops_fits mode lfuel).mono _) (Lapack.ops_total hL hm lfuel) hb hA hB hC hCs hQ ht
    (fun h => absurd h hm) h0 h1 h2 hfuel

/-- C22.  Targets without low-rank blocks: no condition on the low-rank operations. -/
theorem C22_gemm_dense_leaves [CommRing R] [DecidableEq R] (L : Lapack R)
    {mode : LraMode} (lfuel : Nat) {b : Nat} (hb : 2 ≤ b)
    {A B C : Mat R} {α β : R} {ta tb : Bool} (hA : A.Regular b) (hB : B.Regular b) (hC : C.Regular b)
    (hCs : C.Square) (hQ : C.All (fun _ => False)) (ht : Mat.TransSafe ta tb A B)
    (h0 : (if ta then A.nCols else A.nRows) = C.nRows)
    (h1 : (if ta then A.nRows else A.nCols) = (if tb then B.nCols else B.nRows))
    (h2 : (if tb then B.nRows else B.nCols) = C.nCols)
    {fuel : Nat} (hfuel : 6 * max A.depth (max B.depth C.depth) + 1 ≤ fuel) :
    ∃ C', Mat.gemm (L.ops mode lfuel) fuel A B C α β ta tb = .ok C' :=
  C22_gemm_returns_partial (L.ops_fits mode lfuel)
    ⟨fun _ _ h => h, fun _ _ _ _ _ _ _ _ h => h.elim, fun _ _ h => h.elim, fun _ _ h => h.elim,
      fun _ _ h => h.elim⟩
    hb hA hB hC hCs hQ ht (fun h => h.elim) h0 h1 h2 hfuel

/-- C22 fails for low-rank targets with a fixed rank: the product of two block
matrices is never added to such a target (the constructor of a low-rank matrix
from a block matrix mistakes the number of block columns for the number of
columns), whatever the external routines do and however long one waits. -/
theorem C22_fixed_rank_target_fails [CommRing R] [DecidableEq R] (L : Lapack R) (mode : LraMode)
    (lfuel fuel : Nat) {p q r s : Nat} {A B : Nat → Nat → Mat R} {c : LowRank R}
    {α β : R} (hA : (Mat.hier p q A).WF) (hB : (Mat.hier r s B).WF) (he : c.eps = 0)
    (hn : (Mat.hier r s B).nCols ≠ s) (C' : Mat R) :
    Mat.gemm (L.ops mode lfuel) fuel (.hier p q A) (.hier r s B) (.lowRank c) α β false false ≠ .ok C' := by
  intro h
  have hf := L.ops_fits mode lfuel
  cases fuel with
  | zero => cases h
  | succ n =>
    simp only [Mat.gemm, Mat.gemmBoth, except_bind_eq_ok, assertM_eq_ok] at h
    obtain ⟨-, -, -, -, -, -, h⟩ := h
    simp only [Mat.gemmOmm, Mat.gemmToLowRank, Mat.gemmHHLr, he, ne_eq, not_true_eq_false, if_false,
      except_bind_eq_ok] at h
    obtain ⟨ab, hab, h⟩ := h
    have P := (Mat.gemmBoth_ok hf n).2 _ _ α false false ab hA hB (Mat.TransSafe_ff _ _)
      (fun h => h.elim) hab
    have hc : ab.nCols = (Mat.hier r s B).nCols := P.cols
    cases ab with
    | dense => cases h
    | lowRank => cases h
    | empty => cases h
    | hier m k blk =>
      simp only [except_bind_eq_ok] at h
      obtain ⟨d, hd, -⟩ := h
      obtain ⟨-, -, -, br, bc, blk', e, hk, -⟩ :=
        Lapack.ofHier_ok (show L.ofHier lfuel (Mat.hier m k blk) c.rank = .ok d from hd)
      cases e
      -- the product has `s` block columns
      have hks : k = s := by
        cases n with
        | zero => cases hab
        | succ n =>
          simp only [Mat.gemmBoth, except_bind_eq_ok, assertM_eq_ok] at hab
          obtain ⟨-, hd, hab⟩ := hab
          simp only [Mat.gemmNewOmm, Mat.gemmNewHH] at hab
          by_cases h1 : Mat.opDim0 false p q = 1 ∧ Mat.opDim1 false r s = 1
          · rw [if_pos h1] at hab
            have G := (Mat.gemmBoth_ok hf n).1 _ _ (.dense _) _ _ _ _ _ hA hB trivial trivial (Mat.TransSafe_ff _ _)
              (fun h => h.elim) hab
            exact G.2.shape.elim
          · rw [if_neg h1] at hab
            simp only [except_bind_eq_ok] at hab
            obtain ⟨out, -, hab⟩ := hab
            have := Except.ok.inj hab
            injection this with _ h2 _
            exact h2.symm
      rw [hc] at hk
      exact hn (hk.trans hks)

section Examples

theorem mixed_regular : mixed.Regular 2 := by
  refine ⟨mixed_wf, ?_, ?_⟩
  · intro i hi j hj
    have hi' : i = 0 ∨ i = 1 := by omega
    have hj' : j = 0 ∨ j = 1 := by omega
    rcases hi' with rfl | rfl <;> rcases hj' with rfl | rfl <;>
      first
      | (refine ⟨fun a ha b hb => ?_, by decide, by decide⟩
         have ha' : a = 0 ∨ a = 1 := by omega
         have hb' : b = 0 ∨ b = 1 := by omega
         rcases ha' with rfl | rfl <;> rcases hb' with rfl | rfl <;>
           exact ⟨trivial, by decide, by decide⟩)
      | exact ⟨trivial, by decide, by decide⟩
  · refine ⟨rfl, rfl, fun i _ j _ => ?_⟩
    by_cases h : i = j
    · simp only [h, if_true]
      exact ⟨rfl, rfl, fun _ _ _ _ => trivial⟩
    · simp only [h, if_false]
      trivial

theorem plainLapack_ranks_of_pos : ∀ (S : Dense ℤ) (e : ℤ), 0 < S.rows →
    1 ≤ (plainLapack ℤ).truncRank S e ∧ (plainLapack ℤ).truncRank S e ≤ S.rows :=
  fun _ _ h => ⟨h, le_rfl⟩

/-- Routines satisfying `Lapack.Ranks`. -/
def rankedLapack : Lapack ℤ := { plainLapack ℤ with geqp3 := fun A e =>
  (max 1 ((plainLapack ℤ).geqp3 A e).1, ((plainLapack ℤ).geqp3 A e).2) }

theorem rankedLapack_ranks : rankedLapack.Ranks :=
  ⟨plainLapack_ranks_of_pos, fun _ _ => le_max_left _ _⟩

/-- `mixed` with a tolerance in its low-rank blocks. -/
def mixedEps : Mat ℤ := .hier 2 2 (fun i j =>
  if i = j then .hier 2 2 (fun a b => dense1 (a + 2 * b)) else .lowRank { unit01 with eps := 1 })

theorem mixedEps_shape : mixed.SameShape mixedEps := by
  refine ⟨rfl, rfl, fun i _ j _ => ?_⟩
  by_cases h : i = j
  · simp only [h, if_true]
    exact ⟨rfl, rfl, fun _ _ _ _ => ⟨rfl, rfl⟩⟩
  · simp only [h, if_false]
    exact ⟨rfl, rfl⟩

theorem mixedEps_wf : mixedEps.WF := by
  refine ⟨by omega, by omega, fun i hi j hj => ?_⟩
  have hi' : i = 0 ∨ i = 1 := by omega
  have hj' : j = 0 ∨ j = 1 := by omega
  rcases hi' with rfl | rfl <;> rcases hj' with rfl | rfl <;>
    first
    | exact ⟨⟨by omega, by omega, fun i _ j _ => ⟨trivial, rfl, rfl⟩⟩, rfl, rfl⟩
    | exact ⟨⟨rfl, rfl, rfl, rfl, rfl⟩, rfl, rfl⟩

/-- C22: the hypotheses hold for matrices with all kinds of blocks. -/
example (fuel : Nat) (h : 13 ≤ fuel) : ∃ C', Mat.gemm (rankedLapack.ops .rounded 20) fuel mixed mixed
    mixedEps 2 3 false false = .ok C' := by
  refine C22_gemm_library_partial rankedLapack_ranks (mode := .rounded) nofun 20 (by omega : 2 ≤ 2) mixed_regular
    mixed_regular (mixedEps_shape.regular mixedEps_wf mixed_regular) ?_ ?_ (Mat.TransSafe_ff _ _)
    (by decide) (by decide) (by decide) (le_trans (by decide) h)
  · intro i _ j _
    by_cases h : i = j
    · simp only [h, if_true]
      exact fun _ _ _ _ => trivial
    · simp only [h, if_false]
      rfl
  · intro i _ j _
    by_cases h : i = j
    · simp only [h, if_true]
      exact fun _ _ _ _ => trivial
    · simp only [h, if_false]
      exact ⟨⟨rfl, rfl, rfl, rfl, rfl⟩, rfl, by decide, by decide, by decide, by decide⟩

/-- C22: a new matrix. -/
example : ∃ D, Mat.gemmNew (exactOps ℤ) 14 mixed mixed 2 false false = .ok D :=
  C22_gemm_new_returns exactOps_fits (by omega : 2 ≤ 2) mixed_regular mixed_regular
    (Mat.TransSafe_ff _ _) (by decide) (by decide)

/-- C22: a product that fails, though all operands are regular. -/
example (fuel : Nat) (C' : Mat ℤ) : Mat.gemm (rankedLapack.ops .fast 20) fuel mixed mixed
    (.lowRank (outer 4 4 1)) 1 1 false false ≠ .ok C' :=
  C22_fixed_rank_target_fails _ .fast _ _ mixed_wf mixed_wf rfl (by decide) C'

end Examples
end Verif
