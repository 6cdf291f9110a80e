import Verif.Lemmas.SameTri
import Verif.Lemmas.Split

/-
Conversions to dense matrices, and the low-rank operations of the library, on operands that are
stored alike.
-/

namespace Verif
open Finset

variable {R : Type}

namespace Dense

theorem Same.hcat {a a' b b' : Dense R} (ha : a.Same a') (hb : b.Same b') (h : a.rows = b.rows) :
    (Dense.hcat a b).Same (Dense.hcat a' b') := by
  refine ⟨ha.1, by simp only [Dense.hcat, ha.2.1, hb.2.1], fun i hi j hj => ?_⟩
  change i < a.rows at hi
  change j < a.cols + b.cols at hj
  simp only [Dense.hcat, ← ha.2.1]
  split
  · exact ha.2.2 i hi j (by assumption)
  · exact hb.2.2 i (h ▸ hi) _ (by omega)

theorem Same.vcat {a a' b b' : Dense R} (ha : a.Same a') (hb : b.Same b') (h : a.cols = b.cols) :
    (Dense.vcat a b).Same (Dense.vcat a' b') := by
  refine ⟨by simp only [Dense.vcat, ha.1, hb.1], ha.2.1, fun i hi j hj => ?_⟩
  change i < a.rows + b.rows at hi
  change j < a.cols at hj
  simp only [Dense.vcat, ← ha.1]
  split
  · exact ha.2.2 i (by assumption) j hj
  · exact hb.2.2 _ (by omega) j (h ▸ hj)

theorem Same.of_eq (m n : Nat) {f f' : Nat → Nat → R} (h : f = f') : Dense.Same ⟨m, n, f⟩ ⟨m, n, f'⟩ := by
  subst h
  exact Same.refl _

end Dense

namespace Mat
variable [CommRing R]

theorem same_fillDenseFrom {A A' : Mat R} (hA : A.Same A') (bA : A.HasBlocks) {B B' : Dense R}
    (hB : B.Same B') :
    Both (fun X X' => X.Same X' ∧ X.rows = B.rows ∧ X.cols = B.cols) (A.fillDenseFrom B)
      (A'.fillDenseFrom B') := by
  induction A generalizing A' B B' with
  | dense d =>
    cases A' <;> try exact hA.elim
    rename_i d'
    simp only [fillDenseFrom]
    refine Both.assert' (by rw [hA.1, hB.1]) (fun g1 => Both.assert' (by rw [hA.2.1, hB.2.1]) (fun g2 => Both.ok
      ⟨⟨hB.1, hB.2.1, fun i hi j hj => ?_⟩, rfl, rfl⟩))
    change i < B.rows at hi
    change j < B.cols at hj
    exact hA.2.2 _ (by omega) _ (by omega)
  | lowRank l =>
    cases A' <;> try exact hA.elim
    exact LowRank.Same.fillDense hA hB
  | empty m n =>
    cases A' <;> try exact hA.elim
    obtain ⟨rfl, rfl⟩ := hA
    simp only [fillDenseFrom]
    exact Both.assert' (by rw [hB.1]) (fun _ => Both.assert' (by rw [hB.2.1]) (fun _ => Both.ok
      ⟨⟨hB.1, hB.2.1, fun i hi j hj => rfl⟩, rfl, rfl⟩))
  | hier m n blk ih =>
    cases A' with
    | hier m' n' blk' => ?_
    | _ => exact hA.elim
    have hd := hA.dims bA
    obtain ⟨rfl, rfl, hA⟩ := hA
    have q1 : ∀ i < m, (blk' i 0).nRows = (blk i 0).nRows := fun i hi =>
      ((hA i hi 0 bA.2.1).dims (bA.2.2 i hi 0 bA.2.1)).1.symm
    have q2 : ∀ j < n, (blk' 0 j).nCols = (blk 0 j).nCols := fun j hj =>
      ((hA 0 bA.1 j hj).dims (bA.2.2 0 bA.1 j hj)).2.symm
    have e1 : blockHeights m blk' = blockHeights m blk :=
      List.map_congr_left (fun i hi => by rw [q1 i (List.mem_range.1 hi)])
    have e2 : blockWidths n blk' = blockWidths n blk :=
      List.map_congr_left (fun j hj => by rw [q2 j (List.mem_range.1 hj)])
    simp only [fillDenseFrom, splitLikeH, bind_assoc]
    refine Both.assert' (by rw [hd.1]; simp only [nRows, hB.1]) (fun g1 =>
      Both.assert' (by rw [hd.2]; simp only [nCols, hB.2.1]) (fun g2 => ?_))
    simp only [nRows] at g1
    simp only [nCols] at g2
    rw [e1, e2]
    simp only [nRows, nCols, splitOmm, ← hB.1, ← hB.2.1]
    obtain ⟨-, l1⟩ := splitLike_isPartition m (fun i => (blk i 0).nRows) B.rows (by
      rw [g1]; rfl)
    obtain ⟨-, l2⟩ := splitLike_isPartition n (fun j => (blk 0 j).nCols) B.cols (by
      rw [g2]; rfl)
    have p1 := partSizes_splitLike B.rows m (fun i => (blk i 0).nRows)
    have p2 := partSizes_splitLike B.cols n (fun j => (blk 0 j).nCols)
    change (IndexRange.splitLike _ (blockHeights m blk)).length = m at l1
    change (IndexRange.splitLike _ (blockWidths n blk)).length = n at l2
    change ∀ i, i < m → partSizes (IndexRange.splitLike _ (blockHeights m blk)) i = _ at p1
    change ∀ i, i < n → partSizes (IndexRange.splitLike _ (blockWidths n blk)) i = _ at p2
    set rs := (⟨0, B.rows⟩ : IndexRange).splitLike (blockHeights m blk)
    set cs := (⟨0, B.cols⟩ : IndexRange).splitLike (blockWidths n blk)
    refine (same_splitDense hB rs cs (fun h => ?_) (fun h => ?_)).bind (fun H H' h1 h2 hH => ?_)
    · rw [h] at l1; have := bA.1; simp at l1; omega
    · rw [h] at l2; have := bA.2.1; simp at l2; omega
    unfold splitDense at h1 h2
    split at h1 <;> [skip; exact (nomatch h1)]
    split at h2 <;> [skip; exact (nomatch h2)]
    obtain rfl := Except.ok.inj h1
    obtain rfl := Except.ok.inj h2
    obtain ⟨⟨-, -, hH⟩, -⟩ := hH
    simp only
    rw [l1, l2] at hH
    refine (collect2_both (P := fun i j (e e' : Dense R) => e.Same e' ∧ e.rows = (blk i 0).nRows ∧
      e.cols = (blk 0 j).nCols) (fun i hi j hj => ?_)).map (fun g g' hg =>
        ⟨⟨rfl, rfl, ?_⟩, rfl, rfl⟩)
    · refine (ih i j (hA i hi j hj) (bA.2.2 i hi j hj) (hH i hi j hj)).mono (fun X X' h => ⟨h.1, ?_, ?_⟩)
      · exact h.2.1.trans (p1 i hi)
      · exact h.2.2.trans (p2 j hj)
    · intro i hi j hj
      change i < B.rows at hi
      change j < B.cols at hj
      rw [g1] at hi
      rw [g2] at hj
      change i < psum (fun i => (blk i 0).nRows) m at hi
      change j < psum (fun j => (blk 0 j).nCols) n at hj
      obtain ⟨p, hp, x, hx, rfl⟩ := exists_block _ _ _ hi
      obtain ⟨q, hq, y, hy, rfl⟩ := exists_block _ _ _ hj
      simp only [joinVal, locate_congr q1, locate_congr q2, locate_at (fun i => (blk i 0).nRows) m p x hp hx,
        locate_at (fun j => (blk 0 j).nCols) n q y hq hy]
      obtain ⟨s1, s2, s3⟩ := hg p hp q hq
      exact s1.2.2 x (s2 ▸ hx) y (s3 ▸ hy)

/-- Conversion to a dense matrix. -/
theorem same_denseOf {A A' : Mat R} (hA : A.Same A') (bA : A.HasBlocks) :
    Both Dense.Same A.toDense A'.toDense := by
  unfold toDense
  rw [← (hA.dims bA).1, ← (hA.dims bA).2]
  exact (same_fillDenseFrom hA bA (Dense.Same.refl _)).mono (fun _ _ h => h.1)

theorem same_denseGrid {m n : Nat} (hm : 1 ≤ m) (hn : 1 ≤ n) {f f' : Nat → Nat → Dense R}
    (h : ∀ i j, (f i j).Same (f' i j)) :
    Both Dense.Same (Mat.hier m n (fun i j => .dense (f i j))).toDense
      (Mat.hier m n (fun i j => .dense (f' i j))).toDense :=
  same_denseOf (A := .hier m n (fun i j => .dense (f i j))) (A' := .hier m n (fun i j => .dense (f' i j)))
    ⟨rfl, rfl, fun i _ j _ => h i j⟩ ⟨hm, hn, fun _ _ _ _ => trivial⟩

end Mat

theorem noOps_local : (Lapack.noOps R).Local where
  add _ _ _ _ _ _ := Both.err _ _
  ofRank _ _ _ _ := Both.err _ _
  ofEps _ _ _ _ := Both.err _ _
  ofHier _ _ _ _ _ := Both.err _ _

namespace Lapack

variable {L : Lapack R} (hL : L.Local)
include hL

theorem same_qrInto {A A' : Dense R} (h : A.Same A') (a b c d : Nat) :
    Both (fun x x' => x.1.Same x'.1 ∧ x.2.Same x'.2 ∧ x.1.rows = a ∧ x.1.cols = b ∧ x.2.rows = c ∧ x.2.cols = d ∧
      a = A.rows ∧ b = c ∧ d = A.cols)
      (L.qrInto A a b c d) (L.qrInto A' a b c d) := by
  unfold qrInto
  rw [hL.qr A A' h]
  exact Both.assert' (by rw [h.1]) (fun g1 => Both.assert (fun g2 => Both.assert' (by rw [h.2.1]) (fun g3 =>
    Both.ok ⟨Dense.Same.refl _, Dense.Same.refl _, rfl, rfl, rfl, rfl, g1, g2, g3⟩)))

theorem same_rqInto {A A' : Dense R} (h : A.Same A') (a b c d : Nat) :
    Both (fun x x' => x.1.Same x'.1 ∧ x.2.Same x'.2 ∧ x.1.rows = a ∧ x.1.cols = b ∧ x.2.rows = c ∧ x.2.cols = d ∧
      a = A.rows ∧ b = c ∧ d = A.cols)
      (L.rqInto A a b c d) (L.rqInto A' a b c d) := by
  unfold rqInto
  rw [hL.rq A A' h]
  exact Both.assert' (by rw [h.1]) (fun g1 => Both.assert (fun g2 => Both.assert' (by rw [h.2.1]) (fun g3 =>
    Both.ok ⟨Dense.Same.refl _, Dense.Same.refl _, rfl, rfl, rfl, rfl, g1, g2, g3⟩)))

theorem same_svdNew [Zero R] {A A' : Dense R} (h : A.Same A') : L.svdNew A = L.svdNew A' := by
  simp only [svdNew, hL.svd A A' h, h.1, h.2.1]

variable [CommRing R]

theorem same_rsvd {A A' : Dense R} (h : A.Same A') (k : Nat) :
    Both (fun x x' => x.1.Same x'.1 ∧ x.2.1.Same x'.2.1 ∧ x.2.2.Same x'.2.2) (L.rsvd A k) (L.rsvd A' k) := by
  unfold rsvd
  rw [hL.random A A' h, ← h.2.1]
  refine (h.gemmNew' (Dense.Same.refl _) 1 false false).bind (fun Y Y' _ _ hY => ?_)
  rw [← hY.1, ← hY.2.1]
  refine (same_qrInto hL hY _ _ _ _).bind (fun q q' _ _ hq => ?_)
  refine (hq.1.gemmNew' h 1 true false).bind (fun Z Z' _ _ hZ => ?_)
  simp only [same_svdNew hL hZ]
  exact (hq.1.gemmNew' (Dense.Same.refl _) 1 false false).map (fun U U' hU =>
    ⟨hU, Dense.Same.refl _, Dense.Same.refl _⟩)

omit hL in
theorem same_cut {f f' : Dense R × Dense R × Dense R}
    (h : f.1.Same f'.1 ∧ f.2.1.Same f'.2.1 ∧ f.2.2.Same f'.2.2) (m n rank : Nat) :
    Both LowRank.Same (do
      let U ← f.1.resize m rank
      let V ← f.2.2.resize rank n
      let S ← f.2.1.resize rank rank
      .ok { dim0 := m, dim1 := n, rank := rank, eps := 0, U, S, V }) (do
      let U ← f'.1.resize m rank
      let V ← f'.2.2.resize rank n
      let S ← f'.2.1.resize rank rank
      .ok { dim0 := m, dim1 := n, rank := rank, eps := 0, U, S, V }) :=
  (h.1.resize m rank).bind (fun _ _ _ _ hU => (h.2.2.resize rank n).bind (fun _ _ _ _ hV =>
    (h.2.1.resize rank rank).bind (fun _ _ _ _ hS => Both.ok ⟨rfl, rfl, rfl, rfl, hU.1, hS.1, hV.1⟩)))

theorem same_ofRank {A A' : Dense R} (h : A.Same A') (k : Nat) :
    Both LowRank.Same (L.ofRank A k) (L.ofRank A' k) := by
  unfold ofRank
  rw [← h.1, ← h.2.1]
  exact (same_rsvd hL h _).bind (fun f f' _ _ hf => same_cut hf _ _ _)

omit [CommRing R] in
theorem same_ofEps {A A' : Dense R} (h : A.Same A') (e : R) :
    Both LowRank.Same (L.ofEps A e) (L.ofEps A' e) := by
  unfold ofEps
  rw [hL.geqp3 A A' h, ← h.1, ← h.2.1]
  exact (same_rqInto hL (Dense.Same.refl _) _ _ _ _).map (fun f f' hf =>
    ⟨rfl, rfl, rfl, rfl, Dense.Same.refl _, hf.1, hf.2.1⟩)

variable [DecidableEq R]

theorem same_ofHier (fuel : Nat) {A A' : Mat R} (h : A.Same A') (bA : A.HasBlocks) (k : Nat) :
    Both LowRank.Same (L.ofHier fuel A k) (L.ofHier fuel A' k) := by
  have hd := h.dims bA
  cases A with
  | hier p q A =>
    cases A' with
    | hier p' q' A' =>
      obtain ⟨rfl, rfl, h0⟩ := id h
      simp only [ofHier]
      refine Both.bind (P := fun x x' => x.1.Same x'.1 ∧ x.2.1.Same x'.2.1 ∧ x.2.2.Same x'.2.2) ?_
        (fun f f' _ _ hf => same_cut hf _ _ _)
      have hg := (Mat.gemmBoth_alike (noOps_local (R := R)) fuel).2
      unfold rsvdHier
      rw [← hd.1, ← hd.2]
      refine (hg _ _ (.dense ⟨q, _, _⟩) (.dense ⟨q, _, _⟩) 1 false false h (Mat.Same.refl _) bA trivial).bind (fun Y Y' _ _ hY => ?_)
      refine (Mat.same_asDense hY.1).bind (fun Y Y' _ _ hY => ?_)
      rw [← hY.1, ← hY.2.1]
      refine (same_qrInto hL hY _ _ _ _).bind (fun q q' _ _ hq => ?_)
      refine (hg (.dense q.1) (.dense q'.1) _ _ 1 true false hq.1 h trivial bA).bind (fun Z Z' _ _ hZ => ?_)
      refine (Mat.same_asDense hZ.1).bind (fun Z Z' _ _ hZ => ?_)
      simp only [same_svdNew hL hZ]
      exact (hq.1.gemmNew' (Dense.Same.refl _) 1 false false).map (fun U U' hU =>
        ⟨hU, Dense.Same.refl _, Dense.Same.refl _⟩)
    | _ => exact h.elim
  | _ => cases A' <;> first | exact h.elim | exact Both.err _ _

end Lapack

namespace LowRank

variable [CommRing R] {L : Lapack R} (hL : L.Local)
include hL

theorem same_naiveAdd {a a' b b' : LowRank R} (ha : a.Same a') (hb : b.Same b') :
    Both LowRank.Same (a.naiveAdd L b) (a'.naiveAdd L b') := by
  unfold naiveAdd
  rw [← ha.rank, ← hb.rank, ← ha.dim0, ← ha.dim1]
  split
  · refine ha.toDense.bind (fun A A' _ _ hA => hb.toDense.bind (fun B B' _ _ hB => ?_))
    refine (hA.1.add hB.1).bind (fun S S' _ _ hS => Lapack.same_ofRank hL hS _)
  · refine (Mat.same_denseGrid (f := fun _ j => if j = 0 then a.U else b.U)
      (f' := fun _ j => if j = 0 then a'.U else b'.U) le_rfl (by omega)
      (fun i j => Dense.Same.ite ha.U hb.U)).bind (fun U U' _ _ hU => ?_)
    refine (Mat.same_denseGrid
      (f := fun i j => if i = 0 then (if j = 0 then a.S else Dense.zero a.rank b.rank)
        else (if j = 0 then Dense.zero b.rank a.rank else b.S))
      (f' := fun i j => if i = 0 then (if j = 0 then a'.S else Dense.zero a.rank b.rank)
        else (if j = 0 then Dense.zero b.rank a.rank else b'.S)) (by omega) (by omega)
      (fun i j => Dense.Same.ite (Dense.Same.ite ha.S (Dense.Same.refl _))
        (Dense.Same.ite (Dense.Same.refl _) hb.S))).bind (fun S S' _ _ hS => ?_)
    exact (Mat.same_denseGrid (f := fun i _ => if i = 0 then a.V else b.V)
      (f' := fun i _ => if i = 0 then a'.V else b'.V) (by omega) le_rfl
      (fun i j => Dense.Same.ite ha.V hb.V)).map (fun V V' hV =>
        ⟨rfl, rfl, rfl, ha.eps, hU, hS, hV⟩)

variable [DecidableEq R]

theorem same_roundedAdd {a a' b b' : LowRank R} (ha : a.Same a') (hb : b.Same b') :
    Both LowRank.Same (a.roundedAdd L b) (a'.roundedAdd L b') := by
  unfold roundedAdd
  rw [← ha.U.1, ← ha.S.2.1, ← hb.S.2.1, ← ha.V.1, ← ha.V.2.1, ← hb.V.1, ← ha.eps, ← ha.rank]
  refine (ha.U.gemm ha.S (Dense.Same.refl _) 1 0 false false).bind (fun u0 u0' _ _ h0 => ?_)
  refine (hb.U.gemm hb.S (Dense.Same.refl _) 1 0 false false).bind (fun u1 u1' _ _ h1 => ?_)
  have hc := h0.1.hcat h1.1 (h0.2.1.trans h1.2.1.symm)
  simp only [← hc.1, ← hc.2.1]
  refine (Lapack.same_qrInto hL hc _ _ _ _).bind (fun qu qu' _ _ hqu => ?_)
  refine (ha.V.copyTo _ _).bind (fun v0 v0' _ _ k0 => (hb.V.copyTo _ _).bind (fun v1 v1' _ _ k1 => ?_))
  have kc := k0.1.vcat k1.1 (k0.2.2.trans k1.2.2.symm)
  simp only [← kc.1, ← kc.2.1]
  refine (Lapack.same_rqInto hL kc _ _ _ _).bind (fun qv qv' _ _ hqv => ?_)
  refine (hqu.2.1.gemmNew' hqv.1 1 false false).bind (fun RR RR' _ _ hR => ?_)
  simp only [Lapack.same_svdNew hL hR]
  refine ((Dense.Same.refl _).resize _ _).bind (fun S S' _ _ hS => ?_)
  refine ((Dense.Same.refl _).resize _ _).bind (fun u u' _ _ hu => ?_)
  refine (hqu.1.gemmNew' hu.1 1 false false).bind (fun U U' _ _ hU => ?_)
  refine ((Dense.Same.refl _).resize _ _).bind (fun v v' _ _ hv => ?_)
  exact (hv.1.gemmNew' hqv.2.1 1 false false).map (fun V V' hV =>
    ⟨ha.dim0, ha.dim1, rfl, rfl, hU, hS.1, hV⟩)

theorem same_fastAdd {a a' b b' : LowRank R} (ha : a.Same a') (hb : b.Same b') :
    Both LowRank.Same (a.fastAdd L b) (a'.fastAdd L b') := by
  have hr := same_roundedAdd hL ha hb
  unfold fastAdd
  rw [← ha.eps]
  split
  · exact hr
  rw [← ha.rank, ← ha.U.1, ← ha.U.2.1, ← ha.S.1, ← ha.S.2.1, ← hb.S.1, ← hb.S.2.1, ← ha.V.1, ← ha.V.2.1]
  refine (ha.U.gemmNew hb.U 1 true false).bind (fun Zu Zu' _ _ hZu => ?_)
  refine (ha.U.gemm hZu.1 hb.U _ _ _ _).bind (fun Yu Yu' _ _ hYu => ?_)
  rw [← hYu.1.1, ← hYu.1.2.1]
  refine (Lapack.same_qrInto hL hYu.1 _ _ _ _).bind (fun qu qu' _ _ hqu => ?_)
  rw [← hqu.1.2.1]
  refine (ha.U.copyTo _ _).bind (fun u0 u0' _ _ h0 => (hqu.1.copyTo _ _).bind (fun u1 u1' _ _ h1 => ?_))
  have hUc := h0.1.hcat h1.1 (h0.2.1.trans h1.2.1.symm)
  refine (hb.V.gemmNew ha.V 1 false true).bind (fun Zv Zv' _ _ hZv => ?_)
  refine (hZv.1.gemm ha.V hb.V _ _ _ _).bind (fun Yv Yv' _ _ hYv => ?_)
  rw [← hYv.1.1, ← hYv.1.2.1]
  refine (Lapack.same_rqInto hL hYv.1 _ _ _ _).bind (fun qv qv' _ _ hqv => ?_)
  rw [← hqv.2.1.1]
  refine (ha.V.copyTo _ _).bind (fun v0 v0' _ _ k0 => (hqv.2.1.copyTo _ _).bind (fun v1 v1' _ _ k1 => ?_))
  have hVc := k0.1.vcat k1.1 (k0.2.2.trans k1.2.2.symm)
  refine (hZu.1.gemmNew' hb.S 1 false false).bind (fun ZuS ZuS' _ _ hZS => ?_)
  refine (hqu.2.1.gemmNew' hb.S 1 false false).bind (fun RuS RuS' _ _ hRS => ?_)
  refine (ha.S.copyTo _ _).bind (fun m0 m0' _ _ hm0 => ?_)
  refine (hZS.gemm hZv.1 hm0.1 _ _ _ _).bind (fun m00 m00' _ _ h00 => ?_)
  refine (hZS.gemm hqv.1 (Dense.Same.refl _) _ _ _ _).bind (fun m01 m01' _ _ h01 => ?_)
  refine (hRS.gemm hZv.1 (Dense.Same.refl _) _ _ _ _).bind (fun m10 m10' _ _ h10 => ?_)
  refine (hRS.gemm hqv.1 (Dense.Same.refl _) _ _ _ _).bind (fun m11 m11' _ _ h11 => ?_)
  have hM := (h00.1.hcat h01.1 ((h00.2.1.trans hm0.2.1).trans h01.2.1.symm)).vcat
    (h10.1.hcat h11.1 (h10.2.1.trans h11.2.1.symm)) (by
      change m00.cols + m01.cols = m10.cols + m11.cols
      rw [h00.2.2, hm0.2.2, h01.2.2, h10.2.2, h11.2.2]
      rfl)
  simp only [Lapack.same_svdNew hL hM]
  refine ((Dense.Same.refl _).resize _ _).bind (fun S S' _ _ hS => ?_)
  refine ((Dense.Same.refl _).resize _ _).bind (fun u u' _ _ hu => ?_)
  refine (hUc.gemmNew' hu.1 1 false false).bind (fun U U' _ _ hU => ?_)
  refine ((Dense.Same.refl _).resize _ _).bind (fun v v' _ _ hv => ?_)
  exact (hv.1.gemmNew' hVc 1 false false).map (fun V V' hV =>
    ⟨ha.dim0, ha.dim1, rfl, rfl, hU, hS.1, hV⟩)

end LowRank

theorem Lapack.Local.ops [CommRing R] [DecidableEq R] {L : Lapack R} (hL : L.Local) (mode : LraMode)
    (fuel : Nat) : (L.ops mode fuel).Local where
  add a a' b b' ha hb := by
    cases mode
    · exact LowRank.same_naiveAdd hL ha hb
    · exact LowRank.same_roundedAdd hL ha hb
    · exact LowRank.same_fastAdd hL ha hb
  ofRank a a' k h := Lapack.same_ofRank hL h k
  ofEps a a' e h := Lapack.same_ofEps hL h e
  ofHier A A' k hb h := Lapack.same_ofHier hL fuel h hb k

end Verif
