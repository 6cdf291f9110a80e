import Verif.Lemmas.Lu
import Verif.Lemmas.LrAdd
import Verif.Lemmas.Construct

/-
The factors of low-rank matrices fit together after every operation (C52).  In
contrast to the correctness proofs no assumption on transposition flags or on
matching structures is needed here.
-/

namespace Verif
open Finset

variable {R : Type}

namespace Mat

/-- Every low-rank block has fitting factors and a square middle factor; nothing
is said about the alignment of blocks. -/
def Fit : Mat R → Prop
  | .dense _ => True
  | .lowRank l => l.WF ∧ l.Square
  | .hier br bc blk => ∀ i < br, ∀ j < bc, (blk i j).Fit
  | .empty _ _ => True

theorem Fit.of {A : Mat R} (h : A.WF) (hs : A.Square) : A.Fit := by
  induction A with
  | dense d => trivial
  | lowRank l => exact ⟨h, hs⟩
  | empty => trivial
  | hier br bc blk ih =>
    simp only [WF] at h
    exact fun i hi j hj => ih i j (h.2.2 i hi j hj).1 (hs i hi j hj)

/-- A matrix of the same shape as a consistent one is consistent if its low-rank
blocks are. -/
theorem Fit.wf {A A' : Mat R} (h : A.WF) (hs : A.SameShape A') (hf : A'.Fit) :
    A'.WF ∧ A'.Square := by
  induction A generalizing A' with
  | dense d => cases A' <;> first | exact hs.elim | exact ⟨trivial, trivial⟩
  | lowRank l => cases A' <;> first | exact hs.elim | exact hf
  | empty => cases A' <;> first | exact hs.elim | exact ⟨trivial, trivial⟩
  | hier br bc blk ih =>
    cases A' <;> first | exact hs.elim | skip
    rename_i br' bc' blk'
    have h0 := h
    simp only [WF] at h ⊢
    obtain ⟨rfl, rfl, hb⟩ := hs
    have dim : ∀ i < br, ∀ j < bc, (blk' i j).nRows = (blk i j).nRows ∧
        (blk' i j).nCols = (blk i j).nCols := fun i hi j hj =>
      (hb i hi j hj).dims (h.2.2 i hi j hj).1
    have I : ∀ i < br, ∀ j < bc, (blk' i j).WF ∧ (blk' i j).Square := fun i hi j hj =>
      ih i j (h.2.2 i hi j hj).1 (hb i hi j hj) (hf i hi j hj)
    refine ⟨⟨h.1, h.2.1, fun i hi j hj => ⟨(I i hi j hj).1, ?_, ?_⟩⟩, fun i hi j hj => (I i hi j hj).2⟩
    · rw [(dim i hi j hj).1, (dim i hi 0 h.2.1).1, (h.2.2 i hi j hj).2.1]
    · rw [(dim i hi j hj).2, (dim 0 h.1 j hj).2, (h.2.2 i hi j hj).2.2]

theorem Fit.block {A B : Mat R} (h : A.Fit) (hb : BlockOf B A) : B.Fit := by
  induction hb with
  | refl => exact h
  | block br bc blk i j hi hj _ ih => exact ih (h i hi j hj)

/-! ### entrywise operations -/

theorem scale_fit [Mul R] {A A' : Mat R} {b : R} (h : A.Fit) (e : A.scale b = .ok A') :
    A.SameShape A' ∧ A'.Fit := by
  induction A generalizing A' with
  | dense d => cases e; exact ⟨⟨rfl, rfl⟩, trivial⟩
  | lowRank l =>
    cases e
    exact ⟨⟨rfl, rfl⟩, ⟨h.1.urows, h.1.ucols, h.1.srows, h.1.vrows, h.1.vcols⟩, h.2⟩
  | empty => cases e
  | hier br bc blk ih =>
    simp only [scale, except_bind_eq_ok] at e
    obtain ⟨g, hg, e⟩ := e
    cases e
    have I := fun i hi j hj => ih i j (h i hi j hj) (collect2_ok hg i hi j hj)
    exact ⟨⟨rfl, rfl, fun i hi j hj => (I i hi j hj).1⟩, fun i hi j hj => (I i hi j hj).2⟩

theorem zeroAll_fit [Zero R] [One R] {A A' : Mat R} (h : A.Fit) (e : A.zeroAll = .ok A') :
    A.SameShape A' ∧ A'.Fit := by
  induction A generalizing A' with
  | dense d => cases e; exact ⟨⟨rfl, rfl⟩, trivial⟩
  | lowRank l =>
    cases e
    exact ⟨⟨rfl, rfl⟩, ⟨h.1.urows, h.1.ucols, h.1.srows, h.1.vrows, h.1.vcols⟩, h.2⟩
  | empty => cases e
  | hier br bc blk ih =>
    simp only [zeroAll, except_bind_eq_ok] at e
    obtain ⟨g, hg, e⟩ := e
    cases e
    have I := fun i hi j hj => ih i j (h i hi j hj) (collect2_ok hg i hi j hj)
    exact ⟨⟨rfl, rfl, fun i hi j hj => (I i hi j hj).1⟩, fun i hi j hj => (I i hi j hj).2⟩

theorem zeroLower_fit [Zero R] [One R] {A A' : Mat R} (h : A.Fit) (e : A.zeroLower = .ok A') :
    A.SameShape A' ∧ A'.Fit := by
  induction A generalizing A' with
  | dense d => cases e; exact ⟨⟨rfl, rfl⟩, trivial⟩
  | lowRank l => cases e
  | empty => cases e
  | hier br bc blk ih =>
    simp only [zeroLower, except_bind_eq_ok] at e
    obtain ⟨g, hg, e⟩ := e
    cases e
    have I : ∀ i < br, ∀ j < bc, (blk i j).SameShape (g i j) ∧ (g i j).Fit := by
      intro i hi j hj
      have := collect2_ok hg i hi j hj
      split at this
      · exact ih i j (h i hi j hj) this
      · split at this
        · exact zeroAll_fit (h i hi j hj) this
        · rw [← Except.ok.inj this]; exact ⟨SameShape.refl _, h i hi j hj⟩
    exact ⟨⟨rfl, rfl, fun i hi j hj => (I i hi j hj).1⟩, fun i hi j hj => (I i hi j hj).2⟩

theorem zeroUpper_fit [Zero R] [One R] {A A' : Mat R} (h : A.Fit) (e : A.zeroUpper = .ok A') :
    A.SameShape A' ∧ A'.Fit := by
  induction A generalizing A' with
  | dense d => cases e; exact ⟨⟨rfl, rfl⟩, trivial⟩
  | lowRank l => cases e
  | empty => cases e
  | hier br bc blk ih =>
    simp only [zeroUpper, except_bind_eq_ok] at e
    obtain ⟨g, hg, e⟩ := e
    cases e
    have I : ∀ i < br, ∀ j < bc, (blk i j).SameShape (g i j) ∧ (g i j).Fit := by
      intro i hi j hj
      have := collect2_ok hg i hi j hj
      split at this
      · exact ih i j (h i hi j hj) this
      · split at this
        · exact zeroAll_fit (h i hi j hj) this
        · rw [← Except.ok.inj this]; exact ⟨SameShape.refl _, h i hi j hj⟩
    exact ⟨⟨rfl, rfl, fun i hi j hj => (I i hi j hj).1⟩, fun i hi j hj => (I i hi j hj).2⟩

theorem shallowCopy_fit {A A' : Mat R} (h : A.Fit) (e : A.shallowCopy = .ok A') :
    A.SameShape A' ∧ A'.Fit := by
  induction A generalizing A' with
  | dense d => cases e; exact ⟨⟨rfl, rfl⟩, trivial⟩
  | lowRank l =>
    cases e
    exact ⟨⟨h.1.urows.symm, h.1.vcols.symm⟩,
      ⟨rfl, by rw [h.1.ucols]; exact h.1.srows.symm, rfl, h.1.vrows, rfl⟩,
      by have := h.2; simp only [LowRank.Square] at this ⊢; rw [this, h.1.srows]⟩
  | empty => cases e
  | hier br bc blk ih =>
    simp only [shallowCopy, except_bind_eq_ok] at e
    obtain ⟨g, hg, e⟩ := e
    cases e
    have I := fun i hi j hj => ih i j (h i hi j hj) (collect2_ok hg i hi j hj)
    exact ⟨⟨rfl, rfl, fun i hi j hj => (I i hi j hj).1⟩, fun i hi j hj => (I i hi j hj).2⟩

theorem transpose_fit [Zero R] {A A' : Mat R} (h : A.WF) (hs : A.Square)
    (e : A.transpose = .ok A') :
    A'.WF ∧ A'.Square ∧ A'.nRows = A.nCols ∧ A'.nCols = A.nRows := by
  induction A generalizing A' with
  | dense d => cases e; exact ⟨trivial, trivial, rfl, rfl⟩
  | lowRank l =>
    cases e
    have h : l.WF := h
    have hs : l.S.cols = l.rank := hs
    refine ⟨⟨rfl, ?_, rfl, ?_, rfl⟩, ?_, h.vcols, h.urows⟩
    · exact h.vrows
    · show l.U.cols = l.S.rows
      rw [h.ucols, h.srows]
    · show l.S.rows = l.S.cols
      rw [hs, h.srows]
  | empty => cases e
  | hier br bc blk ih =>
    simp only [transpose, except_bind_eq_ok] at e
    obtain ⟨g, hg, e⟩ := e
    cases e
    simp only [WF] at h
    have I := fun i hi j hj => ih i j (h.2.2 i hi j hj).1 (hs i hi j hj) (collect2_ok hg i hi j hj)
    refine ⟨?_, fun j hj i hi => (I i hi j hj).2.1, ?_, ?_⟩
    · simp only [WF]
      refine ⟨h.2.1, h.1, fun j hj i hi => ⟨(I i hi j hj).1, ?_, ?_⟩⟩
      · rw [(I i hi j hj).2.2.1, (I 0 h.1 j hj).2.2.1, (h.2.2 i hi j hj).2.2]
      · rw [(I i hi j hj).2.2.2, (I i hi 0 h.2.1).2.2.2, (h.2.2 i hi j hj).2.1]
    · simp only [nRows, nCols]
      exact Finset.sum_congr rfl (fun j hj => (I 0 h.1 j (Finset.mem_range.1 hj)).2.2.1)
    · simp only [nRows, nCols]
      exact Finset.sum_congr rfl (fun i hi => (I i (Finset.mem_range.1 hi) 0 h.2.1).2.2.2)

/-! ### splitting -/

/-- Splitting along any non-empty lists of ranges. -/
theorem splitOmm_fit [Zero R] {A M : Mat R} {rs cs : List IndexRange} (hr : rs ≠ []) (hc : cs ≠ [])
    (h : A.WF) (hs : A.Square) (e : A.splitOmm rs cs = .ok M) : M.WF ∧ M.Square := by
  have lr : 0 < rs.length := List.length_pos_iff.2 hr
  have lc : 0 < cs.length := List.length_pos_iff.2 hc
  cases A with
  | dense d =>
    simp only [splitOmm, splitDense] at e
    split at e
    · cases e
      refine ⟨?_, fun i _ j _ => trivial⟩
      simp only [WF]
      exact ⟨lr, lc, fun i _ j _ => ⟨trivial, rfl, rfl⟩⟩
    · cases e
  | lowRank l =>
    simp only [splitOmm, splitLowRank] at e
    have h : l.WF := h
    have hs : l.S.cols = l.rank := hs
    split at e
    · cases e
      refine ⟨?_, fun i _ j _ => ?_⟩
      · simp only [WF]
        refine ⟨lr, lc, fun i _ j _ => ⟨⟨rfl, ?_, rfl, ?_, rfl⟩, rfl, rfl⟩⟩
        · simp only [LowRank.ofFactors]
          split <;> simp [Dense.sub, h.ucols, h.srows]
        · simp only [LowRank.ofFactors]
          split <;> simp [Dense.sub, h.vrows]
      · show l.S.cols = l.S.rows
        rw [hs, h.srows]
    · cases e
  | empty => cases e
  | hier br bc blk =>
    simp only [splitOmm, splitHier] at e
    split at e
    · cases e
    · simp only [except_bind_eq_ok] at e
      obtain ⟨g, hg, e⟩ := e
      cases e
      have key : ∀ i < br, ∀ j < bc, g i j = blk i j := by
        intro i hi j hj
        have := collect2_ok hg i hi j hj
        split at this
        · cases this
        · split at this
          · cases this
          · exact (Except.ok.inj this).symm
      have S : (Mat.hier br bc blk).SameShape (.hier br bc g) :=
        ⟨rfl, rfl, fun i hi j hj => by rw [key i hi j hj]; exact SameShape.refl _⟩
      refine Fit.wf h S (fun i hi j hj => ?_)
      rw [key i hi j hj]
      exact Fit.of h hs i hi j hj

end Mat
end Verif
