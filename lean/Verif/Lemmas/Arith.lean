import Verif.Spec.Gemm
import Verif.Lemmas.DiffNorm
import Verif.Lemmas.Construct

namespace Verif
open Finset

variable {R : Type}

namespace Mat

/-! ### block structure -/

theorem SameShape.refl (A : Mat R) : A.SameShape A := by
  induction A with
  | dense d => exact ⟨rfl, rfl⟩
  | lowRank l => exact ⟨rfl, rfl⟩
  | empty => exact ⟨rfl, rfl⟩
  | hier br bc blk ih => exact ⟨rfl, rfl, fun i _ j _ => ih i j⟩

theorem SameShape.trans {A B C : Mat R} (h1 : A.SameShape B) (h2 : B.SameShape C) :
    A.SameShape C := by
  induction A generalizing B C with
  | dense d =>
    cases B <;> try exact h1.elim
    cases C <;> try exact h2.elim
    exact ⟨h1.1.trans h2.1, h1.2.trans h2.2⟩
  | lowRank l =>
    cases B <;> try exact h1.elim
    cases C <;> try exact h2.elim
    exact ⟨h1.1.trans h2.1, h1.2.trans h2.2⟩
  | empty =>
    cases B <;> try exact h1.elim
    cases C <;> try exact h2.elim
    exact ⟨h1.1.trans h2.1, h1.2.trans h2.2⟩
  | hier br bc blk ih =>
    cases B <;> try exact h1.elim
    cases C <;> try exact h2.elim
    obtain ⟨rfl, rfl, h1⟩ := h1
    obtain ⟨rfl, rfl, h2⟩ := h2
    exact ⟨rfl, rfl, fun i hi j hj => ih i j (h1 i hi j hj) (h2 i hi j hj)⟩

theorem SameShape.symm {A B : Mat R} (h1 : A.SameShape B) : B.SameShape A := by
  induction A generalizing B with
  | dense d =>
    cases B <;> try exact h1.elim
    exact ⟨h1.1.symm, h1.2.symm⟩
  | lowRank l =>
    cases B <;> try exact h1.elim
    exact ⟨h1.1.symm, h1.2.symm⟩
  | empty =>
    cases B <;> try exact h1.elim
    exact ⟨h1.1.symm, h1.2.symm⟩
  | hier br bc blk ih =>
    cases B <;> try exact h1.elim
    obtain ⟨rfl, rfl, h1⟩ := h1
    exact ⟨rfl, rfl, fun i hi j hj => ih i j (h1 i hi j hj)⟩

/-- Same structure, same dimensions (`A` well-formed: there is a first block). -/
theorem SameShape.dims {A B : Mat R} (h : A.SameShape B) (hA : A.WF) :
    B.nRows = A.nRows ∧ B.nCols = A.nCols := by
  induction A generalizing B with
  | dense d => cases B <;> try exact h.elim
               exact ⟨h.1.symm, h.2.symm⟩
  | lowRank l => cases B <;> try exact h.elim
                 exact ⟨h.1.symm, h.2.symm⟩
  | empty => cases B <;> try exact h.elim
             exact ⟨h.1.symm, h.2.symm⟩
  | hier br bc blk ih =>
    cases B <;> try exact h.elim
    obtain ⟨rfl, rfl, h⟩ := h
    simp only [WF] at hA
    obtain ⟨hbr, hbc, hA⟩ := hA
    rw [nRows_hier, nRows_hier, nCols_hier, nCols_hier]
    exact ⟨psum_congr (fun a ha => (ih a 0 (h a ha 0 hbc) (hA a ha 0 hbc).1).1),
      psum_congr (fun b hb => (ih 0 b (h 0 hbr b hb) (hA 0 hbr b hb).1).2)⟩

theorem SameShape.denseAt {A B : Mat R} (h : A.SameShape B) (hA : A.WF) {i j : Nat}
    (hi : i < A.nRows) (hj : j < A.nCols) : B.denseAt i j ↔ A.denseAt i j := by
  induction A generalizing B i j with
  | dense d => cases B <;> try exact h.elim
               exact Iff.rfl
  | lowRank l => cases B <;> try exact h.elim
                 exact Iff.rfl
  | empty => cases B <;> try exact h.elim
             exact Iff.rfl
  | hier br bc blk ih =>
    cases B <;> try exact h.elim
    obtain ⟨rfl, rfl, h⟩ := h
    have hA' := hA
    simp only [WF] at hA
    obtain ⟨hbr, hbc, hA⟩ := hA
    rename_i g
    have d1 : ∀ a < br, (fun a => (g a 0).nRows) a = (fun a => (blk a 0).nRows) a :=
      fun a ha => ((h a ha 0 hbc).dims (hA a ha 0 hbc).1).1
    have d2 : ∀ b < bc, (fun b => (g 0 b).nCols) b = (fun b => (blk 0 b).nCols) b :=
      fun b hb => ((h 0 hbr b hb).dims (hA 0 hbr b hb).1).2
    rw [nRows_hier] at hi
    rw [nCols_hier] at hj
    have l1 := locate_spec _ _ _ hi
    have l2 := locate_spec _ _ _ hj
    rw [denseAt_hier, denseAt_hier, locate_congr d1, locate_congr d2]
    apply ih _ _ (h _ l1.1 _ l2.1) (hA _ l1.1 _ l2.1).1
    · rw [(hA _ l1.1 _ l2.1).2.1]; exact l1.2.1
    · rw [(hA _ l1.1 _ l2.1).2.2]; exact l2.2.1

/-- Blocks updated one by one. -/
theorem blockwise [CommRing R] {br bc : Nat} {blk g : Nat → Nat → Mat R}
    (hA : (Mat.hier br bc blk).WF) (E : Nat → Nat → R) (P : Prop)
    (key : ∀ i < br, ∀ j < bc, (g i j).WF ∧ (blk i j).SameShape (g i j) ∧
      ∀ r < (blk i 0).nRows, ∀ s < (blk 0 j).nCols, ((blk i j).denseAt r s ∨ P) →
        (g i j).entry r s = E (psum (fun a => (blk a 0).nRows) i + r)
          (psum (fun b => (blk 0 b).nCols) j + s)) :
    (Mat.hier br bc g).WF ∧ (Mat.hier br bc blk).SameShape (.hier br bc g) ∧
    ∀ i < (Mat.hier br bc blk).nRows, ∀ j < (Mat.hier br bc blk).nCols,
      ((Mat.hier br bc blk).denseAt i j ∨ P) → (Mat.hier br bc g).entry i j = E i j := by
  have hA' := hA
  simp only [WF] at hA'
  obtain ⟨hbr, hbc, hd⟩ := hA'
  have G := hier_grid (blk := g) (h := fun a => (blk a 0).nRows) (w := fun b => (blk 0 b).nCols)
    hbr hbc (fun i hi j hj => ⟨(key i hi j hj).1, by
      rw [((key i hi j hj).2.1.dims (hd i hi j hj).1).1, (hd i hi j hj).2.1], by
      rw [((key i hi j hj).2.1.dims (hd i hi j hj).1).2, (hd i hi j hj).2.2]⟩)
  have G0 := hier_grid (blk := blk) (h := fun a => (blk a 0).nRows) (w := fun b => (blk 0 b).nCols)
    hbr hbc hd
  refine ⟨G.1, ⟨rfl, rfl, fun i hi j hj => (key i hi j hj).2.1⟩, ?_⟩
  intro i hi j hj hP
  rw [nRows_hier] at hi
  rw [nCols_hier] at hj
  obtain ⟨p, hp, r, hr, rfl⟩ := exists_block _ _ _ hi
  obtain ⟨q, hq, s, hs, rfl⟩ := exists_block _ _ _ hj
  rw [(G.2.2.2 p hp q hq r hr s hs).1]
  exact (key p hp q hq).2.2 r hr s hs (by rwa [← (G0.2.2.2 p hp q hq r hr s hs).2.1])

/-! ### scaling -/

theorem scale_square [Mul R] {A A' : Mat R} {b : R} (hA : A.Square) (h : A.scale b = .ok A') :
    A'.Square := by
  induction A generalizing A' with
  | dense d => cases h; trivial
  | lowRank l => cases h; exact hA
  | empty => cases h
  | hier br bc blk ih =>
    simp only [scale, except_bind_eq_ok] at h
    obtain ⟨g, hg, h⟩ := h
    cases h
    intro i hi j hj
    exact ih i j (hA i hi j hj) (collect2_ok hg i hi j hj)

theorem scale_shape [CommRing R] {A A' : Mat R} {b : R} (hA : A.WF) (h : A.scale b = .ok A') :
    A'.WF ∧ A.SameShape A' ∧ ∀ i < A.nRows, ∀ j < A.nCols, A'.entry i j = A.entry i j * b := by
  induction A generalizing A' with
  | dense d => cases h; exact ⟨trivial, ⟨rfl, rfl⟩, fun _ _ _ _ => rfl⟩
  | lowRank l =>
    cases h
    simp only [WF] at hA
    exact ⟨⟨hA.urows, hA.ucols, hA.srows, hA.vrows, hA.vcols⟩, ⟨rfl, rfl⟩,
      fun i _ j _ => LowRank_scale_entry l b i j⟩
  | empty => cases h
  | hier br bc blk ih =>
    simp only [scale, except_bind_eq_ok] at h
    obtain ⟨g, hg, h⟩ := h
    cases h
    have hA' := hA
    simp only [WF] at hA'
    obtain ⟨hbr, hbc, hd⟩ := hA'
    have B := blockwise (g := g) hA (fun i j => (Mat.hier br bc blk).entry i j * b) True
      (fun i hi j hj => by
        have := ih i j (hd i hi j hj).1 (collect2_ok hg i hi j hj)
        refine ⟨this.1, this.2.1, fun r hr s hs _ => ?_⟩
        rw [this.2.2 r (by rw [(hd i hi j hj).2.1]; exact hr) s (by rw [(hd i hi j hj).2.2]; exact hs)]
        rw [entry_block hi hj hr hs])
    exact ⟨B.1, B.2.1, fun i hi j hj => B.2.2 i hi j hj (.inr trivial)⟩

/-! ### addition -/

theorem Dense_addLowRank_ok [CommRing R] {a d : Dense R} {b : LowRank R} (hb : b.WF)
    (h : a.addLowRank b = .ok d) :
    (a.rows = b.dim0 ∧ a.cols = b.dim1) ∧ d.rows = a.rows ∧ d.cols = a.cols ∧
      ∀ i j, d.val i j = a.val i j + b.entry i j := by
  unfold Dense.addLowRank Dense.gemmNew at h
  simp only [except_bind_eq_ok, assertM_eq_ok] at h
  obtain ⟨US, ⟨-, -, h1⟩, h2⟩ := h
  obtain ⟨-, rfl⟩ := Dense_gemm_eq_ok h1
  obtain ⟨⟨d1, d2, d3⟩, rfl⟩ := Dense_gemm_eq_ok h2
  simp [Dense.zero] at d1 d3
  refine ⟨⟨by rw [← d1, hb.urows], by rw [← d3, hb.vcols]⟩, rfl, rfl, fun i j => ?_⟩
  simp [LowRank.entry, Dense.opVal, Dense.zero, hb.ucols, hb.srows]
  ring

/-- `A += B` is entrywise; at entries stored in low-rank blocks of `A` if nothing
is lost there. -/
theorem addAssign_ok [CommRing R] {o : LrOps R} {sq : Prop} (hf : o.Fits sq) {A B A' : Mat R}
    (hA : A.WF) (hAs : A.Square) (hB : B.WF) (hBs : sq → B.Square)
    (hc : A.Conform B) (h : A.addAssign o B = .ok A') :
    (A.nRows = B.nRows ∧ A.nCols = B.nCols) ∧ A'.Square ∧ A'.WF ∧ A.SameShape A' ∧
    ∀ i < A.nRows, ∀ j < A.nCols, (A.denseAt i j ∨ o.Exact sq) →
      A'.entry i j = A.entry i j + B.entry i j := by
  -- the blockwise part, common to a hierarchical and a split low-rank right operand
  have blocks : ∀ (br bc : Nat) (blk b g : Nat → Nat → Mat R),
      (∀ i j, ∀ B A' : Mat R, (blk i j).WF → (blk i j).Square → B.WF → (sq → B.Square) →
        (blk i j).Conform B → (blk i j).addAssign o B = .ok A' →
        ((blk i j).nRows = B.nRows ∧ (blk i j).nCols = B.nCols) ∧ A'.Square ∧ A'.WF ∧
        (blk i j).SameShape A' ∧
        ∀ r < (blk i j).nRows, ∀ s < (blk i j).nCols, ((blk i j).denseAt r s ∨ o.Exact sq) →
          A'.entry r s = (blk i j).entry r s + B.entry r s) →
      (Mat.hier br bc blk).WF → (Mat.hier br bc blk).Square → (Mat.hier br bc b).WF →
      (sq → (Mat.hier br bc b).Square) →
      (∀ i < br, ∀ j < bc, (blk i j).Conform (b i j)) →
      (∀ i < br, ∀ j < bc, (blk i j).addAssign o (b i j) = .ok (g i j)) →
      ((Mat.hier br bc blk).nRows = (Mat.hier br bc b).nRows ∧
        (Mat.hier br bc blk).nCols = (Mat.hier br bc b).nCols) ∧ (Mat.hier br bc g).Square ∧
      (Mat.hier br bc g).WF ∧ (Mat.hier br bc blk).SameShape (.hier br bc g) ∧
      ∀ i < (Mat.hier br bc blk).nRows, ∀ j < (Mat.hier br bc blk).nCols,
        ((Mat.hier br bc blk).denseAt i j ∨ o.Exact sq) → (Mat.hier br bc g).entry i j =
          (Mat.hier br bc blk).entry i j + (Mat.hier br bc b).entry i j := by
    intro br bc blk b g ih hA hAs hB hBs hc hg
    have hA' := hA
    simp only [WF] at hA' hB
    simp only [Square] at hAs hBs
    obtain ⟨hbr, hbc, hd⟩ := hA'
    have key : ∀ i (hi : i < br) j (hj : j < bc), _ := fun i hi j hj =>
      ih i j (b i j) (g i j) (hd i hi j hj).1 (hAs i hi j hj) (hB.2.2 i hi j hj).1
        (fun h => hBs h i hi j hj) (hc i hi j hj) (hg i hi j hj)
    have d1 : ∀ a < br, (blk a 0).nRows = (b a 0).nRows := fun a ha => (key a ha 0 hbc).1.1
    have d2 : ∀ a < bc, (blk 0 a).nCols = (b 0 a).nCols := fun a ha => (key 0 hbr a ha).1.2
    have Bw := blockwise (g := g) hA
      (fun i j => (Mat.hier br bc blk).entry i j + (Mat.hier br bc b).entry i j) (o.Exact sq)
      (fun i hi j hj => by
        have := (key i hi j hj).2
        refine ⟨this.2.1, this.2.2.1, fun r hr s hs hP => ?_⟩
        rw [this.2.2.2 r (by rw [(hd i hi j hj).2.1]; exact hr) s
          (by rw [(hd i hi j hj).2.2]; exact hs) hP]
        rw [entry_block hi hj hr hs]
        rw [psum_congr (fun a ha => d1 a (by omega)), psum_congr (fun a ha => d2 a (by omega))]
        rw [entry_block hi hj (by rw [← d1 i hi]; exact hr) (by rw [← d2 j hj]; exact hs)])
    refine ⟨⟨?_, ?_⟩, fun i hi j hj => (key i hi j hj).2.1, Bw⟩
    · rw [nRows_hier, nRows_hier]; exact psum_congr d1
    · rw [nCols_hier, nCols_hier]; exact psum_congr d2
  induction A generalizing B A' with
  | dense a =>
    cases B with
    | dense b =>
      simp only [addAssign, Dense.addAssign, except_bind_eq_ok] at h
      obtain ⟨d, ⟨-, -, h1⟩, h⟩ := h
      cases h1; cases h
      exact ⟨hc, trivial, trivial, ⟨rfl, rfl⟩, fun i _ j _ _ => rfl⟩
    | lowRank b =>
      simp only [addAssign, except_bind_eq_ok] at h
      obtain ⟨d, h1, h⟩ := h
      cases h
      obtain ⟨e1, e2, e3, e4⟩ := Dense_addLowRank_ok hB h1
      exact ⟨e1, trivial, trivial, ⟨e2.symm, e3.symm⟩, fun i _ j _ _ => e4 i j⟩
    | hier => cases h
    | empty => cases h
  | lowRank a =>
    cases B with
    | lowRank b =>
      simp only [addAssign, LrOps.addAssign, except_bind_eq_ok, assertM_eq_ok, decide_eq_true_eq] at h
      obtain ⟨l, ⟨-, e1, -, e2, h1⟩, h⟩ := h
      cases h
      obtain ⟨w, s, d1, d2⟩ := hf.add a b l hA hAs hB hBs e1 e2 h1
      refine ⟨⟨e1, e2⟩, s, w, ⟨d1.symm, d2.symm⟩, fun i hi j hj hP => ?_⟩
      rcases hP with hP | hP
      · exact hP.elim
      · exact hP.add a b l hA hAs hB hBs e1 e2 h1 i hi j hj
    | dense => cases h
    | hier => cases h
    | empty => cases h
  | empty => cases B <;> cases h
  | hier br bc blk ih =>
    cases B with
    | dense => cases h
    | empty => cases h
    | hier br' bc' b =>
      obtain ⟨rfl, rfl, hc⟩ := hc
      simp only [addAssign, except_bind_eq_ok] at h
      obtain ⟨g, hg, h⟩ := h
      cases h
      refine blocks br bc blk b g (fun i j B A' w1 w2 w3 w4 c hh => ih i j w1 w2 w3 w4 c hh)
        hA hAs hB hBs hc ?_
      intro i hi j hj
      have := collect2_ok hg i hi j hj
      simp only [except_bind_eq_ok] at this
      obtain ⟨-, -, -, -, this⟩ := this
      exact this
    | lowRank b =>
      simp only [addAssign, except_bind_eq_ok] at h
      obtain ⟨BH, hs, h⟩ := h
      have hA' := hA
      simp only [WF] at hA'
      obtain ⟨hbr, hbc, -⟩ := hA'
      obtain ⟨b', rfl, hsp⟩ := split_isSplit hB hbr hbc hs
      simp only [except_bind_eq_ok] at h
      obtain ⟨g, hg, h⟩ := h
      cases h
      have hlr : ∀ i < br, ∀ j < bc, ∃ l, b' i j = .lowRank l ∧ (b.Square → l.Square) := by
        simp only [split, splitOmm, splitLowRank] at hs
        split at hs
        · have hs := Except.ok.inj hs
          injection hs with e1 e2 e3
          intro i _ j _
          rw [← e3]
          refine ⟨_, rfl, fun hb => ?_⟩
          simp only [LowRank.Square, LowRank.ofFactors] at hb ⊢
          rw [hb, LowRank.WF.srows hB]
        · cases hs
      have S := hsp.same hbr hbc
      have key := blocks br bc blk b' g (fun i j B A' w1 w2 w3 w4 c hh => ih i j w1 w2 w3 w4 c hh)
        hA hAs (hsp.wf hbr hbc) (by
          intro hsq i hi j hj
          obtain ⟨l, hl, hl'⟩ := hlr i hi j hj
          rw [hl]
          exact hl' (hBs hsq)) (by
          intro i hi j hj
          obtain ⟨l, hl, -⟩ := hlr i hi j hj
          rw [hl]
          cases blk i j <;> trivial) (by
          intro i hi j hj
          have := collect2_ok hg i hi j hj
          simp only [except_bind_eq_ok] at this
          obtain ⟨-, -, -, -, this⟩ := this
          exact this)
      refine ⟨⟨key.1.1.trans S.1, key.1.2.trans S.2.1⟩, key.2.1, key.2.2.1, key.2.2.2.1, ?_⟩
      intro i hi j hj hP
      rw [key.2.2.2.2 i hi j hj hP, S.2.2 i (by rw [← key.1.1]; exact hi) j (by rw [← key.1.2]; exact hj)]

end Mat
end Verif
