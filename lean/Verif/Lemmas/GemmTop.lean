import Verif.Lemmas.GemmRec

set_option linter.unusedSectionVars false
set_option linter.unusedVariables false

namespace Verif
open Finset

variable {R : Type} [CommRing R]

namespace Mat

/-! ### low-rank targets -/

theorem scaleS_wf {c : LowRank R} (h : c.WF) (β : R) :
    ({ c with S := c.S.scale β } : LowRank R).WF := ⟨h.1, h.2, h.3, h.4, h.5⟩

theorem scaleS_entry {c : LowRank R} (β : R) (i j : Nat) :
    ({ c with S := c.S.scale β } : LowRank R).entry i j = β * c.entry i j :=
  (LowRank_scale_entry c β i j).trans (mul_comm _ _)

/-- Adding a compressed product to `beta * C`. -/
theorem lrAdd_ok {o : LrOps R} {sq : Prop} (hf : o.Fits sq) {A B : Mat R} {c x d : LowRank R} {α β : R}
    {ta tb : Bool} (hc : c.WF) (hcs : c.Square) (hx : x.WF) (hxs : x.Square)
    (hE : o.Exact sq → x.dim0 = c.dim0 → x.dim1 = c.dim1 → ∀ i < c.dim0, ∀ j < c.dim1,
      x.entry i j = α * prodEntry ta tb A B i j)
    (h : o.addAssign { c with S := c.S.scale β } x = .ok d) :
    GemmPost (o.Exact sq) A B (.lowRank c) (.lowRank d) α β ta tb := by
  simp only [LrOps.addAssign, except_bind_eq_ok, assertM_eq_ok, decide_eq_true_eq] at h
  obtain ⟨-, e1, -, e2, h⟩ := h
  obtain ⟨w, s, d0, d1⟩ := hf.add _ _ _ (scaleS_wf hc β) hcs hx (fun _ => hxs) e1 e2 h
  refine ⟨w, s, ⟨d0.symm, d1.symm⟩, fun i hi j hj hP => ?_⟩
  rcases hP with hP | hP
  · exact hP.elim
  have := hP.add _ _ _ (scaleS_wf hc β) hcs hx (fun _ => hxs) e1 e2 h i hi j hj
  show d.entry i j = _
  rw [this, hE hP e1.symm e2.symm i hi j hj, scaleS_entry]
  show _ = α * prodEntry ta tb A B i j + β * c.entry i j
  ring

theorem gemmDDLr_ok [DecidableEq R] {o : LrOps R} {sq : Prop} (hf : o.Fits sq) {a b : Dense R}
    {c : LowRank R} {C' : Mat R} {α β : R} {ta tb : Bool} (hc : c.WF) (hcs : c.Square)
    (h : gemmDDLr o a b c α β ta tb = .ok C') :
    GemmPost (o.Exact sq) (.dense a) (.dense b) (.lowRank c) C' α β ta tb := by
  simp only [gemmDDLr, except_bind_eq_ok] at h
  obtain ⟨ab, hab, x, hx, d, hd, h⟩ := h
  cases h
  obtain ⟨e0, e1, e2, e3⟩ := Dense_gemmNew_spec hab
  have key : x.WF ∧ x.Square ∧ x.dim0 = ab.rows ∧ x.dim1 = ab.cols ∧
      (o.Exact sq → ∀ i < ab.rows, ∀ j < ab.cols, x.entry i j = ab.val i j) := by
    split at hx
    · obtain ⟨f1, f2, f3, f4⟩ := hf.ofEps _ _ _ hx
      exact ⟨f1, f2, f3, f4, fun he => he.ofEps _ _ _ hx⟩
    · obtain ⟨f1, f2, f3, f4⟩ := hf.ofRank _ _ _ hx
      exact ⟨f1, f2, f3, f4, fun he => he.ofRank _ _ _ hx⟩
  obtain ⟨f1, f2, f3, f4, f5⟩ := key
  refine lrAdd_ok hf hc hcs f1 f2 ?_ hd
  intro he g1 g2 i hi j hj
  rw [f5 he i (by rw [← f3, g1]; exact hi) j (by rw [← f4, g2]; exact hj), e3, prodEntry_dd]
  rfl

theorem gemmHHLr_ok [DecidableEq R] {o : LrOps R} {sq : Prop} (hf : o.Fits sq) {g : GemmT R}
    {gn : GemmNewT R} (hg : GemmOk (o.Exact sq) sq g) (hgn : GemmNewOk sq gn) {A B : Mat R}
    {c : LowRank R} {C' : Mat R} {α β : R} {ta tb : Bool} (hA : A.WF) (hB : B.WF) (hc : c.WF)
    (hcs : c.Square) (ht : TransSafe ta tb A B) (hr : RankSafe sq A B)
    (hd0 : GemmDims ta tb A B (.lowRank c))
    (h : gemmHHLr o g gn A B c α β ta tb = .ok C') :
    GemmPost (o.Exact sq) A B (.lowRank c) C' α β ta tb := by
  simp only [gemmHHLr] at h
  split at h
  · simp only [except_bind_eq_ok] at h
    obtain ⟨cd, hcd, cd', hcd', d, hd, l, hl, h⟩ := h
    cases h
    obtain ⟨D0, hD0, k1, k2, k3⟩ := LowRank_toDense_ok c hc
    rw [hcd] at hD0
    cases hD0
    obtain ⟨-, P⟩ := hg _ _ (.dense cd) _ _ _ _ _ hA hB trivial trivial ht hr hcd'
    rw [asDense_ok hd] at P
    obtain ⟨f1, f2, f3, f4⟩ := hf.ofEps _ _ _ hl
    have s1 : cd.rows = d.rows := P.shape.1
    have s2 : cd.cols = d.cols := P.shape.2
    refine ⟨f1, f2, ⟨by rw [f3, ← s1, k1], by rw [f4, ← s2, k2]⟩, fun i hi j hj hP => ?_⟩
    rcases hP with hP | hP
    · exact hP.elim
    have hi' : i < cd.rows := by rw [k1]; exact hi
    have hj' : j < cd.cols := by rw [k2]; exact hj
    have e1 := P.ent i hi' j hj' (Or.inl trivial)
    have e2 := hP.ofEps _ _ _ hl i (by rw [← s1]; exact hi') j (by rw [← s2]; exact hj')
    show l.entry i j = α * prodEntry ta tb A B i j + β * c.entry i j
    rw [e2, ← k3 i j]
    exact e1
  · simp only [except_bind_eq_ok] at h
    obtain ⟨ab, hab, h⟩ := h
    have N := hgn _ _ _ _ _ _ hA hB ht hr hab
    cases ab <;> try (cases h)
    rename_i m n blk
    simp only [except_bind_eq_ok] at h
    obtain ⟨x, hx, d, hd, h⟩ := h
    cases h
    obtain ⟨f1, f2⟩ := hf.ofHier _ _ _ N.wf hx
    refine lrAdd_ok hf hc hcs f1 f2 ?_ hd
    intro he g1 g2 i hi j hj
    have r0 : (Mat.hier m n blk).nRows = c.dim0 := N.rows.trans hd0.rows
    have c0 : (Mat.hier m n blk).nCols = c.dim1 := N.cols.trans hd0.cols
    rw [he.ofHier _ _ _ N.wf hx (by rw [g1, r0]) (by rw [g2, c0]) i (by rw [r0]; exact hi) j
      (by rw [c0]; exact hj)]
    exact N.ent i (by rw [r0]; exact hi) j (by rw [c0]; exact hj)

/-- `V` computed by a product with a general right factor. -/
theorem newV_ok {sq : Prop} {gn : GemmNewT R} (hgn : GemmNewOk sq gn) {a : LowRank R} (ha : a.WF)
    {B : Mat R} (hB : B.WF) {α : R} {ta tb : Bool} (hr : RankSafe sq (.lowRank a) B)
    {M : Mat R} (hM : gn (.dense (if ta then a.U else a.V)) B α ta tb = .ok M) {V : Dense R}
    (hV : M.asDense = .ok V) : V.rows = (lop ta a).S.cols ∧
    ∀ i < (lop ta a).S.cols, ∀ j < V.cols, V.val i j = α * mm (lop ta a).dim1 (lop ta a).V.val
      (B.opEntry tb) i j := by
  have w := lop_wf (t := ta) ha
  have N := hgn (.dense (if ta then a.U else a.V)) B _ _ _ _ trivial hB (TransSafe_dense_left _ _)
    (fun hs => by
      obtain ⟨k, -, h2⟩ := hr hs
      exact ⟨k, trivial, h2⟩) hM
  rw [asDense_ok hV] at N
  have h0 : V.rows = (lop ta a).S.cols := by
    have := N.rows
    rw [← dop_rows, dop_V, w.vrows] at this
    exact this
  refine ⟨h0, fun i hi j hj => ?_⟩
  have := N.ent i (by rw [← h0] at hi; exact hi) j hj
  refine this.trans ?_
  congr 1
  unfold prodEntry mm
  rw [← dop_cols, dop_V, w.vcols]
  exact Finset.sum_congr rfl (fun l _ => by rw [← dop_val, dop_V])

theorem newU_ok {sq : Prop} {gn : GemmNewT R} (hgn : GemmNewOk sq gn) {b : LowRank R} (hb : b.WF)
    {A : Mat R} (hA : A.WF) {α : R} {ta tb : Bool} (hr : RankSafe sq A (.lowRank b))
    {M : Mat R} (hM : gn A (.dense (if tb then b.V else b.U)) α ta tb = .ok M) {U : Dense R}
    (hU : M.asDense = .ok U) : U.cols = (lop tb b).S.rows ∧
    ∀ i < U.rows, ∀ j < (lop tb b).S.rows, U.val i j = α * mm (A.opCols ta) (A.opEntry ta)
      (lop tb b).U.val i j := by
  have w := lop_wf (t := tb) hb
  have N := hgn A (.dense (if tb then b.V else b.U)) _ _ _ _ hA trivial (TransSafe_dense_right _ _)
    (fun hs => by
      obtain ⟨k, h2, -⟩ := hr hs
      exact ⟨k, h2, trivial⟩) hM
  rw [asDense_ok hU] at N
  have h0 : U.cols = (lop tb b).S.rows := by
    have := N.cols
    rw [← dop_cols, dop_U, w.ucols, ← w.srows] at this
    exact this
  refine ⟨h0, fun i hi j hj => ?_⟩
  have := N.ent i hi j (by rw [← h0] at hj; exact hj)
  refine this.trans ?_
  congr 1
  unfold prodEntry mm
  exact Finset.sum_congr rfl (fun l _ => by rw [← dop_val, dop_U])

theorem split_left_ok {ex sq : Prop} {g : GemmT R} (hg : GemmOk ex sq g) {a : Dense R} {nr nc r s : Nat}
    {B : Nat → Nat → Mat R} {HA C C' : Mat R} {α β : R} {ta tb : Bool} (h1 : 1 ≤ nr) (h2 : 1 ≤ nc)
    (hB : (Mat.hier r s B).WF) (hC : C.WF) (hCs : C.Square) (hr : RankSafe sq (.dense a) (.hier r s B))
    (hd : GemmDims ta tb (.dense a) (.hier r s B) C) (hs : (Mat.dense a).split nr nc = .ok HA)
    (h : g HA (.hier r s B) C α β ta tb = .ok C') :
    GemmPost ex (.dense a) (.hier r s B) C C' α β ta tb := by
  obtain ⟨b, rfl, w, same, hb⟩ := split_dense_leaves h1 h2 hs
  exact hg.congr same (SameEntries.refl' _) hd w hB hC hCs (TransSafe_split_left hb)
    (hr.left (fun k _ => dense_uniform hb k)) h

theorem split_right_ok {ex sq : Prop} {g : GemmT R} (hg : GemmOk ex sq g) {b : Dense R} {nr nc r s : Nat}
    {A : Nat → Nat → Mat R} {HB C C' : Mat R} {α β : R} {ta tb : Bool} (h1 : 1 ≤ nr) (h2 : 1 ≤ nc)
    (hA : (Mat.hier r s A).WF) (hC : C.WF) (hCs : C.Square) (hr : RankSafe sq (.hier r s A) (.dense b))
    (hd : GemmDims ta tb (.hier r s A) (.dense b) C) (hs : (Mat.dense b).split nr nc = .ok HB)
    (h : g (.hier r s A) HB C α β ta tb = .ok C') :
    GemmPost ex (.hier r s A) (.dense b) C C' α β ta tb := by
  obtain ⟨b', rfl, w, same, hb⟩ := split_dense_leaves h1 h2 hs
  exact hg.congr (SameEntries.refl' _) same hd hA w hC hCs (TransSafe_split_right hb)
    (hr.right (fun k _ => dense_uniform hb k)) h

theorem gemmToLowRank_ok [DecidableEq R] {o : LrOps R} {sq : Prop} (hf : o.Fits sq) {g : GemmT R}
    {gn : GemmNewT R} (hg : GemmOk (o.Exact sq) sq g) (hgn : GemmNewOk sq gn) {A B : Mat R}
    {c : LowRank R} {C' : Mat R} {α β : R} {ta tb : Bool} (hA : A.WF) (hB : B.WF) (hc : c.WF)
    (hcs : c.Square) (ht : TransSafe ta tb A B) (hr : RankSafe sq A B)
    (hd : GemmDims ta tb A B (.lowRank c))
    (h : gemmToLowRank o g gn A B c α β ta tb = .ok C') :
    GemmPost (o.Exact sq) A B (.lowRank c) C' α β ta tb := by
  cases A with
  | dense a =>
    cases B with
    | dense b => exact gemmDDLr_ok hf hc hcs h
    | lowRank b => exact gemmDLr_ok hf hB hc hcs hr h
    | hier r s BB =>
      simp only [gemmToLowRank, except_bind_eq_ok] at h
      obtain ⟨HA, hs, h⟩ := h
      have := opDim0_pos (t := tb) hB
      exact split_left_ok hg (by split <;> omega) (by split <;> omega) hB hc hcs hr hd hs h
    | empty => cases h
  | lowRank a =>
    cases B with
    | dense b => exact gemmLrD_ok hf hA hc hcs hr h
    | lowRank b => exact gemmLrLr_ok hf hA hB hc hcs hr h
    | hier r s BB =>
      simp only [gemmToLowRank, except_bind_eq_ok] at h
      obtain ⟨M, hM, V, hV, h⟩ := h
      obtain ⟨v0, v1⟩ := newV_ok hgn hA hB hr hM hV
      rw [← lop_U, ← lop_S] at h
      obtain ⟨wx, sx, hx⟩ := lr_left (ta := ta) hA hr v1 v0
      exact scaleAdd_ok hf hc hcs wx sx hx h
    | empty => cases h
  | empty => cases B <;> cases h
  | hier p q AA =>
    cases B with
    | dense b =>
      simp only [gemmToLowRank, except_bind_eq_ok] at h
      obtain ⟨HB, hs, h⟩ := h
      have := opDim1_pos (t := ta) hA
      exact split_right_ok hg (by split <;> omega) (by split <;> omega) hA hc hcs hr hd hs h
    | lowRank b =>
      simp only [gemmToLowRank, except_bind_eq_ok] at h
      obtain ⟨M, hM, U, hU, h⟩ := h
      obtain ⟨v0, v1⟩ := newU_ok hgn hB hA hr hM hU
      rw [← lop_V, ← lop_S] at h
      obtain ⟨wx, sx, hx⟩ := lr_right (tb := tb) hB hr v1 v0
      exact scaleAdd_ok hf hc hcs wx sx hx h
    | hier r s BB => exact gemmHHLr_ok hf hg hgn hA hB hc hcs ht hr hd h
    | empty => cases h

/-! ### hierarchical targets -/

theorem gemmToHier_ok {o : LrOps R} {sq : Prop} (hf : o.Fits sq) {g : GemmT R}
    {gn : GemmNewT R} (hg : GemmOk (o.Exact sq) sq g) (hgn : GemmNewOk sq gn) {A B : Mat R}
    {m n : Nat} {C : Nat → Nat → Mat R} {C' : Mat R} {α β : R} {ta tb : Bool} (hA : A.WF) (hB : B.WF)
    (hc : (Mat.hier m n C).WF) (hcs : (Mat.hier m n C).Square) (ht : TransSafe ta tb A B)
    (hr : RankSafe sq A B) (hd : GemmDims ta tb A B (.hier m n C))
    (h : gemmToHier o g gn A B m n C α β ta tb = .ok C') :
    GemmPost (o.Exact sq) A B (.hier m n C) C' α β ta tb := by
  have hmn := hc
  simp only [WF] at hmn
  cases A with
  | dense a =>
    cases B with
    | dense b =>
      simp only [gemmToHier, gemmDDH] at h
      split at h
      · cases h
      split at h
      · simp only [except_bind_eq_ok] at h
        obtain ⟨AH, hs, h⟩ := h
        obtain ⟨b', rfl, w, same, hb⟩ := split_dense_leaves (by split <;> omega) (by split <;> omega) hs
        exact hg.congr same (SameEntries.refl' _) hd w hB hc hcs (TransSafe_dense_right _ _)
          (hr.left (fun k _ => dense_uniform hb k)) h
      split at h
      · simp only [except_bind_eq_ok] at h
        obtain ⟨AH, hs, h⟩ := h
        obtain ⟨b', rfl, w, same, hb⟩ := split_dense_leaves (by split <;> omega) (by split <;> omega) hs
        exact hg.congr (SameEntries.refl' _) same hd hA w hc hcs (TransSafe_dense_left _ _)
          (hr.right (fun k _ => dense_uniform hb k)) h
      · simp only [except_bind_eq_ok] at h
        obtain ⟨AH, hs, BH, hs', h⟩ := h
        obtain ⟨b1, rfl, w1, same1, hb1⟩ := split_dense_leaves (by split <;> omega) (by split <;> omega) hs
        obtain ⟨b2, rfl, w2, same2, hb2⟩ := split_dense_leaves (by split <;> omega) (by split <;> omega) hs'
        exact hg.congr same1 same2 hd w1 w2 hc hcs (TransSafe_split_left hb1)
          ((hr.right (fun k _ => dense_uniform hb2 k)).left (fun k _ => dense_uniform hb1 k)) h
    | lowRank b => exact gemmDLr_ok hf hB hc hcs hr h
    | hier r s BB =>
      simp only [gemmToHier, gemmDHH, except_bind_eq_ok, assertM_eq_ok, decide_eq_true_eq] at h
      obtain ⟨-, hn, h⟩ := h
      have := opDim0_pos (t := tb) hB
      split at h
      · rename_i hone
        exact hg.congr (SameEntries.refl' _) (one_block hB hone).2 hd hA (one_block hB hone).1 hc
          hcs (TransSafe_dense_left _ _) (hr.right (fun k => UniformRank_one hone)) h
      split at h
      · rename_i h1
        exact gemmRowLoop_ok hg hA hB hc hcs (fun j _ => TransSafe_dense_left _ _) hr hd hn h1.1 h1.2 h
      · simp only [except_bind_eq_ok] at h
        obtain ⟨AH, hs, h⟩ := h
        exact split_left_ok hg (by split <;> omega) (by split <;> omega) hB hc hcs hr hd hs h
    | empty => cases h
  | lowRank a =>
    cases B with
    | dense b => exact gemmLrD_ok hf hA hc hcs hr h
    | lowRank b => exact gemmLrLr_ok hf hA hB hc hcs hr h
    | hier r s BB =>
      simp only [gemmToHier, gemmLrHH, except_bind_eq_ok, assertM_eq_ok, decide_eq_true_eq] at h
      obtain ⟨-, hn, h⟩ := h
      have hta : ta = false := ht
      split at h
      · rename_i hone
        exact hg.congr (SameEntries.refl' _) (one_block hB hone).2 hd hA (one_block hB hone).1 hc
          hcs (TransSafe_leaf_hier (A := .lowRank a) trivial ht _)
          (hr.right (fun k => UniformRank_one hone)) h
      split at h
      · rename_i h1
        exact gemmRowLoop_ok hg hA hB hc hcs
          (fun j _ => TransSafe_leaf_hier (A := .lowRank a) trivial ht _) hr hd hn h1.1 h1.2 h
      · subst hta
        simp only [except_bind_eq_ok] at h
        obtain ⟨M, hM, V, hV, h⟩ := h
        obtain ⟨v0, v1⟩ := newV_ok (ta := false) hgn hA hB hr hM hV
        obtain ⟨wx, sx, hx⟩ := lr_left (ta := false) hA hr v1 v0
        exact scaleAdd_ok hf hc hcs wx sx hx h
    | empty => cases h
  | empty => cases B <;> cases h
  | hier p q AA =>
    cases B with
    | dense b =>
      simp only [gemmToHier, gemmHDH] at h
      have := opDim1_pos (t := ta) hA
      split at h
      · rename_i hone
        exact hg.congr (one_block hA hone).2 (SameEntries.refl' _) hd (one_block hA hone).1 hB hc
          hcs (TransSafe_dense_right _ _) (hr.left (fun k => UniformRank_one hone)) h
      split at h
      · rename_i h1
        exact gemmColLoop_ok hg hA hB hc hcs (fun j _ => TransSafe_dense_right _ _) hr hd h1.1 h1.2 h
      · simp only [except_bind_eq_ok] at h
        obtain ⟨BH, hs, h⟩ := h
        exact split_right_ok hg (by split <;> omega) (by split <;> omega) hA hc hcs hr hd hs h
    | lowRank b =>
      simp only [gemmToHier, gemmHLrH] at h
      have htt : ta = false ∧ tb = false := ht
      split at h
      · rename_i hone
        exact hg.congr (one_block hA hone).2 (SameEntries.refl' _) hd (one_block hA hone).1 hB hc
          hcs (TransSafe_hier_leaf (B := .lowRank b) trivial ht _)
          (hr.left (fun k => UniformRank_one hone)) h
      split at h
      · rename_i h1
        exact gemmColLoop_ok hg hA hB hc hcs
          (fun j _ => TransSafe_hier_leaf (B := .lowRank b) trivial ht _) hr hd h1.1 h1.2 h
      · obtain ⟨rfl, rfl⟩ := htt
        simp only [except_bind_eq_ok] at h
        obtain ⟨M, hM, U, hU, h⟩ := h
        obtain ⟨v0, v1⟩ := newU_ok (tb := false) hgn hB hA hr hM hU
        obtain ⟨wx, sx, hx⟩ := lr_right (tb := false) hB hr v1 v0
        exact scaleAdd_ok hf hc hcs wx sx hx h
    | hier r s BB => exact gemmHHH_ok hg hA hB hc hcs ht hr hd h
    | empty => cases h

/-! ### new matrices -/

theorem gemmNew_of {ex sq : Prop} {g : GemmT R} (hg : GemmOk ex sq g) {A B D : Mat R} {α : R}
    {ta tb : Bool} (hA : A.WF) (hB : B.WF) (ht : TransSafe ta tb A B) (hr : RankSafe sq A B)
    (h : g A B (.dense (Dense.zero (A.opRows ta) (B.opCols tb))) α 0 ta tb = .ok D) :
    GemmNewPost A B D α ta tb := by
  obtain ⟨d, P⟩ := hg _ _ (.dense (Dense.zero (A.opRows ta) (B.opCols tb))) _ _ _ _ _ hA hB trivial
    trivial ht hr h
  have dl : (Mat.dense (Dense.zero (A.opRows ta) (B.opCols tb)) : Mat R).DenseLeaves := trivial
  have dd := P.shape.dims trivial
  refine ⟨d.inner, P.wf, dl.shape P.shape, dd.1, dd.2, fun i hi j hj => ?_⟩
  rw [P.ent i (by rw [← dd.1]; exact hi) j (by rw [← dd.2]; exact hj) (Or.inl trivial)]
  simp

theorem opAt_ok {t : Bool} {p q : Nat} {A : Nat → Nat → Mat R} {i k : Nat} {x : Mat R}
    (h : opAt t p q A i k = .ok x) : i < opDim0 t p q ∧ k < opDim1 t p q ∧ x = opBlk t A i k := by
  simp only [opAt, except_bind_eq_ok, assertM_eq_ok, decide_eq_true_eq] at h
  obtain ⟨-, h1, -, h2, h⟩ := h
  exact ⟨h1, h2, (Except.ok.inj h).symm⟩

theorem gemmNewHH_ok {ex sq : Prop} {g : GemmT R} (hg : GemmOk ex sq g) {gn : GemmNewT R}
    (hgn : GemmNewOk sq gn) {p q r s : Nat} {A B : Nat → Nat → Mat R} {D : Mat R} {α : R}
    {ta tb : Bool} (hA : (Mat.hier p q A).WF) (hB : (Mat.hier r s B).WF)
    (ht : TransSafe ta tb (.hier p q A) (.hier r s B))
    (hr : RankSafe sq (.hier p q A) (.hier r s B))
    (hin : (Mat.hier p q A).opCols ta = (Mat.hier r s B).opRows tb)
    (h : gemmNewHH g gn p q A r s B α ta tb = .ok D) :
    GemmNewPost (.hier p q A) (.hier r s B) D α ta tb := by
  simp only [gemmNewHH] at h
  split at h
  · exact gemmNew_of hg hA hB ht hr h
  simp only [except_bind_eq_ok] at h
  obtain ⟨out, hout, h⟩ := h
  cases h
  have GA := grid_hier (t := ta) hA
  have GB := grid_hier (t := tb) hB
  have K0 := GA.n0
  have key : ∀ i < opDim0 ta p q, ∀ j < opDim1 tb r s, opDim1 ta p q ≤ opDim0 tb r s ∧
      (out i j).WF ∧ (out i j).DenseLeaves ∧ (out i j).nRows = (opBlk ta A i 0).opRows ta ∧
      (out i j).nCols = (opBlk tb B 0 j).opCols tb ∧
      (∀ k < opDim1 ta p q, (opBlk ta A i k).opCols ta = (opBlk tb B k j).opRows tb) ∧
      ∀ x < (out i j).nRows, ∀ y < (out i j).nCols, (out i j).entry x y =
        α * ∑ k ∈ range (opDim1 ta p q), prodEntry ta tb (opBlk ta A i k) (opBlk tb B k j) x y := by
    intro i hi j hj
    have := collect2_ok hout i hi j hj
    simp only [except_bind_eq_ok] at this
    obtain ⟨a, ha, b, hb, c, hc, hl⟩ := this
    obtain ⟨-, -, rfl⟩ := opAt_ok ha
    obtain ⟨k0, -, rfl⟩ := opAt_ok hb
    -- all block rows of `op(B)` used exist
    have hKK : opDim1 ta p q ≤ opDim0 tb r s := by
      have := loop_inv (fun k _ => k + 1 ≤ opDim0 tb r s) (by omega) (by
        intro k hk x y _ hxy
        simp only [except_bind_eq_ok] at hxy
        obtain ⟨a', _, b', hb', _⟩ := hxy
        have := (opAt_ok hb').1
        omega) hl
      omega
    have N := hgn _ _ _ _ _ _ (GA.wf i hi 0 GA.n0) (GB.wf 0 k0 j hj)
      (TransSafe_blocks ht hi GA.n0 k0 hj) (RankSafe_blocks hr hi GA.n0 k0 hj) hc
    obtain ⟨l1, l2, l3, l4, l5⟩ := loop_post hg N.wf N.leaves.square
      (a := fun k => opBlk ta A i (k + 1)) (b := fun k => opBlk tb B (k + 1) j)
      (β := fun k => 1) (α := α) (ta := ta) (tb := tb)
      (fun k hk => GA.wf i hi (k+1) (by omega)) (fun k hk => GB.wf (k+1) (by omega) j hj)
      (fun k hk => TransSafe_blocks ht hi (by omega) (by omega) hj)
      (fun k hk => RankSafe_blocks hr hi (by omega) (by omega) hj)
      (fun k hk c c' hc => by
        simp only [except_bind_eq_ok] at hc
        obtain ⟨x, hx, y, hy, hc⟩ := hc
        obtain ⟨-, -, rfl⟩ := opAt_ok hx
        obtain ⟨-, -, rfl⟩ := opAt_ok hy
        exact hc) (fun k hk => rfl) hl
    have dd := l4.dims N.wf
    refine ⟨hKK, l2, N.leaves.shape l4, by rw [dd.1, N.rows], by rw [dd.2, N.cols], ?_, ?_⟩
    · intro k hk
      cases k with
      | zero => exact N.inner
      | succ k => exact (l1 k (by omega)).inner
    · intro x hx y hy
      rw [dd.1] at hx
      rw [dd.2] at hy
      rw [l5 x hx y hy (Or.inl (N.leaves.denseAt hx hy N.wf)), N.ent x hx y hy]
      obtain ⟨K, hK⟩ : ∃ K, opDim1 ta p q = K + 1 := ⟨opDim1 ta p q - 1, by omega⟩
      rw [hK, Finset.sum_range_succ']
      simp
      ring
  have G := hier_grid (blk := out) (h := fun i => (opBlk ta A i 0).opRows ta)
    (w := fun j => (opBlk tb B 0 j).opCols tb) GA.m0 GB.n0
    (fun i hi j hj => ⟨(key i hi j hj).2.1, (key i hi j hj).2.2.2.1, (key i hi j hj).2.2.2.2.1⟩)
  refine ⟨hin, G.1, fun i hi j hj => (key i hi j hj).2.2.1, by rw [G.2.1, GA.opRows],
    by rw [G.2.2.1, GB.opCols], ?_⟩
  intro x hx y hy
  rw [G.2.1] at hx
  rw [G.2.2.1] at hy
  obtain ⟨i, hi, r', hr', rfl⟩ := exists_block _ _ _ hx
  obtain ⟨j, hj, s', hs', rfl⟩ := exists_block _ _ _ hy
  have k := key i hi j hj
  rw [(G.2.2.2 i hi j hj r' hr' s' hs').1, k.2.2.2.2.2.2 r' (by rw [k.2.2.2.1]; exact hr') s'
    (by rw [k.2.2.2.2.1]; exact hs')]
  congr 1
  symm
  refine prodEntry_grid GA GB k.1 (fun c hc => ?_) hi hj hr' hs'
  show (opBlk ta A 0 c).opCols ta = (opBlk tb B c 0).opRows tb
  rw [GA.cols 0 GA.m0 c hc, ← GA.cols i hi c hc, k.2.2.2.2.2.1 c hc,
    GB.rows c (by omega) j hj]

theorem gemmNewOmm_ok {ex sq : Prop} {g : GemmT R} (hg : GemmOk ex sq g) {gn : GemmNewT R}
    (hgn : GemmNewOk sq gn) {A B : Mat R} {D : Mat R} {α : R}
    {ta tb : Bool} (hA : A.WF) (hB : B.WF)
    (ht : TransSafe ta tb A B) (hr : RankSafe sq A B) (hin : A.opCols ta = B.opRows tb)
    (h : gemmNewOmm g gn A B α ta tb = .ok D) : GemmNewPost A B D α ta tb := by
  cases A with
  | hier p q AA =>
    cases B with
    | hier r s BB => exact gemmNewHH_ok hg hgn hA hB ht hr hin h
    | _ => exact gemmNew_of hg hA hB ht hr h
  | _ => exact gemmNew_of hg hA hB ht hr h

/-! ### everything together -/

theorem gemmBoth_ok [DecidableEq R] {o : LrOps R} {sq : Prop} (hf : o.Fits sq) (fuel : Nat) :
    GemmOk (o.Exact sq) sq (gemmBoth o fuel).1 ∧ GemmNewOk sq (gemmBoth o fuel).2 := by
  induction fuel with
  | zero =>
    refine ⟨?_, ?_⟩
    · intro A B C α β ta tb C' _ _ _ _ _ _ h
      cases h
    · intro A B α ta tb D _ _ _ _ h
      cases h
  | succ n ih =>
    obtain ⟨hg, hgn⟩ := ih
    refine ⟨?_, ?_⟩
    · intro A B C α β ta tb C' hA hB hC hCs ht hr h
      simp only [gemmBoth, except_bind_eq_ok, assertM_eq_ok, decide_eq_true_eq] at h
      obtain ⟨-, e1, -, e2, -, e3, h⟩ := h
      have hd : GemmDims ta tb A B C := ⟨e1, e2, e3⟩
      refine ⟨hd, ?_⟩
      cases C with
      | dense c => exact gemmToDense_ok hg hA hB ht hr hd h
      | lowRank c => exact gemmToLowRank_ok hf hg hgn hA hB hC hCs ht hr hd h
      | hier m n C => exact gemmToHier_ok hf hg hgn hA hB hC hCs ht hr hd h
      | empty => cases h
    · intro A B α ta tb D hA hB ht hr h
      simp only [gemmBoth, except_bind_eq_ok, assertM_eq_ok, decide_eq_true_eq] at h
      obtain ⟨-, e, h⟩ := h
      exact gemmNewOmm_ok hg hgn hA hB ht hr e h

end Mat
end Verif
