import Verif.Lemmas.Fit

/-
C52, continued: addition, multiplication, triangular operations, LU.
-/

namespace Verif
open Finset

variable {R : Type}

namespace Mat

section
variable [CommRing R]

/-! ### addition -/

theorem split_lowRank_blocks {X : LowRank R} {nr nc : Nat} {M : Mat R}
    (h : (Mat.lowRank X).split nr nc = .ok M) :
    ∃ b : Nat → Nat → LowRank R, M = .hier nr nc (fun i j => .lowRank (b i j)) ∧
      ∀ i j, (b i j).dim0 = (b i j).U.rows ∧ (b i j).dim1 = (b i j).V.cols ∧ (X.WF → (b i j).WF) := by
  simp only [split, splitOmm, splitLowRank] at h
  split at h
  · have h := Except.ok.inj h
    rw [IndexRange.length_split, IndexRange.length_split] at h
    refine ⟨_, h.symm, fun i j => ⟨rfl, rfl, fun hX => ⟨rfl, ?_, rfl, ?_, rfl⟩⟩⟩
    · simp only [LowRank.ofFactors]
      split <;> simp [Dense.sub, hX.ucols, hX.srows]
    · simp only [LowRank.ofFactors]
      split <;> simp [Dense.sub, hX.vrows]
  · cases h

theorem Dense_addLowRank_dims {a d : Dense R} {b : LowRank R} (h : a.addLowRank b = .ok d) :
    d.rows = a.rows ∧ d.cols = a.cols ∧ b.U.rows = a.rows ∧ b.V.cols = a.cols := by
  simp only [Dense.addLowRank, except_bind_eq_ok] at h
  obtain ⟨us, hus, h⟩ := h
  have g := Dense_gemm_spec h
  have g' := Dense_gemmNew_spec hus
  refine ⟨g.2.2.2.1, g.2.2.2.2.1, ?_, g.2.2.1⟩
  rw [← g.1]
  exact g'.2.1.symm

/-- Addition keeps the shape of the target and the fit of the factors. -/
theorem addAssign_fit {o : LrOps R} (hf : o.Fits False) {A B A' : Mat R}
    (hA : A.Fit) (hB : B.WF) (h : A.addAssign o B = .ok A') : A.SameShape A' ∧ A'.Fit := by
  induction A generalizing B A' with
  | dense a =>
    cases B with
    | dense b =>
      simp only [addAssign, Dense.addAssign, except_bind_eq_ok] at h
      obtain ⟨d, ⟨_, -, hd⟩, h⟩ := h
      cases hd; cases h
      exact ⟨⟨rfl, rfl⟩, trivial⟩
    | lowRank b =>
      simp only [addAssign, except_bind_eq_ok] at h
      obtain ⟨d, hd, h⟩ := h
      cases h
      have := Dense_addLowRank_dims hd
      exact ⟨⟨this.1.symm, this.2.1.symm⟩, trivial⟩
    | hier => cases h
    | empty => cases h
  | lowRank a =>
    cases B with
    | lowRank b =>
      simp only [addAssign, LrOps.addAssign, except_bind_eq_ok, assertM_eq_ok, decide_eq_true_eq] at h
      obtain ⟨l, ⟨-, e0, -, e1, hl⟩, h⟩ := h
      cases h
      have := hf.add a b l hA.1 hA.2 hB (fun h => h.elim) e0 e1 hl
      exact ⟨⟨this.2.2.1.symm, this.2.2.2.symm⟩, this.1, this.2.1⟩
    | dense => cases h
    | hier => cases h
    | empty => cases h
  | empty => cases B <;> cases h
  | hier br bc blk ih =>
    have blocks : ∀ (br' bc' : Nat) (blk' g : Nat → Nat → Mat R),
        (∀ i < br', ∀ j < bc', (blk' i j).WF) →
        collect2 br bc (fun i j => do
          assertM (decide (i < br'))
          assertM (decide (j < bc'))
          (blk i j).addAssign o (blk' i j)) = .ok g →
        ∀ i < br, ∀ j < bc, (blk i j).SameShape (g i j) ∧ (g i j).Fit := by
      intro br' bc' blk' g hw hg i hi j hj
      have := collect2_ok hg i hi j hj
      simp only [except_bind_eq_ok, assertM_eq_ok, decide_eq_true_eq] at this
      obtain ⟨-, h1, -, h2, this⟩ := this
      exact ih i j (hA i hi j hj) (hw i h1 j h2) this
    cases B with
    | hier br' bc' blk' =>
      simp only [addAssign, except_bind_eq_ok] at h
      obtain ⟨g, hg, h⟩ := h
      cases h
      simp only [WF] at hB
      have I := blocks br' bc' blk' g (fun i hi j hj => (hB.2.2 i hi j hj).1) hg
      exact ⟨⟨rfl, rfl, fun i hi j hj => (I i hi j hj).1⟩, fun i hi j hj => (I i hi j hj).2⟩
    | lowRank b =>
      simp only [addAssign, except_bind_eq_ok] at h
      obtain ⟨M, hM, h⟩ := h
      obtain ⟨b', rfl, hb'⟩ := split_lowRank_blocks hM
      simp only [except_bind_eq_ok] at h
      obtain ⟨g, hg, h⟩ := h
      cases h
      have I := blocks br bc (fun i j => .lowRank (b' i j)) g (fun i _ j _ => (hb' i j).2.2 hB) hg
      exact ⟨⟨rfl, rfl, fun i hi j hj => (I i hi j hj).1⟩, fun i hi j hj => (I i hi j hj).2⟩
    | dense => cases h
    | empty => cases h

/-- A low-rank matrix can only be added to a matrix of its own dimensions, even if
its factors do not fit. -/
theorem addAssign_lowRank_dims {o : LrOps R} {A A' : Mat R} {X : LowRank R} (hA : A.WF)
    (hX0 : X.dim0 = X.U.rows) (hX1 : X.dim1 = X.V.cols)
    (h : A.addAssign o (.lowRank X) = .ok A') : A.nRows = X.dim0 ∧ A.nCols = X.dim1 := by
  induction A generalizing X A' with
  | dense a =>
    simp only [addAssign, except_bind_eq_ok] at h
    obtain ⟨d, hd, -⟩ := h
    have := Dense_addLowRank_dims hd
    exact ⟨by rw [hX0]; exact this.2.2.1.symm, by rw [hX1]; exact this.2.2.2.symm⟩
  | lowRank a =>
    simp only [addAssign, LrOps.addAssign, except_bind_eq_ok, assertM_eq_ok, decide_eq_true_eq] at h
    obtain ⟨l, ⟨-, e0, -, e1, -⟩, -⟩ := h
    exact ⟨e0, e1⟩
  | empty => cases h
  | hier br bc blk ih =>
    simp only [addAssign, except_bind_eq_ok] at h
    obtain ⟨M, hM, h⟩ := h
    have hA0 := hA
    simp only [WF] at hA0
    -- a consistent low-rank matrix with the same outer dimensions is split alike
    let Y : LowRank R := LowRank.ofFactors ⟨X.U.rows, 0, fun _ _ => 0⟩ ⟨0, 0, fun _ _ => 0⟩
      ⟨0, X.V.cols, fun _ _ => 0⟩
    have hY : (Mat.lowRank Y).WF := ⟨rfl, rfl, rfl, rfl, rfl⟩
    have key : ∃ (b : Nat → Nat → LowRank R) (c : Nat → Nat → LowRank R),
        M = .hier br bc (fun i j => .lowRank (b i j)) ∧
        (Mat.lowRank Y).split br bc = .ok (.hier br bc (fun i j => .lowRank (c i j))) ∧
        ∀ i j, (b i j).dim0 = (b i j).U.rows ∧ (b i j).dim1 = (b i j).V.cols ∧
          (c i j).dim0 = (b i j).dim0 ∧ (c i j).dim1 = (b i j).dim1 := by
      simp only [split, splitOmm, splitLowRank] at hM ⊢
      split at hM
      · rename_i hin
        have hM := Except.ok.inj hM
        have e0 : (Mat.lowRank Y).nRows = (Mat.lowRank X).nRows := hX0.symm
        have e1 : (Mat.lowRank Y).nCols = (Mat.lowRank X).nCols := hX1.symm
        rw [IndexRange.length_split, IndexRange.length_split] at hM
        rw [e0, e1, if_pos (by exact hin)]
        rw [IndexRange.length_split, IndexRange.length_split]
        refine ⟨_, _, hM.symm, rfl, fun i j => ⟨rfl, rfl, ?_, ?_⟩⟩
        · simp only [LowRank.ofFactors, Y]
          split <;> rfl
        · simp only [LowRank.ofFactors, Y]
          split <;> rfl
      · cases hM
    obtain ⟨b, c, rfl, hs, hbc⟩ := key
    obtain ⟨c', e, sp⟩ := split_isSplit hY hA0.1 hA0.2.1 hs
    injection e with _ _ e
    subst e
    simp only [except_bind_eq_ok] at h
    obtain ⟨g, hg, -⟩ := h
    have I : ∀ i < br, ∀ j < bc, (blk i j).nRows = (c i j).dim0 ∧ (blk i j).nCols = (c i j).dim1 := by
      intro i hi j hj
      have := collect2_ok hg i hi j hj
      simp only [except_bind_eq_ok] at this
      obtain ⟨_, -, _, -, this⟩ := this
      have := ih i j (hA0.2.2 i hi j hj).1 (hbc i j).1 (hbc i j).2.1 this
      rw [(hbc i j).2.2.1, (hbc i j).2.2.2]
      exact this
    constructor
    · rw [hX0]
      show _ = (Mat.lowRank Y).nRows
      rw [← sp.rows, nRows_hier]
      refine psum_congr (fun i hi => ?_)
      rw [(I i hi 0 hA0.2.1).1]
      exact (sp.dims i hi 0 hA0.2.1).2.1
    · rw [hX1]
      show _ = (Mat.lowRank Y).nCols
      rw [← sp.cols, nCols_hier]
      refine psum_congr (fun j hj => ?_)
      rw [(I 0 hA0.1 j hj).2]
      exact (sp.dims 0 hA0.1 j hj).2.2

theorem scaleAdd_fit {o : LrOps R} (hf : o.Fits False) {C C' : Mat R} {β : R} {X : LowRank R}
    (hC : C.Fit) (hX : X.WF) (h : scaleAdd o C β X = .ok C') : C.SameShape C' ∧ C'.Fit := by
  simp only [scaleAdd, except_bind_eq_ok] at h
  obtain ⟨D, hD, h⟩ := h
  have s := scale_fit hC hD
  have a := addAssign_fit hf s.2 (B := .lowRank X) hX h
  exact ⟨s.1.trans a.1, a.2⟩

/-! ### multiplication -/

/-- Recursive calls keep the shape of the target and the fit of the factors. -/
def GemmFit (g : GemmT R) : Prop :=
  ∀ A B C α β ta tb C', A.WF → A.Square → B.WF → B.Square → C.WF → C.Square →
    g A B C α β ta tb = .ok C' → C.SameShape C' ∧ C'.Fit

/-- The same for products with a new result. -/
def GemmNewFit (gn : GemmNewT R) : Prop :=
  ∀ A B α ta tb D, A.WF → A.Square → B.WF → B.Square →
    gn A B α ta tb = .ok D → D.WF ∧ D.Square ∧ D.nRows = A.opRows ta ∧ D.nCols = B.opCols tb ∧
      A.opCols ta = B.opRows tb

theorem joinDense_fit {c : Dense R} {CH C' : Mat R} (h : joinDense c CH = .ok C') :
    (Mat.dense c).SameShape C' ∧ C'.Fit := by
  cases CH with
  | hier m n blk =>
    simp only [joinDense, except_bind_eq_ok] at h
    obtain ⟨g, -, h⟩ := h
    cases h
    exact ⟨⟨rfl, rfl⟩, trivial⟩
  | dense => cases h
  | lowRank => cases h
  | empty => cases h

omit [CommRing R] in
theorem WF_opBlk {t : Bool} {p q : Nat} {A : Nat → Nat → Mat R} (h : (Mat.hier p q A).WF)
    (hs : (Mat.hier p q A).Square) {i k : Nat} (hi : i < opDim0 t p q) (hk : k < opDim1 t p q) :
    (opBlk t A i k).WF ∧ (opBlk t A i k).Square := by
  simp only [WF] at h
  cases t
  · exact ⟨(h.2.2 i hi k hk).1, hs i hi k hk⟩
  · exact ⟨(h.2.2 k hk i hi).1, hs k hk i hi⟩

omit [CommRing R] in
theorem vecAt_fit {p q : Nat} {A : Nat → Nat → Mat R} (h : (Mat.hier p q A).WF)
    (hs : (Mat.hier p q A).Square) {k : Nat} {x : Mat R} (e : vecAt p q A k = .ok x) :
    x.WF ∧ x.Square := by
  simp only [vecAt, except_bind_eq_ok, assertM_eq_ok, decide_eq_true_eq] at e
  simp only [WF] at h
  obtain ⟨-, h0, -, h1, e⟩ := e
  have e := Except.ok.inj e
  by_cases hp : p = 1
  · subst hp
    simp at e h1
    subst e
    exact ⟨(h.2.2 0 (by omega) k h1).1, hs 0 (by omega) k h1⟩
  · simp [hp] at e h1 h0
    subst e
    exact ⟨(h.2.2 k h1 0 (by omega)).1, hs k h1 0 (by omega)⟩

omit [CommRing R] in
/-- Repeated products into one target. -/
theorem loop_fit {n : Nat} {body : Nat → Mat R → Except Err (Mat R)} {C C' : Mat R}
    (hC : C.WF) (hs : C.Square)
    (hb : ∀ k < n, ∀ c c', c.WF → c.Square → body k c = .ok c' → c.SameShape c' ∧ c'.Fit)
    (h : loop n body C = .ok C') : C.SameShape C' ∧ C'.Fit := by
  refine loop_inv (fun _ c => C.SameShape c ∧ c.Fit) ⟨SameShape.refl _, Fit.of hC hs⟩ ?_ h
  intro k hk c c' hc e
  have w := Fit.wf hC hc.1 hc.2
  have := hb k hk c c' w.1 w.2 e
  exact ⟨hc.1.trans this.1, this.2⟩

theorem split_dense_fit {a : Dense R} {nr nc : Nat} (hr : 1 ≤ nr) (hc : 1 ≤ nc) {M : Mat R}
    (h : (Mat.dense a).split nr nc = .ok M) : M.WF ∧ M.Square := by
  obtain ⟨b, rfl, w, -, dl⟩ := split_dense_leaves hr hc h
  exact ⟨w, (dense_leaves dl).square⟩

theorem gemmToDense_fit {g : GemmT R} (hg : GemmFit g) {A B C' : Mat R} {c : Dense R} {α β : R}
    {ta tb : Bool} (hA : A.WF) (hAs : A.Square) (hB : B.WF) (hBs : B.Square)
    (h : gemmToDense g A B c α β ta tb = .ok C') : (Mat.dense c).SameShape C' ∧ C'.Fit := by
  have dd : ∀ {x : Except Err (Dense R)}, (∀ d, x = .ok d → d.rows = c.rows ∧ d.cols = c.cols) →
      (do let d ← x; .ok (.dense d)) = Except.ok C' → (Mat.dense c).SameShape C' ∧ C'.Fit := by
    intro x hx h
    simp only [except_bind_eq_ok] at h
    obtain ⟨d, hd, h⟩ := h
    cases h
    exact ⟨⟨(hx d hd).1.symm, (hx d hd).2.symm⟩, trivial⟩
  have dims : ∀ {a b d : Dense R} {α β : R} {ta tb : Bool}, Dense.gemm a b c α β ta tb = .ok d →
      d.rows = c.rows ∧ d.cols = c.cols := fun h =>
    ⟨(Dense_gemm_spec h).2.2.2.1, (Dense_gemm_spec h).2.2.2.2.1⟩
  have AH : ∀ (r s : Nat) (B : Nat → Nat → Mat R), (Mat.hier r s B).WF → (Mat.hier r s B).Square →
      (if r = 1 ∧ s = 1 then g A (B 0 0) (.dense c) α β ta tb
        else do
          let CH ← (Mat.dense c).split 1 (opDim1 tb r s)
          let CH' ← g A (.hier r s B) CH α β ta tb
          joinDense c CH') = .ok C' → (Mat.dense c).SameShape C' ∧ C'.Fit := by
    intro r s B hB hBs h
    split at h
    · rename_i e
      have hB0 := hB
      simp only [WF] at hB0
      exact hg _ _ _ _ _ _ _ _ hA hAs (hB0.2.2 0 hB0.1 0 hB0.2.1).1 (hBs 0 hB0.1 0 hB0.2.1)
        trivial trivial h
    · simp only [except_bind_eq_ok] at h
      obtain ⟨_, _, _, _, h⟩ := h
      exact joinDense_fit h
  have HB : ∀ (p q : Nat) (A : Nat → Nat → Mat R), (Mat.hier p q A).WF → (Mat.hier p q A).Square →
      (if p = 1 ∧ q = 1 then g (A 0 0) B (.dense c) α β ta tb
        else do
          let CH ← (Mat.dense c).split (opDim0 ta p q) 1
          let CH' ← g (.hier p q A) B CH α β ta tb
          joinDense c CH') = .ok C' → (Mat.dense c).SameShape C' ∧ C'.Fit := by
    intro p q A hA hAs h
    split at h
    · have hA0 := hA
      simp only [WF] at hA0
      exact hg _ _ _ _ _ _ _ _ (hA0.2.2 0 hA0.1 0 hA0.2.1).1 (hAs 0 hA0.1 0 hA0.2.1) hB hBs
        trivial trivial h
    · simp only [except_bind_eq_ok] at h
      obtain ⟨_, _, _, _, h⟩ := h
      exact joinDense_fit h
  cases A with
  | dense a =>
    cases B with
    | dense b => exact dd (fun d hd => dims hd) h
    | lowRank b =>
      refine dd (fun d hd => ?_) h
      simp only [gemmDLrD, except_bind_eq_ok] at hd
      obtain ⟨_, _, _, _, hd⟩ := hd
      exact dims hd
    | hier r s B => exact AH r s B hB hBs h
    | empty => cases h
  | lowRank a =>
    cases B with
    | dense b =>
      refine dd (fun d hd => ?_) h
      simp only [gemmLrDD, except_bind_eq_ok] at hd
      obtain ⟨_, _, _, _, hd⟩ := hd
      exact dims hd
    | lowRank b =>
      refine dd (fun d hd => ?_) h
      simp only [gemmLrLrD, except_bind_eq_ok] at hd
      obtain ⟨_, _, _, _, _, _, _, _, hd⟩ := hd
      exact dims hd
    | hier r s B => exact AH r s B hB hBs h
    | empty => cases h
  | hier p q A =>
    cases B with
    | dense b => exact HB p q A hA hAs h
    | lowRank b => exact HB p q A hA hAs h
    | hier r s B =>
      simp only [gemmToDense, gemmHHD, except_bind_eq_ok] at h
      obtain ⟨_, -, h⟩ := h
      split at h
      · refine loop_fit (C := .dense c) trivial trivial (fun k _ x x' hx hxs e => ?_) h
        simp only [except_bind_eq_ok] at e
        obtain ⟨a, ha, b, hb, e⟩ := e
        have wa := vecAt_fit hA hAs ha
        have wb := vecAt_fit hB hBs hb
        exact hg _ _ _ _ _ _ _ _ wa.1 wa.2 wb.1 wb.2 hx hxs e
      · simp only [except_bind_eq_ok] at h
        obtain ⟨_, _, _, _, h⟩ := h
        exact joinDense_fit h
    | empty => exact HB p q A hA hAs h
  | empty =>
    cases B with
    | hier r s B => exact AH r s B hB hBs h
    | dense => cases h
    | lowRank => cases h
    | empty => cases h

theorem fit_ofFactors {U S V : Dense R} (h1 : U.cols = S.rows) (h2 : V.rows = S.cols) :
    (LowRank.ofFactors U S V).WF := ⟨rfl, h1, rfl, h2, rfl⟩

theorem gemmLrD_fit {o : LrOps R} (hf : o.Fits False) {a : LowRank R} {b : Dense R} {C C' : Mat R}
    {α β : R} {ta tb : Bool} (ha : a.WF) (hC : C.Fit)
    (h : gemmLrD o a b C α β ta tb = .ok C') : C.SameShape C' ∧ C'.Fit := by
  simp only [gemmLrD, except_bind_eq_ok] at h
  obtain ⟨V, hV, h⟩ := h
  have v := Dense_gemmNew_spec hV
  refine scaleAdd_fit hf hC (fit_ofFactors ?_ ?_) h
  · cases ta
    · exact ha.ucols.trans ha.srows.symm
    · exact ha.vrows
  · rw [v.2.1]
    cases ta
    · exact ha.vrows
    · show a.U.cols = a.S.rows
      rw [ha.ucols, ha.srows]

theorem gemmDLr_fit {o : LrOps R} (hf : o.Fits False) {a : Dense R} {b : LowRank R} {C C' : Mat R}
    {α β : R} {ta tb : Bool} (hb : b.WF) (hC : C.Fit)
    (h : gemmDLr o a b C α β ta tb = .ok C') : C.SameShape C' ∧ C'.Fit := by
  simp only [gemmDLr, except_bind_eq_ok] at h
  obtain ⟨V, hV, h⟩ := h
  have v := Dense_gemmNew_spec hV
  refine scaleAdd_fit hf hC (fit_ofFactors ?_ ?_) h
  · rw [v.2.2.1]
    cases tb
    · exact hb.ucols.trans hb.srows.symm
    · exact hb.vrows
  · cases tb
    · exact hb.vrows
    · show b.U.cols = b.S.rows
      rw [hb.ucols, hb.srows]

theorem gemmLrLr_fit {o : LrOps R} (hf : o.Fits False) {a b : LowRank R} {C C' : Mat R}
    {α β : R} {ta tb : Bool} (ha : a.WF) (hb : b.WF) (hC : C.Fit)
    (h : gemmLrLr o a b C α β ta tb = .ok C') : C.SameShape C' ∧ C'.Fit := by
  simp only [gemmLrLr, except_bind_eq_ok] at h
  obtain ⟨x, hx, y, hy, S, hS, h⟩ := h
  have x := Dense_gemmNew_spec hx
  have y := Dense_gemmNew_spec hy
  have s := Dense_gemmNew_spec hS
  refine scaleAdd_fit hf hC (fit_ofFactors ?_ ?_) h
  · rw [s.2.1, dop_false, x.2.1]
    cases ta
    · exact ha.ucols.trans ha.srows.symm
    · exact ha.vrows
  · rw [s.2.2.1, dop_false, y.2.2.1]
    cases tb
    · exact hb.vrows
    · show b.U.cols = b.S.rows
      rw [hb.ucols, hb.srows]

theorem fit_scaleS {c : LowRank R} (h : (Mat.lowRank c).Fit) (β : R) :
    (Mat.lowRank { c with S := c.S.scale β }).Fit :=
  ⟨⟨h.1.urows, h.1.ucols, h.1.srows, h.1.vrows, h.1.vcols⟩, h.2⟩

theorem lrAdd_fit {o : LrOps R} (hf : o.Fits False) {c x d : LowRank R}
    (hc : (Mat.lowRank c).Fit) (hx : x.WF) (h : o.addAssign c x = .ok d) :
    (Mat.lowRank c).SameShape (.lowRank d) ∧ (Mat.lowRank d).Fit :=
  addAssign_fit hf (A := .lowRank c) (B := .lowRank x) hc hx
    (by simp only [addAssign, h, except_bind_ok])

theorem gemmToLowRank_fit [DecidableEq R] {o : LrOps R} (hf : o.Fits False) {g : GemmT R}
    (hg : GemmFit g) {gn : GemmNewT R} (hgn : GemmNewFit gn) {A B C' : Mat R} {c : LowRank R}
    {α β : R} {ta tb : Bool} (hA : A.WF) (hAs : A.Square) (hB : B.WF) (hBs : B.Square)
    (hc : c.WF) (hcs : c.Square)
    (h : gemmToLowRank o g gn A B c α β ta tb = .ok C') :
    (Mat.lowRank c).SameShape C' ∧ C'.Fit := by
  have hC : (Mat.lowRank c).Fit := ⟨hc, hcs⟩
  cases A with
  | dense a =>
    cases B with
    | dense b =>
      simp only [gemmToLowRank, gemmDDLr, except_bind_eq_ok] at h
      obtain ⟨ab, -, x, hx, d, hd, h⟩ := h
      cases h
      have hx : x.WF := by
        split at hx
        · exact (hf.ofEps _ _ _ hx).1
        · exact (hf.ofRank _ _ _ hx).1
      exact lrAdd_fit hf (c := { c with S := c.S.scale β }) (fit_scaleS hC β) hx hd
    | lowRank b => exact gemmDLr_fit hf hB hC h
    | hier r s B =>
      simp only [gemmToLowRank, except_bind_eq_ok] at h
      obtain ⟨HA, hHA, h⟩ := h
      have := opDim0_pos (t := tb) hB
      have w := split_dense_fit (by cases ta <;> simp <;> omega) (by cases ta <;> simp <;> omega) hHA
      exact hg _ _ _ _ _ _ _ _ w.1 w.2 hB hBs hc hcs h
    | empty => cases h
  | lowRank a =>
    cases B with
    | dense b => exact gemmLrD_fit hf hA hC h
    | lowRank b => exact gemmLrLr_fit hf hA hB hC h
    | hier r s B =>
      simp only [gemmToLowRank, except_bind_eq_ok] at h
      obtain ⟨V, hV, V', hV', h⟩ := h
      obtain rfl := asDense_ok hV'
      have v := hgn (.dense _) _ _ _ _ _ trivial trivial hB hBs hV
      have ha : a.WF := hA
      refine scaleAdd_fit hf hC (fit_ofFactors ?_ ?_) h
      · cases ta
        · exact ha.ucols.trans ha.srows.symm
        · exact ha.vrows
      · have : V'.rows = opRows ta (.dense (if ta then a.U else a.V)) := v.2.2.1
        rw [this]
        cases ta
        · exact ha.vrows
        · show a.U.cols = a.S.rows
          rw [ha.ucols, ha.srows]
    | empty => cases h
  | hier p q A =>
    cases B with
    | dense b =>
      simp only [gemmToLowRank, except_bind_eq_ok] at h
      obtain ⟨HA, hHA, h⟩ := h
      have := opDim1_pos (t := ta) hA
      have w := split_dense_fit (by cases tb <;> simp <;> omega) (by cases tb <;> simp <;> omega) hHA
      exact hg _ _ _ _ _ _ _ _ hA hAs w.1 w.2 hc hcs h
    | lowRank b =>
      simp only [gemmToLowRank, except_bind_eq_ok] at h
      obtain ⟨V, hV, V', hV', h⟩ := h
      obtain rfl := asDense_ok hV'
      have v := hgn _ (.dense _) _ _ _ _ hA hAs trivial trivial hV
      have hb : b.WF := hB
      refine scaleAdd_fit hf hC (fit_ofFactors ?_ ?_) h
      · have : V'.cols = opCols tb (.dense (if tb then b.V else b.U)) := v.2.2.2.1
        rw [this]
        cases tb
        · exact hb.ucols.trans hb.srows.symm
        · exact hb.vrows
      · cases tb
        · exact hb.vrows
        · show b.U.cols = b.S.rows
          rw [hb.ucols, hb.srows]
    | hier r s B =>
      simp only [gemmToLowRank, gemmHHLr] at h
      split at h
      · simp only [except_bind_eq_ok] at h
        obtain ⟨cd, hcd, cd', hcd', d, hd, l, hl, h⟩ := h
        cases h
        obtain rfl := asDense_ok hd
        have I := hg _ _ (.dense cd) _ _ _ _ _ hA hAs hB hBs trivial trivial hcd'
        obtain ⟨D, hD, e0, e1, -⟩ := LowRank_toDense_ok c hc
        rw [hD] at hcd
        cases hcd
        have L := hf.ofEps _ _ _ hl
        refine ⟨⟨?_, ?_⟩, L.1, L.2.1⟩
        · rw [L.2.2.1, ← e0]; exact I.1.1
        · rw [L.2.2.2, ← e1]; exact I.1.2
      · simp only [except_bind_eq_ok] at h
        obtain ⟨ab, hab, h⟩ := h
        have I := hgn _ _ _ _ _ _ hA hAs hB hBs hab
        cases ab with
        | hier m n blk =>
          simp only [except_bind_eq_ok] at h
          obtain ⟨d, hd, x, hx, h⟩ := h
          cases h
          exact lrAdd_fit hf (c := { c with S := c.S.scale β }) (fit_scaleS hC β) (hf.ofHier _ _ _ I.1 hd).1 hx
        | dense => cases h
        | lowRank => cases h
        | empty => cases h
    | empty => cases h
  | empty => cases B <;> cases h

theorem gemmRowLoop_fit {g : GemmT R} (hg : GemmFit g) {r s m n : Nat} {A : Mat R}
    {B C : Nat → Nat → Mat R} {α β : R} {ta tb : Bool} {C' : Mat R}
    (hA : A.WF) (hAs : A.Square) (hB : (Mat.hier r s B).WF) (hBs : (Mat.hier r s B).Square)
    (hC : (Mat.hier m n C).WF) (hCs : (Mat.hier m n C).Square) (hm : m = 1)
    (h : gemmRowLoop g A r s B m n C α β ta tb = .ok C') :
    (Mat.hier m n C).SameShape C' ∧ C'.Fit := by
  simp only [gemmRowLoop, except_bind_eq_ok] at h
  obtain ⟨f, hf, h⟩ := h
  cases h
  subst hm
  have key : ∀ j < opDim1 tb r s, (C 0 j).SameShape (f j) ∧ (f j).Fit := by
    intro j hj
    have := collect_ok hf j hj
    simp only [except_bind_eq_ok] at this
    obtain ⟨b, hb, c, hc, this⟩ := this
    have wb := vecAt_fit hB hBs hb
    have wc := vecAt_fit hC hCs hc
    obtain ⟨-, rfl⟩ := vecAt_row (t := false) rfl hc
    exact hg _ _ _ _ _ _ _ _ hA hAs wb.1 wb.2 wc.1 wc.2 this
  have F := Fit.of hC hCs
  refine ⟨⟨rfl, rfl, fun i hi j hj => ?_⟩, fun i hi j hj => ?_⟩
  · obtain rfl : i = 0 := by omega
    show (C 0 j).SameShape (if _ then _ else _)
    split
    · rename_i h; exact (key j h).1
    · exact SameShape.refl _
  · obtain rfl : i = 0 := by omega
    show Fit (if _ then _ else _)
    split
    · rename_i h; exact (key j h).2
    · exact F 0 hi j hj

theorem gemmColLoop_fit {g : GemmT R} (hg : GemmFit g) {p q m n : Nat} {B : Mat R}
    {A C : Nat → Nat → Mat R} {α β : R} {ta tb : Bool} {C' : Mat R}
    (hA : (Mat.hier p q A).WF) (hAs : (Mat.hier p q A).Square) (hB : B.WF) (hBs : B.Square)
    (hC : (Mat.hier m n C).WF) (hCs : (Mat.hier m n C).Square) (hn : n = 1)
    (h : gemmColLoop g p q A B m n C α β ta tb = .ok C') :
    (Mat.hier m n C).SameShape C' ∧ C'.Fit := by
  simp only [gemmColLoop, except_bind_eq_ok] at h
  obtain ⟨f, hf, h⟩ := h
  cases h
  subst hn
  have key : ∀ i < opDim0 ta p q, (C i 0).SameShape (f i) ∧ (f i).Fit := by
    intro j hj
    have := collect_ok hf j hj
    simp only [except_bind_eq_ok] at this
    obtain ⟨b, hb, c, hc, this⟩ := this
    have wb := vecAt_fit hA hAs hb
    have wc := vecAt_fit hC hCs hc
    obtain ⟨-, rfl⟩ := vecAt_col (t := false) rfl hc
    exact hg _ _ _ _ _ _ _ _ wb.1 wb.2 hB hBs wc.1 wc.2 this
  have F := Fit.of hC hCs
  refine ⟨⟨rfl, rfl, fun i hi j hj => ?_⟩, fun i hi j hj => ?_⟩
  · obtain rfl : j = 0 := by omega
    show (C i 0).SameShape (if _ then _ else _)
    split
    · rename_i h; exact (key i h).1
    · exact SameShape.refl _
  · obtain rfl : j = 0 := by omega
    show Fit (if _ then _ else _)
    split
    · rename_i h; exact (key i h).2
    · exact F i hi 0 hj

theorem gemmToHier_fit {o : LrOps R} (hf : o.Fits False) {g : GemmT R}
    (hg : GemmFit g) {gn : GemmNewT R} (hgn : GemmNewFit gn) {A B C' : Mat R} {m n : Nat}
    {C : Nat → Nat → Mat R} {α β : R} {ta tb : Bool} (hA : A.WF) (hAs : A.Square) (hB : B.WF)
    (hBs : B.Square) (hC : (Mat.hier m n C).WF) (hCs : (Mat.hier m n C).Square)
    (hd : GemmDims ta tb A B (.hier m n C))
    (h : gemmToHier o g gn A B m n C α β ta tb = .ok C') :
    (Mat.hier m n C).SameShape C' ∧ C'.Fit := by
  have hF := Fit.of hC hCs
  have hC0 := hC
  simp only [WF] at hC0
  have hm := hC0.1
  have hn := hC0.2.1
  have one : ∀ {p q : Nat} {A : Nat → Nat → Mat R}, (Mat.hier p q A).WF → (Mat.hier p q A).Square →
      (A 0 0).WF ∧ (A 0 0).Square := by
    intro p q A h hs
    simp only [WF] at h
    exact ⟨(h.2.2 0 h.1 0 h.2.1).1, hs 0 h.1 0 h.2.1⟩
  cases A with
  | dense a =>
    cases B with
    | dense b =>
      simp only [gemmToHier, gemmDDH] at h
      split at h
      · cases h
      · split at h
        · simp only [except_bind_eq_ok] at h
          obtain ⟨H, hH, h⟩ := h
          have w := split_dense_fit (by cases ta <;> simp <;> omega) (by cases ta <;> simp <;> omega) hH
          exact hg _ _ _ _ _ _ _ _ w.1 w.2 hB hBs hC hCs h
        · split at h
          · simp only [except_bind_eq_ok] at h
            obtain ⟨H, hH, h⟩ := h
            have w := split_dense_fit (by cases tb <;> simp <;> omega) (by cases tb <;> simp <;> omega) hH
            exact hg _ _ _ _ _ _ _ _ hA hAs w.1 w.2 hC hCs h
          · simp only [except_bind_eq_ok] at h
            obtain ⟨H, hH, H', hH', h⟩ := h
            have w := split_dense_fit (by cases ta <;> simp <;> omega) (by cases ta <;> simp <;> omega) hH
            have w' := split_dense_fit (by cases tb <;> simp <;> omega) (by cases tb <;> simp <;> omega) hH'
            exact hg _ _ _ _ _ _ _ _ w.1 w.2 w'.1 w'.2 hC hCs h
    | lowRank b => exact gemmDLr_fit hf hB hF h
    | hier r s B =>
      simp only [gemmToHier, gemmDHH, except_bind_eq_ok] at h
      obtain ⟨_, -, h⟩ := h
      split at h
      · exact hg _ _ _ _ _ _ _ _ hA hAs (one hB hBs).1 (one hB hBs).2 hC hCs h
      · split at h
        · rename_i e
          exact gemmRowLoop_fit hg hA hAs hB hBs hC hCs e.2 h
        · simp only [except_bind_eq_ok] at h
          obtain ⟨H, hH, h⟩ := h
          have := opDim0_pos (t := tb) hB
          have w := split_dense_fit (by cases ta <;> simp <;> omega) (by cases ta <;> simp <;> omega) hH
          exact hg _ _ _ _ _ _ _ _ w.1 w.2 hB hBs hC hCs h
    | empty => cases h
  | lowRank a =>
    cases B with
    | dense b => exact gemmLrD_fit hf hA hF h
    | lowRank b => exact gemmLrLr_fit hf hA hB hF h
    | hier r s B =>
      simp only [gemmToHier, gemmLrHH, except_bind_eq_ok] at h
      obtain ⟨_, -, h⟩ := h
      split at h
      · exact hg _ _ _ _ _ _ _ _ hA hAs (one hB hBs).1 (one hB hBs).2 hC hCs h
      · split at h
        · rename_i e
          exact gemmRowLoop_fit hg hA hAs hB hBs hC hCs e.2 h
        · simp only [except_bind_eq_ok] at h
          obtain ⟨V, hV, V', hV', h⟩ := h
          obtain rfl := asDense_ok hV'
          have v := hgn (.dense _) _ _ _ _ _ trivial trivial hB hBs hV
          have ha : a.WF := hA
          refine scaleAdd_fit hf hF (fit_ofFactors (ha.ucols.trans ha.srows.symm) ?_) h
          have : V'.rows = a.V.rows := v.2.2.1
          rw [this, ha.vrows]
    | empty => cases h
  | hier p q A =>
    cases B with
    | dense b =>
      simp only [gemmToHier, gemmHDH] at h
      split at h
      · exact hg _ _ _ _ _ _ _ _ (one hA hAs).1 (one hA hAs).2 hB hBs hC hCs h
      · split at h
        · rename_i e
          exact gemmColLoop_fit hg hA hAs hB hBs hC hCs e.2 h
        · simp only [except_bind_eq_ok] at h
          obtain ⟨H, hH, h⟩ := h
          have := opDim1_pos (t := ta) hA
          have w := split_dense_fit (by cases tb <;> simp <;> omega) (by cases tb <;> simp <;> omega) hH
          exact hg _ _ _ _ _ _ _ _ hA hAs w.1 w.2 hC hCs h
    | lowRank b =>
      simp only [gemmToHier, gemmHLrH] at h
      split at h
      · exact hg _ _ _ _ _ _ _ _ (one hA hAs).1 (one hA hAs).2 hB hBs hC hCs h
      · split at h
        · rename_i e
          exact gemmColLoop_fit hg hA hAs hB hBs hC hCs e.2 h
        · simp only [except_bind_eq_ok] at h
          obtain ⟨V, hV, V', hV', h⟩ := h
          obtain rfl := asDense_ok hV'
          have v := hgn _ (.dense _) _ _ _ _ hA hAs trivial trivial hV
          have hb : b.WF := hB
          have h' := h
          simp only [scaleAdd, except_bind_eq_ok] at h'
          obtain ⟨C1, hC1, h'⟩ := h'
          have s := scale_fit hF hC1
          have w := Fit.wf hC s.1 s.2
          have dims := addAssign_lowRank_dims w.1 rfl rfl h'
          have e0 : (Mat.hier m n C).nRows = V'.rows := by rw [← (s.1.dims hC).1]; exact dims.1
          have e1 : (Mat.hier m n C).nCols = b.V.cols := by rw [← (s.1.dims hC).2]; exact dims.2
          have x0 : V'.rows = (Mat.hier p q A).nRows := v.2.2.1
          have x1 : V'.cols = opCols tb (.dense b.U) := v.2.2.2.1
          have x2 : (Mat.hier p q A).nCols = opRows tb (.dense b.U) := v.2.2.2.2
          have y1 := hd.rows
          have y2 := hd.inner
          have y3 := hd.cols
          refine scaleAdd_fit hf hF (fit_ofFactors ?_ hb.vrows) h
          rw [x1, hb.srows]
          cases tb
          · exact hb.ucols
          · -- the branch that ignores the flags: if it returns at all, `B` is square of full rank
            have z1 := hb.urows
            have z2 := hb.ucols
            have z3 := hb.vcols
            cases ta <;> simp only [opRows, opCols, if_true, Bool.false_eq_true, if_false] at * <;>
              simp only [nRows, nCols] at * <;> omega
    | hier r s B =>
      simp only [gemmToHier, gemmHHH, except_bind_eq_ok, assertM_eq_ok, decide_eq_true_eq] at h
      obtain ⟨_, e1, _, e2, _, e3, X, hX, h⟩ := h
      cases h
      have key : ∀ i < m, ∀ j < n, (C i j).SameShape (X i j) ∧ (X i j).Fit := by
        intro i hi j hj
        refine loop_fit (hC0.2.2 i hi j hj).1 (hCs i hi j hj) (fun k hk x x' hx hxs e => ?_)
          (collect2_ok hX i hi j hj)
        have wa := WF_opBlk (t := ta) hA hAs (i := i) (k := k) (by omega) hk
        have wb := WF_opBlk (t := tb) hB hBs (i := k) (k := j) (by omega) (by omega)
        exact hg _ _ _ _ _ _ _ _ wa.1 wa.2 wb.1 wb.2 hx hxs e
      exact ⟨⟨rfl, rfl, fun i hi j hj => (key i hi j hj).1⟩, fun i hi j hj => (key i hi j hj).2⟩
    | empty => cases h
  | empty => cases B <;> cases h

theorem gemmNewOmm_fit {g : GemmT R} (hg : GemmFit g) {gn : GemmNewT R} (hgn : GemmNewFit gn)
    {A B D : Mat R} {α : R} {ta tb : Bool} (hA : A.WF) (hAs : A.Square) (hB : B.WF) (hBs : B.Square)
    (h : gemmNewOmm g gn A B α ta tb = .ok D) :
    D.WF ∧ D.Square ∧ D.nRows = A.opRows ta ∧ D.nCols = B.opCols tb := by
  have plain : g A B (.dense (Dense.zero (A.opRows ta) (B.opCols tb))) α 0 ta tb = .ok D →
      D.WF ∧ D.Square ∧ D.nRows = A.opRows ta ∧ D.nCols = B.opCols tb := by
    intro h
    have := hg _ _ (.dense _) _ _ _ _ _ hA hAs hB hBs trivial trivial h
    have w := Fit.wf (A := .dense (Dense.zero (A.opRows ta) (B.opCols tb))) trivial this.1 this.2
    have d := this.1.dims trivial
    exact ⟨w.1, w.2, d.1, d.2⟩
  cases A with
  | dense a => exact plain (by rw [← h]; cases B <;> rfl)
  | lowRank a => exact plain (by rw [← h]; cases B <;> rfl)
  | empty => exact plain (by rw [← h]; cases B <;> rfl)
  | hier p q A =>
    cases B with
    | dense a => exact plain h
    | lowRank a => exact plain h
    | empty => exact plain h
    | hier r s B =>
      simp only [gemmNewOmm, gemmNewHH] at h
      split at h
      · exact plain h
      · simp only [except_bind_eq_ok] at h
        obtain ⟨X, hX, h⟩ := h
        cases h
        have key : ∀ i < opDim0 ta p q, ∀ j < opDim1 tb r s, (X i j).WF ∧ (X i j).Square ∧
            (X i j).nRows = (opBlk ta A i 0).opRows ta ∧
            (X i j).nCols = (opBlk tb B 0 j).opCols tb := by
          intro i hi j hj
          have := collect2_ok hX i hi j hj
          simp only [except_bind_eq_ok] at this
          obtain ⟨a, ha, b, hb, c, hc, this⟩ := this
          obtain ⟨i1, i2, rfl⟩ := opAt_ok ha
          obtain ⟨i3, i4, rfl⟩ := opAt_ok hb
          have wa := WF_opBlk (t := ta) hA hAs i1 i2
          have wb := WF_opBlk (t := tb) hB hBs i3 i4
          have N := hgn _ _ _ _ _ _ wa.1 wa.2 wb.1 wb.2 hc
          have L := loop_fit N.1 N.2.1 (fun k hk x x' hx hxs e => by
            simp only [except_bind_eq_ok] at e
            obtain ⟨a, ha, b, hb, e⟩ := e
            obtain ⟨i1, i2, rfl⟩ := opAt_ok ha
            obtain ⟨i3, i4, rfl⟩ := opAt_ok hb
            have wa := WF_opBlk (t := ta) hA hAs i1 i2
            have wb := WF_opBlk (t := tb) hB hBs i3 i4
            exact hg _ _ _ _ _ _ _ _ wa.1 wa.2 wb.1 wb.2 hx hxs e) this
          have w := Fit.wf N.1 L.1 L.2
          have d := L.1.dims N.1
          exact ⟨w.1, w.2, by rw [d.1, N.2.2.1], by rw [d.2, N.2.2.2.1]⟩
        have p0 := opDim0_pos (t := ta) hA
        have q0 := opDim1_pos (t := tb) hB
        have G := hier_grid (blk := X) (h := fun i => (opBlk ta A i 0).opRows ta)
          (w := fun j => (opBlk tb B 0 j).opCols tb) p0 q0
          (fun i hi j hj => ⟨(key i hi j hj).1, (key i hi j hj).2.2⟩)
        refine ⟨G.1, fun i hi j hj => (key i hi j hj).2.1, ?_, ?_⟩
        · rw [G.2.1]; cases ta <;> rfl
        · rw [G.2.2.1]; cases tb <;> rfl

theorem gemmBoth_fit [DecidableEq R] {o : LrOps R} (hf : o.Fits False) (fuel : Nat) :
    GemmFit (gemmBoth o fuel).1 ∧ GemmNewFit (gemmBoth o fuel).2 := by
  induction fuel with
  | zero =>
    refine ⟨?_, ?_⟩
    · intro A B C α β ta tb C' _ _ _ _ _ _ h; cases h
    · intro A B α ta tb D _ _ _ _ h; cases h
  | succ n ih =>
    obtain ⟨hg, hgn⟩ := ih
    refine ⟨?_, ?_⟩
    · intro A B C α β ta tb C' hA hAs hB hBs hC hCs h
      simp only [gemmBoth, except_bind_eq_ok, assertM_eq_ok, decide_eq_true_eq] at h
      obtain ⟨-, e1, -, e2, -, e3, h⟩ := h
      cases C with
      | dense c => exact gemmToDense_fit hg hA hAs hB hBs h
      | lowRank c => exact gemmToLowRank_fit hf hg hgn hA hAs hB hBs hC hCs h
      | hier m n C => exact gemmToHier_fit hf hg hgn hA hAs hB hBs hC hCs ⟨e1, e2, e3⟩ h
      | empty => cases h
    · intro A B α ta tb D hA hAs hB hBs h
      simp only [gemmBoth, except_bind_eq_ok, assertM_eq_ok, decide_eq_true_eq] at h
      obtain ⟨-, e, h⟩ := h
      have := gemmNewOmm_fit hg hgn hA hAs hB hBs h
      exact ⟨this.1, this.2.1, this.2.2.1, this.2.2.2, e⟩

end

/-! ### LU -/

section
variable [Field R]

/-- Both factors of a successful LU factorization are consistent, whatever the
matrix. -/
theorem getrfWith_fit {lu : Dense R → Dense R × Bool} {g : GemmT R} (hg : GemmFit g)
    {su sl : Mat R → Mat R → Except Err (Mat R)}
    (hsu : ∀ A B B', A.WF → B.WF → B.Square → su A B = .ok B' → B'.WF ∧ B'.Square ∧ B.SameShape B')
    (hsl : ∀ A B B', A.WF → B.WF → B.Square → sl A B = .ok B' → B'.WF ∧ B'.Square ∧ B.SameShape B')
    (fuel : Nat) {A L U : Mat R} {flag : Bool} (hA : A.WF) (hAs : A.Square)
    (h : getrfWith lu g su sl fuel A = .ok (L, U, flag)) :
    (L.WF ∧ L.Square ∧ L.nRows = A.nRows ∧ L.nCols = A.nCols) ∧
    (U.WF ∧ U.Square ∧ U.nRows = A.nRows ∧ U.nCols = A.nCols) := by
  induction fuel generalizing A L U flag with
  | zero => cases h
  | succ fuel ih =>
    cases A with
    | lowRank => cases h
    | empty => cases h
    | dense a =>
      simp only [getrfWith, getrfDense, except_bind_eq_ok] at h
      obtain ⟨_, -, h⟩ := h
      cases h
      exact ⟨⟨trivial, trivial, rfl, rfl⟩, trivial, trivial, rfl, rfl⟩
    | hier p q A =>
      simp only [getrfWith, except_bind_eq_ok] at h
      obtain ⟨st, hst, h⟩ := h
      cases h
      have hA0 := hA
      simp only [WF] at hA0
      -- blocks keep their dimensions; those of `L` are set row by row
      let good : Mat R → Nat → Nat → Prop := fun X a b =>
        X.WF ∧ X.Square ∧ X.nRows = (A a b).nRows ∧ X.nCols = (A a b).nCols
      have inv : (∀ a < p, ∀ b < q, (a < p ∨ b < p) → good (st.1 a b) a b) ∧
          (∀ a < p, ∀ b < q, good (st.2.1 a b) a b) := by
        refine loop_inv (fun m (st : LuState R) =>
          (∀ a < p, ∀ b < q, (a < m ∨ b < m) → good (st.1 a b) a b) ∧
          (∀ a < p, ∀ b < q, good (st.2.1 a b) a b)) ?_ ?_ hst
        · exact ⟨fun a _ b _ h => by omega, fun a ha b hb =>
            ⟨(hA0.2.2 a ha b hb).1, hAs a ha b hb, rfl, rfl⟩⟩
        · intro i hi s s' ⟨I1, I2⟩ e
          simp only [getrfStep, blockAt, except_bind_eq_ok, assertM_eq_ok, decide_eq_true_eq] at e
          obtain ⟨d, ⟨-, -, -, hq, hd⟩, x, hx, lc, hlc, ur, hur, up, hup, e⟩ := e
          cases Except.ok.inj hd
          obtain ⟨x1, x2, x3⟩ := x
          have D := I2 i hi i hq
          have X := ih D.1 D.2.1 hx
          have LC : ∀ a, i < a → a < p → good (lc (a - (i + 1))) a i := by
            intro a h1 h2
            have := collect_ok hlc (a - (i + 1)) (by omega)
            rw [show i + 1 + (a - (i + 1)) = a by omega] at this
            have J := I2 a h2 i hq
            have K := hsu _ _ _ X.2.1 J.1 J.2.1 this
            have dd := K.2.2.dims J.1
            exact ⟨K.1, K.2.1, by rw [dd.1, J.2.2.1], by rw [dd.2, J.2.2.2]⟩
          have UR : ∀ b, i < b → b < q → good (ur (b - (i + 1))) i b := by
            intro b h1 h2
            have := collect_ok hur (b - (i + 1)) (by omega)
            rw [show i + 1 + (b - (i + 1)) = b by omega] at this
            have J := I2 i hi b h2
            have K := hsl _ _ _ X.1.1 J.1 J.2.1 this
            have dd := K.2.2.dims J.1
            exact ⟨K.1, K.2.1, by rw [dd.1, J.2.2.1], by rw [dd.2, J.2.2.2]⟩
          have UP : ∀ a, i < a → a < p → ∀ b, i < b → b < q →
              good (up (a - (i + 1)) (b - (i + 1))) a b := by
            intro a h1 h2 b h3 h4
            have := collect2_ok hup (a - (i + 1)) (by omega) (b - (i + 1)) (by omega)
            rw [show i + 1 + (a - (i + 1)) = a by omega, show i + 1 + (b - (i + 1)) = b by omega] at this
            have J := I2 a h2 b h4
            have K := hg _ _ _ _ _ _ _ _ (LC a h1 h2).1 (LC a h1 h2).2.1 (UR b h3 h4).1
              (UR b h3 h4).2.1 J.1 J.2.1 this
            have w := Fit.wf J.1 K.1 K.2
            have dd := K.1.dims J.1
            exact ⟨w.1, w.2, by rw [dd.1, J.2.2.1], by rw [dd.2, J.2.2.2]⟩
          cases e
          constructor
          · intro a ha b hb hab
            show good (if _ then _ else _) a b
            split
            · rename_i e; obtain ⟨rfl, rfl⟩ := e
              exact ⟨X.1.1, X.1.2.1, by rw [X.1.2.2.1, D.2.2.1], by rw [X.1.2.2.2, D.2.2.2]⟩
            · split
              · rename_i e; obtain ⟨rfl, e⟩ := e
                exact LC a e ha
              · split
                · have J := I2 a ha b hb
                  exact ⟨trivial, trivial, J.2.2.1, J.2.2.2⟩
                · exact I1 a ha b hb (by omega)
          · intro a ha b hb
            show good (if _ then _ else _) a b
            split
            · rename_i e; obtain ⟨rfl, rfl⟩ := e
              exact ⟨X.2.1, X.2.2.1, by rw [X.2.2.2.1, D.2.2.1], by rw [X.2.2.2.2, D.2.2.2]⟩
            · split
              · have J := I2 a ha b hb
                exact ⟨trivial, trivial, J.2.2.1, J.2.2.2⟩
              · split
                · rename_i e; obtain ⟨rfl, e⟩ := e
                  exact UR b e hb
                · split
                  · rename_i e
                    exact UP a e.1 ha b e.2 hb
                  · exact I2 a ha b hb
      have fin : ∀ (X : Nat → Nat → Mat R), (∀ a < p, ∀ b < q, good (X a b) a b) →
          (Mat.hier p q X).WF ∧ (Mat.hier p q X).Square ∧
          (Mat.hier p q X).nRows = (Mat.hier p q A).nRows ∧
          (Mat.hier p q X).nCols = (Mat.hier p q A).nCols := by
        intro X hX
        have G := hier_grid (blk := X) (h := fun i => (A i 0).nRows) (w := fun j => (A 0 j).nCols)
          hA0.1 hA0.2.1 (fun i hi j hj => ⟨(hX i hi j hj).1,
            by rw [(hX i hi j hj).2.2.1, (hA0.2.2 i hi j hj).2.1],
            by rw [(hX i hi j hj).2.2.2, (hA0.2.2 i hi j hj).2.2]⟩)
        exact ⟨G.1, fun i hi j hj => (hX i hi j hj).2.1, G.2.1, G.2.2.1⟩
      exact ⟨fin _ (fun a ha b hb => inv.1 a ha b hb (Or.inl ha)), fin _ inv.2⟩

end

/-! ### construction -/

theorem assign_fit {br bc : Nat} {s s' : Nat → Nat → Mat R} {pi pj : Int} {b : Mat R}
    (hs : ∀ i j, (s i j).Square) (hb : b.Square) (h : ClusterTree.assign br bc s pi pj b = .ok s') :
    ∀ i j, (s' i j).Square := by
  unfold ClusterTree.assign at h
  split at h
  · split at h
    · cases h
      intro i j
      show Square (if _ then _ else _)
      split
      · exact hb
      · exact hs i j
    · cases h
  · cases h

/-- All low-rank blocks of a constructed matrix have a square middle factor. -/
theorem toMat_square {K : Type} [Field K] [LinearOrder K] {a : Admis K} {fill : FillFn R}
    {compress : Dense R → Except Err (LowRank R)} (hc : ∀ d l, compress d = .ok l → l.Square)
    (tr : ClusterTree) : ∀ {M : Mat R}, tr.toMat a fill compress = .ok M → M.Square := by
  induction tr with
  | leaf => intro M h; cases h
  | node t ch ih =>
    intro M h
    rw [ClusterTree.toMat, except_bind_eq_ok] at h
    obtain ⟨blk, hb, h⟩ := h
    cases h
    have : ∀ i j, (blk i j).Square := by
      refine loop_inv (fun _ (s : Nat → Nat → Mat R) => ∀ i j, (s i j).Square)
        (by intro _ _; trivial) ?_ hb
      intro i _ s s' hs e
      refine loop_inv (fun _ (s : Nat → Nat → Mat R) => ∀ i j, (s i j).Square) hs ?_ e
      intro j _ s s' hs e
      simp only [except_bind_eq_ok] at e
      obtain ⟨b, ⟨adm, -, hb⟩, e⟩ := e
      refine assign_fit hs ?_ e
      split at hb
      · simp only [except_bind_eq_ok] at hb
        obtain ⟨d, -, l, hl, hb⟩ := hb
        cases hb
        exact hc d l hl
      · split at hb
        · simp only [except_bind_eq_ok] at hb
          obtain ⟨d, -, hb⟩ := hb
          cases hb
          trivial
        · exact ih i j hb
    exact fun i _ j _ => this i j

end Mat
end Verif
