import Verif.Lemmas.GemmTop

set_option linter.unusedSectionVars false
set_option linter.unusedVariables false

namespace Verif
open Finset

variable {R : Type} [CommRing R]

namespace Mat

/-! ### structure is kept -/

theorem SameShape.even {A B : Mat R} (h : A.SameShape B) (hA : A.WF) (he : A.Even) : B.Even := by
  induction A generalizing B with
  | dense d => cases B <;> first | exact h.elim | trivial
  | lowRank d => cases B <;> first | exact h.elim | trivial
  | empty => cases B <;> first | exact h.elim | trivial
  | hier br bc blk ih =>
    have hd := h.dims hA
    cases B <;> try exact h.elim
    obtain ⟨rfl, rfl, h⟩ := h
    have hA' := hA
    simp only [WF] at hA'
    simp only [Even] at he ⊢
    simp only [nRows, nCols] at hd
    rw [hd.1, hd.2]
    intro i hi j hj
    have e := he i hi j hj
    have d := (h i hi j hj).dims (hA'.2.2 i hi j hj).1
    rw [d.1, d.2]
    exact ⟨ih i j (h i hi j hj) (hA'.2.2 i hi j hj).1 e.1, e.2⟩

theorem SameShape.subdiv {b : Nat} {A B : Mat R} (h : A.SameShape B) (he : A.Subdiv b) : B.Subdiv b := by
  induction A generalizing B with
  | dense d => cases B <;> first | exact h.elim | trivial
  | lowRank d => cases B <;> first | exact h.elim | trivial
  | empty => exact he.elim
  | hier br bc blk ih =>
    cases B <;> try exact h.elim
    obtain ⟨rfl, rfl, h⟩ := h
    obtain ⟨rfl, rfl, he⟩ := he
    exact ⟨rfl, rfl, fun i hi j hj => ih i j (h i hi j hj) (he i hi j hj)⟩

theorem SameShape.depth {A B : Mat R} (h : A.SameShape B) : B.depth = A.depth := by
  induction A generalizing B with
  | dense d => cases B <;> first | exact h.elim | rfl
  | lowRank d => cases B <;> first | exact h.elim | rfl
  | empty => cases B <;> first | exact h.elim | rfl
  | hier br bc blk ih =>
    cases B <;> try exact h.elim
    obtain ⟨rfl, rfl, h⟩ := h
    simp only [Mat.depth]
    congr 1
    refine Finset.sup_congr rfl (fun i hi => Finset.sup_congr rfl (fun j hj => ?_))
    exact ih i j (h i (Finset.mem_range.1 hi) j (Finset.mem_range.1 hj))

theorem SameShape.regular {b : Nat} {A B : Mat R} (h : A.SameShape B) (hB : B.WF) (hA : A.Regular b) :
    B.Regular b := ⟨hB, h.even hA.wf hA.even, h.subdiv hA.sub⟩

theorem SameShape.noEmpty {A B : Mat R} (h : A.SameShape B) (he : A.NoEmpty) : B.NoEmpty := by
  induction A generalizing B with
  | dense d => cases B <;> first | exact h.elim | trivial
  | lowRank d => cases B <;> first | exact h.elim | trivial
  | empty => exact he.elim
  | hier br bc blk ih =>
    cases B <;> try exact h.elim
    obtain ⟨rfl, rfl, h⟩ := h
    exact fun i hi j hj => ih i j (h i hi j hj) (he i hi j hj)

theorem Subdiv.noEmpty {b : Nat} {A : Mat R} (h : A.Subdiv b) : A.NoEmpty := by
  induction A with
  | dense d => trivial
  | lowRank d => trivial
  | empty => exact h.elim
  | hier br bc blk ih =>
    exact fun i hi j hj => ih i j (h.2.2 i hi j hj)

theorem DenseLeaves.all {A : Mat R} (h : A.DenseLeaves) (Q : LowRank R → Prop) : A.All Q := by
  induction A with
  | dense d => trivial
  | lowRank l => exact h.elim
  | empty => exact h.elim
  | hier br bc blk ih => exact fun i hi j hj => ih i j (h i hi j hj)

theorem DenseLeaves.noEmpty {A : Mat R} (h : A.DenseLeaves) : A.NoEmpty := by
  induction A with
  | dense d => trivial
  | lowRank l => exact h.elim
  | empty => exact h.elim
  | hier br bc blk ih => exact fun i hi j hj => ih i j (h i hi j hj)

theorem Regular.block {b br bc : Nat} {blk : Nat → Nat → Mat R} (h : (Mat.hier br bc blk).Regular b)
    {i j : Nat} (hi : i < br) (hj : j < bc) : (blk i j).Regular b := by
  have w := h.wf
  have e := h.even
  simp only [WF] at w
  simp only [Even] at e
  exact ⟨(w.2.2 i hi j hj).1, (e i hi j hj).1, h.sub.2.2 i hi j hj⟩

theorem Regular.opBlk {b br bc : Nat} {blk : Nat → Nat → Mat R} (h : (Mat.hier br bc blk).Regular b)
    {t : Bool} {i j : Nat} (hi : i < b) (hj : j < b) : (opBlk t blk i j).Regular b := by
  obtain ⟨e1, e2, -⟩ := h.sub
  cases t
  · exact h.block (by omega) (by omega)
  · exact h.block (by omega) (by omega)

theorem opBlk_depth {br bc : Nat} {blk : Nat → Nat → Mat R} {t : Bool} {i j : Nat}
    (hi : i < opDim0 t br bc) (hj : j < opDim1 t br bc) :
    (opBlk t blk i j).depth < (Mat.hier br bc blk).depth := by
  cases t
  · exact depth_block hi hj
  · exact depth_block hj hi

/-! ### even grids -/

/-- Splitting `n` elements into `k` equal parts gives a partition. -/
def ESplit (n k : Nat) : Prop := IsPartition ⟨0, n⟩ ((⟨0, n⟩ : IndexRange).split k)

theorem esplit_one (n : Nat) : ESplit n 1 := split_one_partition n

/-- Block heights and widths of an even matrix, after transposition. -/
theorem even_grid {t : Bool} {p q : Nat} {A : Nat → Nat → Mat R} (hA : (Mat.hier p q A).WF)
    (he : (Mat.hier p q A).Even) :
    ESplit ((Mat.hier p q A).opRows t) (opDim0 t p q) ∧ ESplit ((Mat.hier p q A).opCols t) (opDim1 t p q) ∧
    ∀ i < opDim0 t p q, ∀ j < opDim1 t p q,
      (opBlk t A i j).opRows t = evenSize ((Mat.hier p q A).opRows t) (opDim0 t p q) i ∧
      (opBlk t A i j).opCols t = evenSize ((Mat.hier p q A).opCols t) (opDim1 t p q) j := by
  have hA' := hA
  simp only [WF] at hA'
  obtain ⟨p1, p2, p3⟩ := Even.parts he hA'.1 hA'.2.1
  cases t
  · exact ⟨p1, p2, fun i hi j hj => p3 i hi j hj⟩
  · exact ⟨p2, p1, fun i hi j hj => ⟨(p3 j hj i hi).2, (p3 j hj i hi).1⟩⟩

theorem splitChild_evenSize {n k i : Nat} (h : ESplit n k) (hi : i < k) :
    ((evenSize n k i : Nat) : Int) = ((⟨0, n⟩ : IndexRange).splitChild k i).n := by
  have hl : i < ((⟨0, n⟩ : IndexRange).split k).length := by simpa using hi
  have := partition_nonneg h hl
  rw [rangeAt_eq hl, IndexRange.getElem_split] at this
  exact this.symm

theorem split_leaf_total {A : Mat R} (hA : A.WF) (hl : A.Leaf) {nr nc : Nat} (hr : 1 ≤ nr) (hc : 1 ≤ nc)
    (h1 : ESplit A.nRows nr) (h2 : ESplit A.nCols nc) :
    ∃ b, A.split nr nc = .ok (.hier nr nc b) ∧
      IsSplitOf A nr nc (evenSize A.nRows nr) (evenSize A.nCols nc) b ∧
      ∀ i < nr, ∀ j < nc, ∃ r c m n, b i j = A.subBlock r c m n := by
  obtain ⟨b, hM, hb⟩ := splitOmm_leaf hA hl h1 h2
  simp only [IndexRange.length_split] at hM hb
  have hM' : A.split nr nc = .ok (.hier nr nc b) := by
    cases A <;> exact hM
  obtain ⟨b', e', S⟩ := split_isSplit hA hr hc hM'
  injection e' with _ _ e'
  subst e'
  exact ⟨b, hM', S, fun i hi j hj => ⟨_, _, _, _, hb i hi j hj⟩⟩

theorem split_dense_total {a : Dense R} {nr nc : Nat} (hr : 1 ≤ nr) (hc : 1 ≤ nc)
    (h1 : ESplit a.rows nr) (h2 : ESplit a.cols nc) :
    ∃ b, (Mat.dense a).split nr nc = .ok (.hier nr nc b) ∧ (Mat.hier nr nc b).WF ∧
      (Mat.hier nr nc b).Even ∧ SameEntries (.hier nr nc b) (.dense a) ∧
      (∀ i < nr, ∀ j < nc, ∃ d, b i j = .dense d) := by
  obtain ⟨b, hM', S, -⟩ := split_leaf_total (A := .dense a) trivial trivial hr hc h1 h2
  obtain ⟨b', e, w, same, hb⟩ := split_dense_leaves hr hc hM'
  injection e with _ _ e
  subst e
  refine ⟨b, hM', w, ?_, same, hb⟩
  simp only [Even]
  intro i hi j hj
  have d := S.dims i hi j hj
  have n1 : (Mat.hier nr nc b).nRows = a.rows := same.1
  have n2 : (Mat.hier nr nc b).nCols = a.cols := same.2.1
  simp only [nRows, nCols] at n1 n2
  rw [n1, n2]
  refine ⟨?_, ?_, ?_⟩
  · obtain ⟨x, hx⟩ := hb i hi j hj
    rw [hx]; trivial
  · rw [d.2.1]; exact splitChild_evenSize h1 hi
  · rw [d.2.2]; exact splitChild_evenSize h2 hj

/-! ### leaf operations return -/

theorem Dense_gemm_total {A B C : Dense R} {α β : R} {ta tb : Bool}
    (h1 : (dop ta A).rows = C.rows) (h2 : (dop ta A).cols = (dop tb B).rows)
    (h3 : (dop tb B).cols = C.cols) : ∃ D, Dense.gemm A B C α β ta tb = .ok D := by
  cases ta <;> cases tb <;> exact ⟨_, Dense_gemm_ok h1 h2 h3⟩

theorem Dense_gemmNew_total {A B : Dense R} {α : R} {ta tb : Bool}
    (h2 : (dop ta A).cols = (dop tb B).rows) : ∃ D, Dense.gemmNew A B α ta tb = .ok D := by
  unfold Dense.gemmNew
  have e : decide ((if ta then A.rows else A.cols) = if tb then B.cols else B.rows) = true := by
    cases ta <;> cases tb <;> simpa [dop, Dense.transpose] using h2
  obtain ⟨D, hD⟩ := Dense_gemm_total (A := A) (B := B) (α := α) (β := (0 : R))
    (C := Dense.zero (if ta then A.cols else A.rows) (if tb then B.rows else B.cols)) (ta := ta) (tb := tb)
    (by cases ta <;> rfl) h2 (by cases tb <;> rfl)
  exact ⟨D, by rw [e]; exact hD⟩

theorem addLowRank_total {a : Dense R} {b : LowRank R} (hb : b.WF) (h0 : a.rows = b.dim0)
    (h1 : a.cols = b.dim1) : ∃ d, a.addLowRank b = .ok d := by
  unfold Dense.addLowRank
  obtain ⟨US, hU⟩ := Dense_gemmNew_total (A := b.U) (B := b.S) (α := (1 : R)) (ta := false) (tb := false)
    (by show b.U.cols = b.S.rows; rw [hb.ucols, hb.srows])
  obtain ⟨e0, e1, e2, -⟩ := Dense_gemmNew_spec hU
  obtain ⟨d, hd⟩ := Dense_gemm_total (A := US) (B := b.V) (C := a) (α := (1 : R)) (β := 1) (ta := false) (tb := false)
    (by show US.rows = a.rows; rw [e1, h0]; exact hb.urows) (by show US.cols = b.V.rows; rw [e2]; exact hb.vrows.symm)
    (by show b.V.cols = a.cols; rw [h1]; exact hb.vcols)
  exact ⟨d, by rw [hU]; exact hd⟩

theorem scale_total {o : LrOps R} {sq : Prop} {Q : LowRank R → Prop} (ht : o.Total sq Q) {A : Mat R}
    (hE : A.NoEmpty) (hQ : A.All Q) (β : R) : ∃ A', A.scale β = .ok A' ∧ A'.All Q := by
  induction A with
  | dense d => exact ⟨_, rfl, trivial⟩
  | lowRank l => exact ⟨_, rfl, ht.scale l β hQ⟩
  | empty => exact hE.elim
  | hier br bc blk ih =>
    obtain ⟨g, hg⟩ := collect2_exists (m := br) (n := bc) (f := fun i j => (blk i j).scale β)
      (fun i hi j hj => by
        obtain ⟨x, hx, -⟩ := ih i j (hE i hi j hj) (hQ i hi j hj)
        exact ⟨x, hx⟩)
    refine ⟨.hier br bc g, by simp only [Mat.scale, hg]; rfl, fun i hi j hj => ?_⟩
    obtain ⟨x, hx, q⟩ := ih i j (hE i hi j hj) (hQ i hi j hj)
    have := collect2_ok hg i hi j hj
    rw [hx] at this
    rw [← Except.ok.inj this]
    exact q

theorem addLr_total {o : LrOps R} {sq : Prop} {Q : LowRank R → Prop} (ht : o.Total sq Q) {A : Mat R}
    {X : LowRank R} (hA : A.WF) (hE : A.NoEmpty) (hs : A.Square) (he : A.Even) (hQ : A.All Q)
    (hX : X.WF) (hXs : sq → X.Square) (h0 : A.nRows = X.dim0) (h1 : A.nCols = X.dim1) :
    ∃ A', A.addAssign o (.lowRank X) = .ok A' ∧ A'.All Q := by
  induction A generalizing X with
  | dense d =>
    obtain ⟨x, hx⟩ := addLowRank_total hX h0 h1
    exact ⟨.dense x, by simp only [Mat.addAssign, hx]; rfl, trivial⟩
  | lowRank l =>
    obtain ⟨x, hx, q⟩ := ht.add l X hA hs hX hXs h0 h1 hQ
    refine ⟨.lowRank x, ?_, q⟩
    simp only [Mat.addAssign, LrOps.addAssign]
    have e0 : l.dim0 = X.dim0 := h0
    have e1 : l.dim1 = X.dim1 := h1
    simp [e0, e1, assertM, hx]
  | empty => exact hE.elim
  | hier br bc blk ih =>
    have hA' := hA
    simp only [WF] at hA'
    have he' := he
    simp only [Even] at he'
    obtain ⟨p1, p2, p3⟩ := Even.parts he hA'.1 hA'.2.1
    obtain ⟨b, hb, S, sub⟩ := split_leaf_total (A := .lowRank X) hX trivial hA'.1 hA'.2.1
      (by show ESplit X.dim0 br; rw [← h0]; exact p1) (by show ESplit X.dim1 bc; rw [← h1]; exact p2)
    have lrb : ∀ i < br, ∀ j < bc, ∃ x, b i j = .lowRank x ∧ (sq → x.Square) := by
      intro i hi j hj
      obtain ⟨r, c, m, n, e⟩ := sub i hi j hj
      refine ⟨_, e, fun h => ?_⟩
      have := hXs h
      simp only [LowRank.Square, LowRank.ofFactors] at this ⊢
      exact this.trans hX.srows.symm
    have key : ∀ i < br, ∀ j < bc, ∃ x, (blk i j).addAssign o (b i j) = .ok x ∧ x.All Q := by
      intro i hi j hj
      obtain ⟨x, hx, xs⟩ := lrb i hi j hj
      have d := S.dims i hi j hj
      rw [hx] at d ⊢
      refine ih i j (hA'.2.2 i hi j hj).1 (hE i hi j hj) (hs i hi j hj) (he' i hi j hj).1 (hQ i hi j hj)
        d.1 xs ?_ ?_
      · rw [(p3 i hi j hj).1, h0]; exact d.2.1.symm
      · rw [(p3 i hi j hj).2, h1]; exact d.2.2.symm
    obtain ⟨g, hg⟩ := collect2_exists (m := br) (n := bc) (f := fun i j => do
        assertM (decide (i < br))
        assertM (decide (j < bc))
        (blk i j).addAssign o (b i j)) (fun i hi j hj => by
        obtain ⟨x, hx, -⟩ := key i hi j hj
        exact ⟨x, by simp [assertM, hi, hj, hx]⟩)
    refine ⟨.hier br bc g, by simp only [Mat.addAssign, hb, hg, except_bind_ok], fun i hi j hj => ?_⟩
    obtain ⟨x, hx, q⟩ := key i hi j hj
    have := collect2_ok hg i hi j hj
    simp [assertM, hi, hj, hx] at this
    rw [← this]
    exact q

theorem scaleAdd_total {o : LrOps R} {sq : Prop} {Q : LowRank R → Prop} (ht : o.Total sq Q) {C : Mat R}
    {X : LowRank R} (hC : C.WF) (hE : C.NoEmpty) (hs : C.Square) (he : C.Even) (hQ : C.All Q)
    (hX : X.WF) (hXs : sq → X.Square) (h0 : C.nRows = X.dim0) (h1 : C.nCols = X.dim1) (β : R) :
    ∃ C', scaleAdd o C β X = .ok C' ∧ C'.All Q := by
  obtain ⟨D, hD, q⟩ := scale_total ht hE hQ β
  obtain ⟨w, s, -⟩ := scale_shape hC hD
  have d := s.dims hC
  obtain ⟨C', h, q'⟩ := addLr_total ht w (s.noEmpty hE) (scale_square hs hD) (s.even hC he) q hX hXs
    (by rw [d.1, h0]) (by rw [d.2, h1])
  exact ⟨C', by rw [scaleAdd, hD]; exact h, q'⟩

/-- What is assumed of a target matrix. -/
structure Target (Q : LowRank R → Prop) (C : Mat R) : Prop where
  wf : C.WF
  ne : C.NoEmpty
  sqr : C.Square
  even : C.Even
  all : C.All Q

theorem target_dense (Q : LowRank R → Prop) (d : Dense R) : (Mat.dense d).Target Q :=
  ⟨trivial, trivial, trivial, trivial, trivial⟩

theorem Target.shape {Q : LowRank R → Prop} {C C' : Mat R} (h : C.Target Q) (hs : C.SameShape C')
    (hw : C'.WF) (hq : C'.Square) (ha : C'.All Q) : C'.Target Q :=
  ⟨hw, hs.noEmpty h.ne, hq, hs.even h.wf h.even, ha⟩

theorem Target.block {Q : LowRank R → Prop} {m n : Nat} {C : Nat → Nat → Mat R}
    (h : (Mat.hier m n C).Target Q) {i j : Nat} (hi : i < m) (hj : j < n) : (C i j).Target Q := by
  have w := h.wf
  have e := h.even
  simp only [WF] at w
  simp only [Even] at e
  exact ⟨(w.2.2 i hi j hj).1, h.ne i hi j hj, h.sqr i hi j hj, (e i hi j hj).1, h.all i hi j hj⟩

theorem ofFactors_dims {U S V : Dense R} : (LowRank.ofFactors U S V).dim0 = U.rows ∧
    (LowRank.ofFactors U S V).dim1 = V.cols := ⟨rfl, rfl⟩

theorem RankSafe.sqL {sq : Prop} {a : LowRank R} {B : Mat R} (ha : a.WF) (h : RankSafe sq (.lowRank a) B)
    (t : Bool) : sq → (lop t a).S.cols = (lop t a).S.rows := fun hs => by
  obtain ⟨k, h1, -⟩ := h hs
  have := lop_uniform (t := t) ha h1
  rw [this.1, this.2]

theorem RankSafe.sqR {sq : Prop} {b : LowRank R} {A : Mat R} (hb : b.WF) (h : RankSafe sq A (.lowRank b))
    (t : Bool) : sq → (lop t b).S.cols = (lop t b).S.rows := fun hs => by
  obtain ⟨k, -, h1⟩ := h hs
  have := lop_uniform (t := t) hb h1
  rw [this.1, this.2]

theorem lop_opRows (t : Bool) {l : LowRank R} (h : l.WF) : (Mat.lowRank l).opRows t = (lop t l).U.rows := by
  cases t
  · exact h.urows.symm
  · exact h.vcols.symm

theorem lop_opCols (t : Bool) {l : LowRank R} (h : l.WF) : (Mat.lowRank l).opCols t = (lop t l).V.cols := by
  cases t
  · exact h.vcols.symm
  · exact h.urows.symm

theorem lop_US {t : Bool} {l : LowRank R} (h : l.WF) : (lop t l).U.cols = (lop t l).S.rows := by
  have w := lop_wf (t := t) h
  rw [w.ucols, w.srows]

theorem lop_SV {t : Bool} {l : LowRank R} (h : l.WF) : (lop t l).S.cols = (lop t l).V.rows :=
  (lop_wf (t := t) h).vrows.symm

variable {o : LrOps R} {sq : Prop} {Q : LowRank R → Prop} {ta tb : Bool}

/-- `C *= beta; C += U S V` with `U S = ` left half of a low-rank factor. -/
theorem left_total (ht : o.Total sq Q) {a : LowRank R} (ha : a.WF) {B C : Mat R} {V : Dense R}
    (hr : RankSafe sq (.lowRank a) B) (hd : GemmDims ta tb (.lowRank a) B C) (hC : C.Target Q)
    (h0 : V.rows = (lop ta a).S.cols) (h1 : V.cols = B.opCols tb) (β : R) :
    ∃ C', scaleAdd o C β (LowRank.ofFactors (lop ta a).U (lop ta a).S V) = .ok C' ∧ C'.All Q :=
  scaleAdd_total ht hC.wf hC.ne hC.sqr hC.even hC.all (ofFactors_wf (lop_US ha) h0)
    (hr.sqL ha ta) (by rw [← hd.rows, lop_opRows ta ha]; rfl) (by rw [← hd.cols, ← h1]; rfl) β

theorem right_total (ht : o.Total sq Q) {b : LowRank R} (hb : b.WF) {A C : Mat R} {U : Dense R}
    (hr : RankSafe sq A (.lowRank b)) (hd : GemmDims ta tb A (.lowRank b) C) (hC : C.Target Q)
    (h0 : U.cols = (lop tb b).S.rows) (h1 : U.rows = A.opRows ta) (β : R) :
    ∃ C', scaleAdd o C β (LowRank.ofFactors U (lop tb b).S (lop tb b).V) = .ok C' ∧ C'.All Q :=
  scaleAdd_total ht hC.wf hC.ne hC.sqr hC.even hC.all (ofFactors_wf h0 (lop_SV hb).symm)
    (hr.sqR hb tb) (by rw [← hd.rows, ← h1]; rfl) (by rw [← hd.cols, lop_opCols tb hb]; rfl) β

theorem gemmLrD_total (ht : o.Total sq Q) {a : LowRank R} {b : Dense R} {C : Mat R} (ha : a.WF)
    (hC : C.Target Q) (hr : RankSafe sq (.lowRank a) (.dense b))
    (hd : GemmDims ta tb (.lowRank a) (.dense b) C) (α β : R) :
    ∃ C', gemmLrD o a b C α β ta tb = .ok C' ∧ C'.All Q := by
  have hin := hd.inner
  rw [lop_opCols ta ha, ← dop_rows] at hin
  obtain ⟨V, hV⟩ := Dense_gemmNew_total (A := if ta then a.U else a.V) (B := b) (α := α) (ta := ta) (tb := tb)
    (by rw [dop_V]; exact hin)
  obtain ⟨-, v1, v2, -⟩ := Dense_gemmNew_spec hV
  rw [dop_V] at v1
  obtain ⟨C', h, q⟩ := left_total (V := V) ht ha hr hd hC (by rw [v1, lop_SV ha]) (by rw [v2, dop_cols]) β
  exact ⟨C', by rw [gemmLrD, hV, ← lop_U, ← lop_S]; exact h, q⟩

theorem gemmDLr_total (ht : o.Total sq Q) {a : Dense R} {b : LowRank R} {C : Mat R} (hb : b.WF)
    (hC : C.Target Q) (hr : RankSafe sq (.dense a) (.lowRank b))
    (hd : GemmDims ta tb (.dense a) (.lowRank b) C) (α β : R) :
    ∃ C', gemmDLr o a b C α β ta tb = .ok C' ∧ C'.All Q := by
  have hin := hd.inner
  rw [lop_opRows tb hb, ← dop_cols] at hin
  obtain ⟨U, hU⟩ := Dense_gemmNew_total (A := a) (B := if tb then b.V else b.U) (α := α) (ta := ta) (tb := tb)
    (by rw [dop_U]; exact hin)
  obtain ⟨-, v1, v2, -⟩ := Dense_gemmNew_spec hU
  rw [dop_U] at v2
  obtain ⟨C', h, q⟩ := right_total (U := U) ht hb hr hd hC (by rw [v2, lop_US hb]) (by rw [v1, dop_rows]) β
  exact ⟨C', by rw [gemmDLr, hU, ← lop_V, ← lop_S]; exact h, q⟩

theorem gemmLrLr_total (ht : o.Total sq Q) {a b : LowRank R} {C : Mat R} (ha : a.WF) (hb : b.WF)
    (hC : C.Target Q) (hr : RankSafe sq (.lowRank a) (.lowRank b))
    (hd : GemmDims ta tb (.lowRank a) (.lowRank b) C) (α β : R) :
    ∃ C', gemmLrLr o a b C α β ta tb = .ok C' ∧ C'.All Q := by
  have hin := hd.inner
  rw [lop_opCols ta ha, lop_opRows tb hb] at hin
  obtain ⟨x, hx⟩ := Dense_gemmNew_total (A := a.S) (B := if ta then a.U else a.V) (α := (1 : R))
    (ta := ta) (tb := ta) (by rw [dop_V, dop_S]; exact lop_SV ha)
  obtain ⟨-, x1, x2, -⟩ := Dense_gemmNew_spec hx
  obtain ⟨y, hy⟩ := Dense_gemmNew_total (A := if tb then b.V else b.U) (B := b.S) (α := (1 : R))
    (ta := tb) (tb := tb) (by rw [dop_U, dop_S]; exact lop_US hb)
  obtain ⟨-, y1, y2, -⟩ := Dense_gemmNew_spec hy
  rw [dop_S] at x1 y2
  rw [dop_V] at x2
  rw [dop_U] at y1
  obtain ⟨S, hS⟩ := Dense_gemmNew_total (A := x) (B := y) (α := α) (ta := false) (tb := false)
    (by show x.cols = y.rows; rw [x2, y1, hin])
  obtain ⟨-, s1, s2, -⟩ := Dense_gemmNew_spec hS
  simp only [dop_false] at s1 s2
  obtain ⟨C', h, q⟩ := scaleAdd_total (X := LowRank.ofFactors (lop ta a).U S (lop tb b).V) ht hC.wf hC.ne
    hC.sqr hC.even hC.all
    (ofFactors_wf (by rw [s1, x1, lop_US ha]) (by rw [s2, y2, lop_SV hb]))
    (fun hs => by
      obtain ⟨k, h1, h2⟩ := hr hs
      have e1 := lop_uniform (t := ta) ha h1
      have e2 := lop_uniform (t := tb) hb h2
      show S.cols = S.rows
      rw [s1, s2, x1, y2, e1.1, e2.2])
    (by rw [← hd.rows, lop_opRows ta ha]; rfl) (by rw [← hd.cols, lop_opCols tb hb]; rfl) β
  refine ⟨C', ?_, q⟩
  rw [gemmLrLr, hx, hy, ← lop_U, ← lop_V]
  simp only [except_bind_ok, hS]
  exact h

theorem leafD_total {A B : Mat R} (g : GemmT R) (hA : A.WF) (hB : B.WF) (lA : A.Leaf) (lB : B.Leaf)
    {c : Dense R} (hd : GemmDims ta tb A B (.dense c)) (α β : R) :
    ∃ d, gemmToDense g A B c α β ta tb = .ok (.dense d) := by
  have hin := hd.inner
  have hro := hd.rows
  have hco := hd.cols
  simp only [nRows, nCols] at hro hco
  cases A with
  | hier => exact lA.elim
  | empty => exact lA.elim
  | dense a =>
    rw [← dop_cols] at hin
    rw [← dop_rows] at hro
    cases B with
    | hier => exact lB.elim
    | empty => exact lB.elim
    | dense b =>
      rw [← dop_rows] at hin
      rw [← dop_cols] at hco
      obtain ⟨d, h⟩ := Dense_gemm_total (α := α) (β := β) hro hin hco
      exact ⟨d, by simp only [gemmToDense, h]; rfl⟩
    | lowRank b =>
      rw [lop_opRows tb hB] at hin
      rw [lop_opCols tb hB] at hco
      obtain ⟨x, hx⟩ := Dense_gemmNew_total (A := a) (B := if tb then b.V else b.U) (α := α) (ta := ta)
        (tb := tb) (by rw [dop_U]; exact hin)
      obtain ⟨-, x1, x2, -⟩ := Dense_gemmNew_spec hx
      rw [dop_U] at x2
      obtain ⟨y, hy⟩ := Dense_gemmNew_total (A := x) (B := b.S) (α := (1 : R)) (ta := false)
        (tb := tb) (by rw [dop_S]; exact x2.trans (lop_US hB))
      obtain ⟨-, y1, y2, -⟩ := Dense_gemmNew_spec hy
      rw [dop_S] at y2
      obtain ⟨d, h⟩ := Dense_gemm_total (A := y) (B := if tb then b.U else b.V) (C := c) (α := (1 : R)) (β := β)
        (ta := false) (tb := tb) (by rw [dop_false, y1, dop_false, x1]; exact hro)
        (by rw [dop_false, y2, dop_V]; exact lop_SV hB) (by rw [dop_V]; exact hco)
      refine ⟨d, ?_⟩
      simp only [gemmToDense, gemmDLrD, hx, hy, h, except_bind_ok]
  | lowRank a =>
    rw [lop_opCols ta hA] at hin
    rw [lop_opRows ta hA] at hro
    cases B with
    | hier => exact lB.elim
    | empty => exact lB.elim
    | dense b =>
      rw [← dop_rows] at hin
      rw [← dop_cols] at hco
      obtain ⟨x, hx⟩ := Dense_gemmNew_total (A := if ta then a.U else a.V) (B := b) (α := α) (ta := ta)
        (tb := tb) (by rw [dop_V]; exact hin)
      obtain ⟨-, x1, x2, -⟩ := Dense_gemmNew_spec hx
      rw [dop_V] at x1
      obtain ⟨y, hy⟩ := Dense_gemmNew_total (A := a.S) (B := x) (α := (1 : R)) (ta := ta)
        (tb := false) (by rw [dop_S, dop_false, x1]; exact lop_SV hA)
      obtain ⟨-, y1, y2, -⟩ := Dense_gemmNew_spec hy
      rw [dop_S] at y1
      rw [dop_false] at y2
      obtain ⟨d, h⟩ := Dense_gemm_total (A := if ta then a.V else a.U) (B := y) (C := c) (α := (1 : R)) (β := β)
        (ta := ta) (tb := false) (by rw [dop_U]; exact hro)
        (by rw [dop_false, y1, dop_U]; exact lop_US hA) (by rw [dop_false, y2, x2]; exact hco)
      refine ⟨d, ?_⟩
      simp only [gemmToDense, gemmLrDD, hx, hy, h, except_bind_ok]
    | lowRank b =>
      rw [lop_opRows tb hB] at hin
      rw [lop_opCols tb hB] at hco
      obtain ⟨x, hx⟩ := Dense_gemmNew_total (A := if ta then a.U else a.V) (B := if tb then b.V else b.U)
        (α := α) (ta := ta) (tb := tb) (by rw [dop_V, dop_U]; exact hin)
      obtain ⟨-, x1, x2, -⟩ := Dense_gemmNew_spec hx
      rw [dop_V] at x1
      rw [dop_U] at x2
      obtain ⟨y, hy⟩ := Dense_gemmNew_total (A := a.S) (B := x) (α := (1 : R)) (ta := ta)
        (tb := false) (by rw [dop_S, dop_false, x1]; exact lop_SV hA)
      obtain ⟨-, y1, y2, -⟩ := Dense_gemmNew_spec hy
      rw [dop_S] at y1
      rw [dop_false] at y2
      obtain ⟨z, hz⟩ := Dense_gemmNew_total (A := y) (B := b.S) (α := (1 : R)) (ta := false)
        (tb := tb) (by rw [dop_S, dop_false, y2, x2]; exact lop_US hB)
      obtain ⟨-, z1, z2, -⟩ := Dense_gemmNew_spec hz
      rw [dop_S] at z2
      rw [dop_false] at z1
      obtain ⟨v, hv⟩ := Dense_gemmNew_total (A := if ta then a.V else a.U) (B := z) (α := (1 : R)) (ta := ta)
        (tb := false) (by rw [dop_U, dop_false, z1, y1]; exact lop_US hA)
      obtain ⟨-, v1, v2, -⟩ := Dense_gemmNew_spec hv
      rw [dop_U] at v1
      rw [dop_false] at v2
      obtain ⟨d, h⟩ := Dense_gemm_total (A := v) (B := if tb then b.U else b.V) (C := c) (α := (1 : R)) (β := β)
        (ta := false) (tb := tb) (by rw [dop_false, v1]; exact hro)
        (by rw [dop_false, v2, z2, dop_V]; exact lop_SV hB) (by rw [dop_V]; exact hco)
      refine ⟨d, ?_⟩
      simp only [gemmToDense, gemmLrLrD, hx, hy, hz, hv, h, except_bind_ok]

/-! ### block products -/

/-- A product returns for every target of the structure of `C`. -/
def Tot (Q : LowRank R → Prop) (g : GemmT R) (ta tb : Bool) (A B C : Mat R) : Prop :=
  ∀ α β c, C.SameShape c → c.Target Q → ∃ c', g A B c α β ta tb = .ok c' ∧ c'.All Q

theorem gemmHHH_total {ex : Prop} {g : GemmT R} (hg : GemmOk ex sq g) {p q r s m n : Nat}
    {A B C : Nat → Nat → Mat R} (hA : (Mat.hier p q A).WF) (eA : (Mat.hier p q A).Even)
    (hB : (Mat.hier r s B).WF) (eB : (Mat.hier r s B).Even) (hC : (Mat.hier m n C).Target Q)
    (ht : TransSafe ta tb (.hier p q A) (.hier r s B))
    (hr : RankSafe sq (.hier p q A) (.hier r s B))
    (hd : GemmDims ta tb (.hier p q A) (.hier r s B) (.hier m n C))
    (e1 : opDim0 ta p q = m) (e2 : opDim1 ta p q = opDim0 tb r s) (e3 : opDim1 tb r s = n)
    (hblk : ∀ i < m, ∀ k < opDim1 ta p q, ∀ j < n,
      GemmDims ta tb (opBlk ta A i k) (opBlk tb B k j) (C i j) →
      Tot Q g ta tb (opBlk ta A i k) (opBlk tb B k j) (C i j)) (α β : R) :
    ∃ C', gemmHHH g p q A r s B m n C α β ta tb = .ok C' ∧ C'.All Q := by
  obtain ⟨-, -, gA⟩ := even_grid (t := ta) hA eA
  obtain ⟨-, -, gB⟩ := even_grid (t := tb) hB eB
  obtain ⟨-, -, gC⟩ := even_grid (t := false) hC.wf hC.even
  have gA' := grid_hier (t := ta) hA
  have gB' := grid_hier (t := tb) hB
  have key : ∀ i < m, ∀ j < n, ∃ x, loop (opDim1 ta p q) (fun k c =>
      g (opBlk ta A i k) (opBlk tb B k j) c α (if k = 0 then β else 1) ta tb) (C i j) = .ok x ∧
      (x.All Q) := by
    intro i hi j hj
    have dims : ∀ k < opDim1 ta p q, GemmDims ta tb (opBlk ta A i k) (opBlk tb B k j) (C i j) := by
      intro k hk
      have a := gA i (by omega) k hk
      have b := gB k (by omega) j (by omega)
      have c := gC i hi j hj
      refine ⟨?_, ?_, ?_⟩
      · rw [a.1, hd.rows, e1]; exact c.1.symm
      · rw [a.2, hd.inner, b.1, e2]
      · rw [b.2, hd.cols, e3]; exact c.2.symm
    obtain ⟨x, hx, ix⟩ := loop_total (n := opDim1 ta p q) (s := C i j)
      (body := fun k c => g (opBlk ta A i k) (opBlk tb B k j) c α (if k = 0 then β else 1) ta tb)
      (fun _ c => (C i j).SameShape c ∧ c.Target Q) ⟨SameShape.refl _, hC.block hi hj⟩ (by
        intro k hk c ⟨sc, tc⟩
        obtain ⟨c', hc', qc'⟩ := hblk i hi k hk j hj (dims k hk) α (if k = 0 then β else 1) c sc tc
        refine ⟨c', hc', ?_⟩
        obtain ⟨-, P⟩ := hg _ _ _ _ _ _ _ _ (gA'.wf i (by omega) k hk) (gB'.wf k (by omega) j (by omega))
          tc.wf tc.sqr (TransSafe_blocks ht (by omega) hk (by omega) (by omega))
          (RankSafe_blocks hr (by omega) hk (by omega) (by omega)) hc'
        exact ⟨sc.trans P.shape, tc.shape P.shape P.wf P.sqr qc'⟩)
    exact ⟨x, hx, ix.2.all⟩
  obtain ⟨C', h⟩ := collect2_exists (fun i hi j hj => (by
    obtain ⟨x, hx, -⟩ := key i hi j hj
    exact ⟨x, hx⟩ : ∃ x, loop (opDim1 ta p q) (fun k c =>
      g (opBlk ta A i k) (opBlk tb B k j) c α (if k = 0 then β else 1) ta tb) (C i j) = .ok x))
  refine ⟨.hier m n C', ?_, fun i hi j hj => ?_⟩
  · simp only [gemmHHH, e1, e2, e3, decide_true, assertM, if_true, except_bind_ok]
    rw [e2] at h
    rw [h]; rfl
  · obtain ⟨x, hx, q⟩ := key i hi j hj
    have := collect2_ok h i hi j hj
    rw [hx] at this
    rw [← Except.ok.inj this]
    exact q

variable [DecidableEq R]

theorem gemm_succ {n : Nat} {A B C : Mat R} (hd : GemmDims ta tb A B C) (α β : R) :
    gemm o (n + 1) A B C α β ta tb = gemmOmm o (gemm o n) (gemmNew o n) A B C α β ta tb := by
  show (do
      assertM (decide (A.opRows ta = C.nRows))
      assertM (decide (A.opCols ta = B.opRows tb))
      assertM (decide (B.opCols tb = C.nCols))
      gemmOmm o (gemmBoth o n).1 (gemmBoth o n).2 A B C α β ta tb : Except Err (Mat R)) = _
  simp only [hd.rows, hd.inner, hd.cols, decide_true, assertM, if_true, except_bind_ok]
  rfl

theorem gemmNew_succ {n : Nat} {A B : Mat R} (hd : A.opCols ta = B.opRows tb) (α : R) :
    gemmNew o (n + 1) A B α ta tb = gemmNewOmm (gemm o n) (gemmNew o n) A B α ta tb := by
  show (do
      assertM (decide (A.opCols ta = B.opRows tb))
      gemmNewOmm (gemmBoth o n).1 (gemmBoth o n).2 A B α ta tb : Except Err (Mat R)) = _
  simp only [hd, decide_true, assertM, if_true, except_bind_ok]
  rfl

theorem joinDense_total {c : Dense R} {nr nc : Nat} {b : Nat → Nat → Mat R} {CH : Mat R}
    (hb : ∀ i < nr, ∀ j < nc, ∃ d, b i j = .dense d) (h : (Mat.hier nr nc b).SameShape CH) :
    ∃ d, joinDense c CH = .ok (.dense d) := by
  cases CH <;> try exact h.elim
  rename_i br bc blk
  obtain ⟨rfl, rfl, h⟩ := h
  obtain ⟨g, hg⟩ := collect2_exists (m := nr) (n := nc) (f := fun i j => (blk i j).asDense) (by
    intro i hi j hj
    obtain ⟨d, hd⟩ := hb i hi j hj
    have := h i hi j hj
    rw [hd] at this
    cases hx : blk i j <;> rw [hx] at this <;> try exact this.elim
    exact ⟨_, rfl⟩)
  simp only [joinDense, hg, except_bind_ok]
  exact ⟨_, rfl⟩

theorem split_target {c : Dense R} {nr nc : Nat} (hr : 1 ≤ nr) (hc : 1 ≤ nc)
    (h1 : ESplit c.rows nr) (h2 : ESplit c.cols nc) :
    ∃ b, (Mat.dense c).split nr nc = .ok (.hier nr nc b) ∧ (Mat.hier nr nc b).Target Q ∧
      SameEntries (.hier nr nc b) (.dense c) ∧ (∀ i < nr, ∀ j < nc, ∃ d, b i j = .dense d) := by
  obtain ⟨b, h, w, e, s, hb⟩ := split_dense_total hr hc h1 h2
  have dl := dense_leaves hb
  exact ⟨b, h, ⟨w, dl.noEmpty, dl.square, e, dl.all Q⟩, s, hb⟩

/-- A dense target is split, the product with the hierarchical target returns, so
does the product with the dense target. -/
theorem viaSplit {ex : Prop} {g : GemmT R} (hg : GemmOk ex sq g) {A B : Mat R} {c : Dense R} {nr nc : Nat}
    (hA : A.WF) (hB : B.WF) (ht : TransSafe ta tb A B) (hr : RankSafe sq A B)
    (h1 : 1 ≤ nr) (h2 : 1 ≤ nc) (e1 : ESplit c.rows nr) (e2 : ESplit c.cols nc) {α β : R}
    (hd : GemmDims ta tb A B (.dense c))
    (h : ∀ b, (Mat.hier nr nc b).Target Q → (∀ i < nr, ∀ j < nc, ∃ d, b i j = .dense d) →
      GemmDims ta tb A B (.hier nr nc b) → ∃ C', g A B (.hier nr nc b) α β ta tb = .ok C' ∧ C'.All Q) :
    ∃ d, (do
      let CH ← (Mat.dense c).split nr nc
      let CH' ← g A B CH α β ta tb
      joinDense c CH') = .ok (Mat.dense d) := by
  obtain ⟨b, hs, tg, same, hb⟩ := split_target (Q := Q) h1 h2 e1 e2
  obtain ⟨C', hC', -⟩ := h b tg hb ⟨by rw [hd.rows]; exact same.1.symm, hd.inner,
    by rw [hd.cols]; exact same.2.1.symm⟩
  obtain ⟨-, P⟩ := hg _ _ _ _ _ _ _ _ hA hB tg.wf tg.sqr ht hr hC'
  obtain ⟨d, hd⟩ := joinDense_total (c := c) hb P.shape
  exact ⟨d, by rw [hs]; simp only [except_bind_ok, hC', hd]⟩

section Blocks
variable (hf : o.Fits sq) (hT : o.Total sq Q)
include hf hT

theorem hhh_total {n' p q r s m n : Nat} {A B C : Nat → Nat → Mat R} (hA : (Mat.hier p q A).WF)
    (eA : (Mat.hier p q A).Even) (hB : (Mat.hier r s B).WF) (eB : (Mat.hier r s B).Even)
    (hC : (Mat.hier m n C).Target Q) (ht : TransSafe ta tb (.hier p q A) (.hier r s B))
    (hr : RankSafe sq (.hier p q A) (.hier r s B))
    (hd : GemmDims ta tb (.hier p q A) (.hier r s B) (.hier m n C))
    (e1 : opDim0 ta p q = m) (e2 : opDim1 ta p q = opDim0 tb r s) (e3 : opDim1 tb r s = n)
    (hblk : ∀ i < m, ∀ k < opDim1 ta p q, ∀ j < n,
      GemmDims ta tb (opBlk ta A i k) (opBlk tb B k j) (C i j) →
      Tot Q (gemm o n') ta tb (opBlk ta A i k) (opBlk tb B k j) (C i j)) (α β : R) :
    ∃ C', gemm o (n' + 1) (.hier p q A) (.hier r s B) (.hier m n C) α β ta tb = .ok C' ∧ C'.All Q := by
  rw [gemm_succ hd]
  exact gemmHHH_total (gemmBoth_ok hf n').1 hA eA hB eB hC ht hr hd e1 e2 e3 hblk α β

theorem hhd_total {n' p q r s : Nat} {A B : Nat → Nat → Mat R} {c : Dense R} (hA : (Mat.hier p q A).WF)
    (eA : (Mat.hier p q A).Even) (hB : (Mat.hier r s B).WF) (eB : (Mat.hier r s B).Even)
    (ht : TransSafe ta tb (.hier p q A) (.hier r s B))
    (hr : RankSafe sq (.hier p q A) (.hier r s B))
    (hd : GemmDims ta tb (.hier p q A) (.hier r s B) (.dense c))
    (e2 : opDim1 ta p q = opDim0 tb r s) (e3 : ¬(opDim0 ta p q = 1 ∧ opDim1 tb r s = 1))
    (hblk : ∀ i < opDim0 ta p q, ∀ k < opDim1 ta p q, ∀ j < opDim1 tb r s, ∀ d : Dense R,
      GemmDims ta tb (opBlk ta A i k) (opBlk tb B k j) (.dense d) →
      Tot Q (gemm o n') ta tb (opBlk ta A i k) (opBlk tb B k j) (.dense d)) (α β : R) :
    ∃ d, gemm o (n' + 2) (.hier p q A) (.hier r s B) (.dense c) α β ta tb = .ok (.dense d) := by
  obtain ⟨s1, -, -⟩ := even_grid (t := ta) hA eA
  obtain ⟨-, s2, -⟩ := even_grid (t := tb) hB eB
  rw [hd.rows] at s1
  rw [hd.cols] at s2
  obtain ⟨d, h⟩ := viaSplit (Q := Q) (gemmBoth_ok hf (n' + 1)).1 hA hB ht hr (opDim0_pos hA) (opDim1_pos hB)
    s1 s2 (α := α) (β := β) hd (fun b tg hb hd' =>
      hhh_total hf hT hA eA hB eB tg ht hr hd' rfl e2 rfl (fun i hi k hk j hj hdd => by
        obtain ⟨d, e⟩ := hb i hi j hj
        rw [e] at hdd ⊢
        exact hblk i hi k hk j hj d hdd) α β)
  refine ⟨d, ?_⟩
  rw [gemm_succ hd]
  simp only [gemmOmm, gemmToDense, gemmHHD, e2, decide_true, assertM, if_true, except_bind_ok]
  rw [if_neg e3]
  exact h

theorem dhh_total {n' r s m n : Nat} {a : Dense R} {B C : Nat → Nat → Mat R}
    (hB : (Mat.hier r s B).WF) (eB : (Mat.hier r s B).Even)
    (hC : (Mat.hier m n C).Target Q)
    (hr : RankSafe sq (.dense a) (.hier r s B))
    (hd : GemmDims ta tb (.dense a) (.hier r s B) (.hier m n C))
    (e2 : opDim0 tb r s ≠ 1) (e3 : opDim1 tb r s = n)
    (hblk : ∀ i < m, ∀ k < opDim0 tb r s, ∀ j < n, ∀ d : Dense R,
      GemmDims ta tb (.dense d) (opBlk tb B k j) (C i j) →
      Tot Q (gemm o n') ta tb (.dense d) (opBlk tb B k j) (C i j)) (α β : R) :
    ∃ C', gemm o (n' + 2) (.dense a) (.hier r s B) (.hier m n C) α β ta tb = .ok C' ∧ C'.All Q := by
  obtain ⟨s1, -, -⟩ := even_grid (t := tb) hB eB
  obtain ⟨s2, -, -⟩ := even_grid (t := false) hC.wf hC.even
  have s2' : ESplit (Mat.hier m n C).nRows m := s2
  rw [← hd.rows] at s2'
  rw [← hd.inner] at s1
  have hm : 1 ≤ m := opDim0_pos (t := false) hC.wf
  have hk := opDim0_pos (t := tb) hB
  obtain ⟨b, hs, w, ev, same, hb⟩ := split_dense_total (a := a)
    (nr := if ta then opDim0 tb r s else m) (nc := if ta then m else opDim0 tb r s)
    (by split <;> omega) (by split <;> omega)
    (by cases ta; exact s2'; exact s1) (by cases ta; exact s1; exact s2')
  have n1 : ¬(r = 1 ∧ s = 1) := by
    rintro ⟨rfl, rfl⟩; apply e2; cases tb <;> rfl
  have n2 : ¬(opDim0 tb r s = 1 ∧ m = 1) := fun h => e2 h.1
  rw [gemm_succ hd]
  simp only [gemmOmm, gemmToHier, gemmDHH, e3, decide_true, assertM, if_true, except_bind_ok, hs]
  rw [if_neg n1, if_neg n2]
  have q0 : opDim0 ta (if ta then opDim0 tb r s else m) (if ta then m else opDim0 tb r s) = m := by
    cases ta <;> rfl
  have q1 : opDim1 ta (if ta then opDim0 tb r s else m) (if ta then m else opDim0 tb r s) =
    opDim0 tb r s := by cases ta <;> rfl
  refine hhh_total hf hT w ev hB eB hC (TransSafe_split_left hb) (hr.left (fun k _ => dense_uniform hb k))
    ⟨by rw [opRows_same same]; exact hd.rows, by rw [opCols_same same]; exact hd.inner, hd.cols⟩
    q0 q1 e3 (fun i hi k hk j hj hdd => ?_) α β
  rw [q1] at hk
  have : ∃ d, opBlk ta b i k = .dense d := by
    cases ta
    · exact hb i hi k hk
    · exact hb k hk i hi
  obtain ⟨d, e⟩ := this
  rw [e] at hdd ⊢
  exact hblk i hi k hk j hj d hdd

theorem hdh_total {n' p q m n : Nat} {b : Dense R} {A C : Nat → Nat → Mat R}
    (hA : (Mat.hier p q A).WF) (eA : (Mat.hier p q A).Even)
    (hC : (Mat.hier m n C).Target Q)
    (hr : RankSafe sq (.hier p q A) (.dense b))
    (hd : GemmDims ta tb (.hier p q A) (.dense b) (.hier m n C))
    (e2 : opDim1 ta p q ≠ 1) (e3 : opDim0 ta p q = m)
    (hblk : ∀ i < m, ∀ k < opDim1 ta p q, ∀ j < n, ∀ d : Dense R,
      GemmDims ta tb (opBlk ta A i k) (.dense d) (C i j) →
      Tot Q (gemm o n') ta tb (opBlk ta A i k) (.dense d) (C i j)) (α β : R) :
    ∃ C', gemm o (n' + 2) (.hier p q A) (.dense b) (.hier m n C) α β ta tb = .ok C' ∧ C'.All Q := by
  obtain ⟨-, s1, -⟩ := even_grid (t := ta) hA eA
  obtain ⟨-, s2, -⟩ := even_grid (t := false) hC.wf hC.even
  have s2' : ESplit (Mat.hier m n C).nCols n := s2
  rw [← hd.cols] at s2'
  rw [hd.inner] at s1
  have hn : 1 ≤ n := opDim1_pos (t := false) hC.wf
  have hk := opDim1_pos (t := ta) hA
  obtain ⟨b', hs, w, ev, same, hb⟩ := split_dense_total (a := b)
    (nr := if tb then n else opDim1 ta p q) (nc := if tb then opDim1 ta p q else n)
    (by split <;> omega) (by split <;> omega)
    (by cases tb; exact s1; exact s2') (by cases tb; exact s2'; exact s1)
  have n1 : ¬(p = 1 ∧ q = 1) := by
    rintro ⟨rfl, rfl⟩; apply e2; cases ta <;> rfl
  have n2 : ¬(opDim1 ta p q = 1 ∧ n = 1) := fun h => e2 h.1
  rw [gemm_succ hd]
  simp only [gemmOmm, gemmToHier, gemmHDH, hs, except_bind_ok]
  rw [if_neg n1, if_neg n2]
  have q0 : opDim0 tb (if tb then n else opDim1 ta p q) (if tb then opDim1 ta p q else n) = opDim1 ta p q := by
    cases tb <;> rfl
  have q1 : opDim1 tb (if tb then n else opDim1 ta p q) (if tb then opDim1 ta p q else n) = n := by
    cases tb <;> rfl
  refine hhh_total hf hT hA eA w ev hC (TransSafe_split_right hb) (hr.right (fun k _ => dense_uniform hb k))
    ⟨hd.rows, by rw [opRows_same same]; exact hd.inner, by rw [opCols_same same]; exact hd.cols⟩
    e3 q0.symm q1 (fun i hi k hk j hj hdd => ?_) α β
  have : ∃ d, opBlk tb b' k j = .dense d := by
    cases tb
    · exact hb k hk j hj
    · exact hb j hj k hk
  obtain ⟨d, e⟩ := this
  rw [e] at hdd ⊢
  exact hblk i hi k hk j hj d hdd

theorem ddh_total {n' m n : Nat} {a b : Dense R} {C : Nat → Nat → Mat R}
    (hC : (Mat.hier m n C).Target Q)
    (hd : GemmDims ta tb (.dense a) (.dense b) (.hier m n C)) (hm : m ≠ 1) (hn : n ≠ 1)
    (hblk : ∀ i < m, ∀ j < n, ∀ d d' : Dense R,
      GemmDims ta tb (.dense d) (.dense d') (C i j) →
      Tot Q (gemm o n') ta tb (.dense d) (.dense d') (C i j)) (α β : R) :
    ∃ C', gemm o (n' + 2) (.dense a) (.dense b) (.hier m n C) α β ta tb = .ok C' ∧ C'.All Q := by
  obtain ⟨s1, s2, -⟩ := even_grid (t := false) hC.wf hC.even
  have s1' : ESplit (Mat.hier m n C).nRows m := s1
  have s2' : ESplit (Mat.hier m n C).nCols n := s2
  rw [← hd.rows] at s1'
  rw [← hd.cols] at s2'
  have hm1 : 1 ≤ m := opDim0_pos (t := false) hC.wf
  have hn1 : 1 ≤ n := opDim1_pos (t := false) hC.wf
  obtain ⟨a', hsa, wa, eva, samea, ha⟩ := split_dense_total (a := a)
    (nr := if ta then 1 else m) (nc := if ta then m else 1)
    (by split <;> omega) (by split <;> omega)
    (by cases ta; exact s1'; exact esplit_one _) (by cases ta; exact esplit_one _; exact s1')
  obtain ⟨b', hsb, wb, evb, sameb, hb⟩ := split_dense_total (a := b)
    (nr := if tb then n else 1) (nc := if tb then 1 else n)
    (by split <;> omega) (by split <;> omega)
    (by cases tb; exact esplit_one _; exact s2') (by cases tb; exact s2'; exact esplit_one _)
  rw [gemm_succ hd]
  simp only [gemmOmm, gemmToHier, gemmDDH, hsa, hsb, except_bind_ok]
  rw [if_neg (fun h => hm h.1), if_neg hn, if_neg hm]
  have q0 : opDim0 ta (if ta then 1 else m) (if ta then m else 1) = m := by
    cases ta <;> rfl
  have q1 : opDim1 ta (if ta then 1 else m) (if ta then m else 1) = 1 := by
    cases ta <;> rfl
  have r0 : opDim0 tb (if tb then n else 1) (if tb then 1 else n) = 1 := by
    cases tb <;> rfl
  have r1 : opDim1 tb (if tb then n else 1) (if tb then 1 else n) = n := by
    cases tb <;> rfl
  refine hhh_total hf hT wa eva wb evb hC (TransSafe_split_left ha)
    (fun _ => ⟨0, dense_uniform ha 0, dense_uniform hb 0⟩)
    ⟨by rw [opRows_same samea]; exact hd.rows, by rw [opRows_same sameb, opCols_same samea]; exact hd.inner,
      by rw [opCols_same sameb]; exact hd.cols⟩
    q0 (q1.trans r0.symm) r1 (fun i hi k hk j hj hdd => ?_) α β
  rw [q1] at hk
  have : ∃ d, opBlk tb b' k j = .dense d := by
    cases tb
    · exact hb k hk j hj
    · exact hb j hj k hk
  obtain ⟨d, e⟩ := this
  have : ∃ d, opBlk ta a' i k = .dense d := by
    cases ta
    · exact ha i hi k hk
    · exact ha k hk i hi
  obtain ⟨d', e'⟩ := this
  rw [e, e'] at hdd ⊢
  exact hblk i hi j hj _ _ hdd

theorem dhd_total {n' r s : Nat} {a c : Dense R} {B : Nat → Nat → Mat R}
    (hB : (Mat.hier r s B).WF) (eB : (Mat.hier r s B).Even)
    (hr : RankSafe sq (.dense a) (.hier r s B))
    (hd : GemmDims ta tb (.dense a) (.hier r s B) (.dense c))
    (e2 : opDim0 tb r s ≠ 1)
    (hblk : ∀ k < opDim0 tb r s, ∀ j < opDim1 tb r s, ∀ d d' : Dense R,
      GemmDims ta tb (.dense d) (opBlk tb B k j) (.dense d') →
      Tot Q (gemm o n') ta tb (.dense d) (opBlk tb B k j) (.dense d')) (α β : R) :
    ∃ d, gemm o (n' + 3) (.dense a) (.hier r s B) (.dense c) α β ta tb = .ok (.dense d) := by
  obtain ⟨-, s2, -⟩ := even_grid (t := tb) hB eB
  rw [hd.cols] at s2
  obtain ⟨d, h⟩ := viaSplit (Q := Q) (gemmBoth_ok hf (n' + 2)).1 (A := .dense a) trivial hB
    (TransSafe_dense_left _ _) hr (Nat.le_refl 1) (opDim1_pos hB)
    (esplit_one _) s2 (α := α) (β := β) hd (fun b tg hb hd' =>
      dhh_total hf hT hB eB tg hr hd' e2 rfl (fun i hi k hk j hj d hdd => by
        obtain ⟨d', e⟩ := hb i hi j hj
        rw [e] at hdd ⊢
        exact hblk k hk j hj d d' hdd) α β)
  have n1 : ¬(r = 1 ∧ s = 1) := by
    rintro ⟨rfl, rfl⟩; apply e2; cases tb <;> rfl
  refine ⟨d, ?_⟩
  rw [gemm_succ hd]
  simp only [gemmOmm, gemmToDense]
  rw [if_neg n1]
  exact h

theorem hdd_total {n' p q : Nat} {b c : Dense R} {A : Nat → Nat → Mat R}
    (hA : (Mat.hier p q A).WF) (eA : (Mat.hier p q A).Even)
    (hr : RankSafe sq (.hier p q A) (.dense b))
    (hd : GemmDims ta tb (.hier p q A) (.dense b) (.dense c))
    (e2 : opDim1 ta p q ≠ 1)
    (hblk : ∀ i < opDim0 ta p q, ∀ k < opDim1 ta p q, ∀ d d' : Dense R,
      GemmDims ta tb (opBlk ta A i k) (.dense d) (.dense d') →
      Tot Q (gemm o n') ta tb (opBlk ta A i k) (.dense d) (.dense d')) (α β : R) :
    ∃ d, gemm o (n' + 3) (.hier p q A) (.dense b) (.dense c) α β ta tb = .ok (.dense d) := by
  obtain ⟨s2, -, -⟩ := even_grid (t := ta) hA eA
  rw [hd.rows] at s2
  obtain ⟨d, h⟩ := viaSplit (Q := Q) (gemmBoth_ok hf (n' + 2)).1 (B := .dense b) hA trivial
    (TransSafe_dense_right _ _) hr (opDim0_pos hA) (Nat.le_refl 1)
    s2 (esplit_one _) (α := α) (β := β) hd (fun b tg hb hd' =>
      hdh_total hf hT hA eA tg hr hd' e2 rfl (fun i hi k hk j hj d hdd => by
        obtain ⟨d', e⟩ := hb i hi j hj
        rw [e] at hdd ⊢
        exact hblk i hi k hk d d' hdd) α β)
  have n1 : ¬(p = 1 ∧ q = 1) := by
    rintro ⟨rfl, rfl⟩; apply e2; cases ta <;> rfl
  refine ⟨d, ?_⟩
  rw [gemm_succ hd]
  simp only [gemmOmm, gemmToDense]
  rw [if_neg n1]
  exact h

/-- A new matrix from a dense and a hierarchical factor is dense. -/
theorem dhNew_total {n' r s : Nat} {a : Dense R} {B : Nat → Nat → Mat R}
    (hB : (Mat.hier r s B).WF) (eB : (Mat.hier r s B).Even)
    (hr : RankSafe sq (.dense a) (.hier r s B))
    (hin : (Mat.dense a).opCols ta = (Mat.hier r s B).opRows tb)
    (e2 : opDim0 tb r s ≠ 1)
    (hblk : ∀ k < opDim0 tb r s, ∀ j < opDim1 tb r s, ∀ d d' : Dense R,
      GemmDims ta tb (.dense d) (opBlk tb B k j) (.dense d') →
      Tot Q (gemm o n') ta tb (.dense d) (opBlk tb B k j) (.dense d')) (α : R) :
    ∃ d : Dense R, gemmNew o (n' + 4) (.dense a) (.hier r s B) α ta tb = .ok (.dense d) ∧
      d.rows = (Mat.dense a).opRows ta ∧ d.cols = (Mat.hier r s B).opCols tb := by
  obtain ⟨d, h⟩ := dhd_total hf hT (a := a)
    (c := Dense.zero ((Mat.dense a).opRows ta) ((Mat.hier r s B).opCols tb)) hB eB hr
    ⟨rfl, hin, rfl⟩ e2 hblk α 0
  have hh : gemmNew o (n' + 4) (.dense a) (.hier r s B) α ta tb = .ok (.dense d) := by
    rw [gemmNew_succ hin]; exact h
  have N := (gemmBoth_ok hf (n' + 4)).2 (.dense a) _ _ _ _ _ trivial hB
    (TransSafe_dense_left _ _) hr hh
  exact ⟨d, hh, N.rows, N.cols⟩

theorem hdNew_total {n' p q : Nat} {b : Dense R} {A : Nat → Nat → Mat R}
    (hA : (Mat.hier p q A).WF) (eA : (Mat.hier p q A).Even)
    (hr : RankSafe sq (.hier p q A) (.dense b))
    (hin : (Mat.hier p q A).opCols ta = (Mat.dense b).opRows tb)
    (e2 : opDim1 ta p q ≠ 1)
    (hblk : ∀ i < opDim0 ta p q, ∀ k < opDim1 ta p q, ∀ d d' : Dense R,
      GemmDims ta tb (opBlk ta A i k) (.dense d) (.dense d') →
      Tot Q (gemm o n') ta tb (opBlk ta A i k) (.dense d) (.dense d')) (α : R) :
    ∃ d : Dense R, gemmNew o (n' + 4) (.hier p q A) (.dense b) α ta tb = .ok (.dense d) ∧
      d.rows = (Mat.hier p q A).opRows ta ∧ d.cols = (Mat.dense b).opCols tb := by
  obtain ⟨d, h⟩ := hdd_total hf hT (b := b)
    (c := Dense.zero ((Mat.hier p q A).opRows ta) ((Mat.dense b).opCols tb)) hA eA hr
    ⟨rfl, hin, rfl⟩ e2 hblk α 0
  have hh : gemmNew o (n' + 4) (.hier p q A) (.dense b) α ta tb = .ok (.dense d) := by
    rw [gemmNew_succ hin]; exact h
  have N := (gemmBoth_ok hf (n' + 4)).2 _ (.dense b) _ _ _ _ hA trivial
    (TransSafe_dense_right _ _) hr hh
  exact ⟨d, hh, N.rows, N.cols⟩

theorem lhh_total {n' r s m n : Nat} {a : LowRank R} {B C : Nat → Nat → Mat R} (ha : a.WF)
    (hB : (Mat.hier r s B).WF) (eB : (Mat.hier r s B).Even)
    (hC : (Mat.hier m n C).Target Q) (ht : TransSafe ta tb (.lowRank a) (.hier r s B))
    (hr : RankSafe sq (.lowRank a) (.hier r s B))
    (hd : GemmDims ta tb (.lowRank a) (.hier r s B) (.hier m n C))
    (e2 : opDim0 tb r s ≠ 1) (e3 : opDim1 tb r s = n)
    (hblk : ∀ k < opDim0 tb r s, ∀ j < opDim1 tb r s, ∀ d d' : Dense R,
      GemmDims ta tb (.dense d) (opBlk tb B k j) (.dense d') →
      Tot Q (gemm o n') ta tb (.dense d) (opBlk tb B k j) (.dense d')) (α β : R) :
    ∃ C', gemm o (n' + 5) (.lowRank a) (.hier r s B) (.hier m n C) α β ta tb = .ok C' ∧ C'.All Q := by
  have e : ta = false := ht
  subst e
  obtain ⟨V, hV, v1, v2⟩ := dhNew_total hf hT (a := a.V) (ta := false) hB eB
    (hr.left (fun _ _ => trivial)) (by
      have := hd.inner
      rw [lop_opCols false ha] at this
      exact this) e2 hblk α
  have n1 : ¬(r = 1 ∧ s = 1) := by
    rintro ⟨rfl, rfl⟩; apply e2; cases tb <;> rfl
  have n2 : ¬(opDim0 tb r s = 1 ∧ m = 1) := fun h => e2 h.1
  rw [gemm_succ hd]
  simp only [gemmOmm, gemmToHier, gemmLrHH, e3, decide_true, assertM, if_true, except_bind_ok, hV, Mat.asDense]
  rw [if_neg n1, if_neg n2]
  exact left_total (ta := false) hT ha hr hd hC (v1.trans (lop_SV (t := false) ha).symm) v2 β

theorem hlh_total {n' p q m n : Nat} {b : LowRank R} {A C : Nat → Nat → Mat R} (hb : b.WF)
    (hA : (Mat.hier p q A).WF) (eA : (Mat.hier p q A).Even)
    (hC : (Mat.hier m n C).Target Q) (ht : TransSafe ta tb (.hier p q A) (.lowRank b))
    (hr : RankSafe sq (.hier p q A) (.lowRank b))
    (hd : GemmDims ta tb (.hier p q A) (.lowRank b) (.hier m n C))
    (e2 : opDim1 ta p q ≠ 1)
    (hblk : ∀ i < opDim0 ta p q, ∀ k < opDim1 ta p q, ∀ d d' : Dense R,
      GemmDims ta tb (opBlk ta A i k) (.dense d) (.dense d') →
      Tot Q (gemm o n') ta tb (opBlk ta A i k) (.dense d) (.dense d')) (α β : R) :
    ∃ C', gemm o (n' + 5) (.hier p q A) (.lowRank b) (.hier m n C) α β ta tb = .ok C' ∧ C'.All Q := by
  obtain ⟨e, e'⟩ : ta = false ∧ tb = false := ht
  subst e; subst e'
  obtain ⟨U, hU, v1, v2⟩ := hdNew_total hf hT (b := b.U) (ta := false) (tb := false) hA eA
    (hr.right (fun _ _ => trivial)) (by
      have := hd.inner
      rw [lop_opRows false hb] at this
      exact this) e2 hblk α
  have n1 : ¬(p = 1 ∧ q = 1) := by
    rintro ⟨rfl, rfl⟩; exact e2 rfl
  have n2 : ¬(opDim1 false p q = 1 ∧ n = 1) := fun h => e2 h.1
  rw [gemm_succ hd]
  simp only [gemmOmm, gemmToHier, gemmHLrH, except_bind_ok, hU, Mat.asDense]
  rw [if_neg n1, if_neg n2]
  exact right_total (tb := false) hT hb hr hd hC (v2.trans (lop_US (t := false) hb)) v1 β

theorem lhd_total {n' r s : Nat} {a : LowRank R} {c : Dense R} {B : Nat → Nat → Mat R} (ha : a.WF)
    (hB : (Mat.hier r s B).WF) (eB : (Mat.hier r s B).Even)
    (ht : TransSafe ta tb (.lowRank a) (.hier r s B))
    (hr : RankSafe sq (.lowRank a) (.hier r s B))
    (hd : GemmDims ta tb (.lowRank a) (.hier r s B) (.dense c))
    (e2 : opDim0 tb r s ≠ 1)
    (hblk : ∀ k < opDim0 tb r s, ∀ j < opDim1 tb r s, ∀ d d' : Dense R,
      GemmDims ta tb (.dense d) (opBlk tb B k j) (.dense d') →
      Tot Q (gemm o n') ta tb (.dense d) (opBlk tb B k j) (.dense d')) (α β : R) :
    ∃ d, gemm o (n' + 6) (.lowRank a) (.hier r s B) (.dense c) α β ta tb = .ok (.dense d) := by
  obtain ⟨-, s2, -⟩ := even_grid (t := tb) hB eB
  rw [hd.cols] at s2
  obtain ⟨d, h⟩ := viaSplit (Q := Q) (gemmBoth_ok hf (n' + 5)).1 (A := .lowRank a) ha hB
    ht hr (Nat.le_refl 1) (opDim1_pos hB)
    (esplit_one _) s2 (α := α) (β := β) hd (fun b tg hb hd' =>
      lhh_total hf hT ha hB eB tg ht hr hd' e2 rfl hblk α β)
  have n1 : ¬(r = 1 ∧ s = 1) := by
    rintro ⟨rfl, rfl⟩; apply e2; cases tb <;> rfl
  refine ⟨d, ?_⟩
  rw [gemm_succ hd]
  simp only [gemmOmm, gemmToDense]
  rw [if_neg n1]
  exact h

theorem hld_total {n' p q : Nat} {b : LowRank R} {c : Dense R} {A : Nat → Nat → Mat R} (hb : b.WF)
    (hA : (Mat.hier p q A).WF) (eA : (Mat.hier p q A).Even)
    (ht : TransSafe ta tb (.hier p q A) (.lowRank b))
    (hr : RankSafe sq (.hier p q A) (.lowRank b))
    (hd : GemmDims ta tb (.hier p q A) (.lowRank b) (.dense c))
    (e2 : opDim1 ta p q ≠ 1)
    (hblk : ∀ i < opDim0 ta p q, ∀ k < opDim1 ta p q, ∀ d d' : Dense R,
      GemmDims ta tb (opBlk ta A i k) (.dense d) (.dense d') →
      Tot Q (gemm o n') ta tb (opBlk ta A i k) (.dense d) (.dense d')) (α β : R) :
    ∃ d, gemm o (n' + 6) (.hier p q A) (.lowRank b) (.dense c) α β ta tb = .ok (.dense d) := by
  obtain ⟨s2, -, -⟩ := even_grid (t := ta) hA eA
  rw [hd.rows] at s2
  obtain ⟨d, h⟩ := viaSplit (Q := Q) (gemmBoth_ok hf (n' + 5)).1 (B := .lowRank b) hA hb
    ht hr (opDim0_pos hA) (Nat.le_refl 1)
    s2 (esplit_one _) (α := α) (β := β) hd (fun b' tg hb' hd' =>
      hlh_total hf hT hb hA eA tg ht hr hd' e2 hblk α β)
  have n1 : ¬(p = 1 ∧ q = 1) := by
    rintro ⟨rfl, rfl⟩; apply e2; cases ta <;> rfl
  refine ⟨d, ?_⟩
  rw [gemm_succ hd]
  simp only [gemmOmm, gemmToDense]
  rw [if_neg n1]
  exact h

theorem lhl_total {n' r s : Nat} {a c : LowRank R} {B : Nat → Nat → Mat R} (ha : a.WF)
    (hB : (Mat.hier r s B).WF) (eB : (Mat.hier r s B).Even) (hC : (Mat.lowRank c).Target Q)
    (hr : RankSafe sq (.lowRank a) (.hier r s B))
    (hd : GemmDims ta tb (.lowRank a) (.hier r s B) (.lowRank c))
    (e2 : opDim0 tb r s ≠ 1)
    (hblk : ∀ k < opDim0 tb r s, ∀ j < opDim1 tb r s, ∀ d d' : Dense R,
      GemmDims ta tb (.dense d) (opBlk tb B k j) (.dense d') →
      Tot Q (gemm o n') ta tb (.dense d) (opBlk tb B k j) (.dense d')) (α β : R) :
    ∃ C', gemm o (n' + 5) (.lowRank a) (.hier r s B) (.lowRank c) α β ta tb = .ok C' ∧ C'.All Q := by
  have w := dop_V ta a
  obtain ⟨V, hV, v1, v2⟩ := dhNew_total hf hT (a := if ta then a.U else a.V) (ta := ta) hB eB
    (hr.left (fun _ _ => trivial)) (by
      have := hd.inner
      rw [lop_opCols ta ha] at this
      rw [← dop_cols, dop_V]
      exact this) e2 hblk α
  rw [← dop_rows, dop_V] at v1
  rw [gemm_succ hd]
  simp only [gemmOmm, gemmToLowRank, except_bind_ok, hV, Mat.asDense]
  rw [← lop_U, ← lop_S]
  exact left_total hT ha hr hd hC (v1.trans (lop_SV ha).symm) v2 β

theorem hll_total {n' p q : Nat} {b c : LowRank R} {A : Nat → Nat → Mat R} (hb : b.WF)
    (hA : (Mat.hier p q A).WF) (eA : (Mat.hier p q A).Even) (hC : (Mat.lowRank c).Target Q)
    (hr : RankSafe sq (.hier p q A) (.lowRank b))
    (hd : GemmDims ta tb (.hier p q A) (.lowRank b) (.lowRank c))
    (e2 : opDim1 ta p q ≠ 1)
    (hblk : ∀ i < opDim0 ta p q, ∀ k < opDim1 ta p q, ∀ d d' : Dense R,
      GemmDims ta tb (opBlk ta A i k) (.dense d) (.dense d') →
      Tot Q (gemm o n') ta tb (opBlk ta A i k) (.dense d) (.dense d')) (α β : R) :
    ∃ C', gemm o (n' + 5) (.hier p q A) (.lowRank b) (.lowRank c) α β ta tb = .ok C' ∧ C'.All Q := by
  obtain ⟨U, hU, v1, v2⟩ := hdNew_total hf hT (b := if tb then b.V else b.U) (ta := ta) (tb := tb) hA eA
    (hr.right (fun _ _ => trivial)) (by
      have := hd.inner
      rw [lop_opRows tb hb] at this
      rw [← dop_rows, dop_U]
      exact this) e2 hblk α
  rw [← dop_cols, dop_U] at v2
  rw [gemm_succ hd]
  simp only [gemmOmm, gemmToLowRank, except_bind_ok, hU, Mat.asDense]
  rw [← lop_V, ← lop_S]
  exact right_total hT hb hr hd hC (v2.trans (lop_US hb)) v1 β

/-- New matrix from two hierarchical factors. -/
theorem hhNew_total {n' p q r s : Nat} {A B : Nat → Nat → Mat R} (hA : (Mat.hier p q A).WF)
    (eA : (Mat.hier p q A).Even) (hB : (Mat.hier r s B).WF) (eB : (Mat.hier r s B).Even)
    (ht : TransSafe ta tb (.hier p q A) (.hier r s B))
    (hr : RankSafe sq (.hier p q A) (.hier r s B))
    (hin : (Mat.hier p q A).opCols ta = (Mat.hier r s B).opRows tb)
    (e2 : opDim1 ta p q = opDim0 tb r s) (e3 : ¬(opDim0 ta p q = 1 ∧ opDim1 tb r s = 1))
    {P : Mat R → Prop} (hP : ∀ D D', P D → D.SameShape D' → D'.WF → P D') (α : R)
    (hnew : ∀ i < opDim0 ta p q, ∀ j < opDim1 tb r s,
      (opBlk ta A i 0).opCols ta = (opBlk tb B 0 j).opRows tb →
      ∃ D, gemmNew o n' (opBlk ta A i 0) (opBlk tb B 0 j) α ta tb = .ok D ∧ D.Even ∧ P D)
    (hblk : ∀ i < opDim0 ta p q, ∀ k < opDim1 ta p q, ∀ j < opDim1 tb r s, ∀ D, P D →
      GemmDims ta tb (opBlk ta A i k) (opBlk tb B k j) D →
      Tot Q (gemm o n') ta tb (opBlk ta A i k) (opBlk tb B k j) D) :
    ∃ out, gemmNew o (n' + 1) (.hier p q A) (.hier r s B) α ta tb =
        .ok (.hier (opDim0 ta p q) (opDim1 tb r s) out) ∧
      (Mat.hier (opDim0 ta p q) (opDim1 tb r s) out).Even ∧
      ∀ i < opDim0 ta p q, ∀ j < opDim1 tb r s, P (out i j) := by
  obtain ⟨sA, -, gA⟩ := even_grid (t := ta) hA eA
  obtain ⟨-, sB, gB⟩ := even_grid (t := tb) hB eB
  have gA' := grid_hier (t := ta) hA
  have gB' := grid_hier (t := tb) hB
  have k0 := opDim1_pos (t := ta) hA
  have m0 := opDim0_pos (t := ta) hA
  have l0 := opDim1_pos (t := tb) hB
  have key : ∀ i < opDim0 ta p q, ∀ j < opDim1 tb r s, ∃ x, (do
      let a ← opAt ta p q A i 0
      let b ← opAt tb r s B 0 j
      let c ← gemmNew o n' a b α ta tb
      loop (opDim1 ta p q - 1) (fun k c => do
        let a ← opAt ta p q A i (k + 1)
        let b ← opAt tb r s B (k + 1) j
        gemm o n' a b c α 1 ta tb) c) = .ok x ∧ P x ∧ x.Even ∧
      x.nRows = (opBlk ta A i 0).opRows ta ∧ x.nCols = (opBlk tb B 0 j).opCols tb := by
    intro i hi j hj
    have inner : ∀ k < opDim1 ta p q, (opBlk ta A i k).opCols ta = (opBlk tb B k j).opRows tb := by
      intro k hk
      rw [(gA i hi k hk).2, (gB k (by omega) j hj).1, hin, e2]
    obtain ⟨D, hD, eD, pD⟩ := hnew i hi j hj (inner 0 k0)
    have N := (gemmBoth_ok hf n').2 _ _ _ _ _ _ (gA'.wf i hi 0 k0) (gB'.wf 0 (by omega) j hj)
      (TransSafe_blocks ht hi k0 (by omega) hj) (RankSafe_blocks hr hi k0 (by omega) hj) hD
    have tD : D.Target Q := ⟨N.wf, N.leaves.noEmpty, N.leaves.square, eD, N.leaves.all Q⟩
    have at0 : ∀ k < opDim1 ta p q, opAt ta p q A i k = .ok (opBlk ta A i k) := fun k hk => by
      simp [opAt, hi, hk, assertM]
    have at1 : ∀ k < opDim1 ta p q, opAt tb r s B k j = .ok (opBlk tb B k j) := fun k hk => by
      have : k < opDim0 tb r s := by omega
      simp [opAt, this, hj, assertM]
    obtain ⟨x, hx, sx, tx⟩ := loop_total (n := opDim1 ta p q - 1) (s := D)
      (body := fun k c => do
        let a ← opAt ta p q A i (k + 1)
        let b ← opAt tb r s B (k + 1) j
        gemm o n' a b c α 1 ta tb)
      (fun _ c => D.SameShape c ∧ c.Target Q) ⟨SameShape.refl _, tD⟩ (by
        intro k hk c ⟨sc, tc⟩
        have hk' : k + 1 < opDim1 ta p q := by omega
        have gd : GemmDims ta tb (opBlk ta A i (k+1)) (opBlk tb B (k+1) j) D := by
          refine ⟨?_, inner _ hk', ?_⟩
          · rw [N.rows, (gA i hi _ hk').1, (gA i hi _ k0).1]
          · rw [N.cols, (gB _ (by omega) j hj).2, (gB 0 (by omega) j hj).2]
        obtain ⟨c', hc', qc'⟩ := hblk i hi (k+1) hk' j hj D pD gd α 1 c sc tc
        refine ⟨c', ?_, ?_⟩
        · simp only [at0 _ hk', at1 _ hk', except_bind_ok, hc']
        · obtain ⟨-, P'⟩ := (gemmBoth_ok hf n').1 _ _ _ _ _ _ _ _ (gA'.wf i hi (k+1) hk')
            (gB'.wf (k+1) (by omega) j hj)
            tc.wf tc.sqr (TransSafe_blocks ht hi hk' (by omega) hj)
            (RankSafe_blocks hr hi hk' (by omega) hj) hc'
          exact ⟨sc.trans P'.shape, tc.shape P'.shape P'.wf P'.sqr qc'⟩)
    have dx := sx.dims N.wf
    refine ⟨x, ?_, hP D x pD sx tx.wf, tx.even, dx.1.trans N.rows, dx.2.trans N.cols⟩
    simp only [at0 0 k0, at1 0 k0, except_bind_ok, hD, hx]
  obtain ⟨out, h⟩ := collect2_exists (fun i hi j hj => (by
    obtain ⟨x, hx, -⟩ := key i hi j hj
    exact ⟨x, hx⟩ : ∃ x, (do
      let a ← opAt ta p q A i 0
      let b ← opAt tb r s B 0 j
      let c ← gemmNew o n' a b α ta tb
      loop (opDim1 ta p q - 1) (fun k c => do
        let a ← opAt ta p q A i (k + 1)
        let b ← opAt tb r s B (k + 1) j
        gemm o n' a b c α 1 ta tb) c) = .ok x))
  have key' : ∀ i < opDim0 ta p q, ∀ j < opDim1 tb r s, P (out i j) ∧ (out i j).Even ∧
      (out i j).nRows = (opBlk ta A i 0).opRows ta ∧ (out i j).nCols = (opBlk tb B 0 j).opCols tb := by
    intro i hi j hj
    obtain ⟨x, hx, hh⟩ := key i hi j hj
    have := collect2_ok h i hi j hj
    rw [hx] at this
    rw [← Except.ok.inj this]
    exact hh
  refine ⟨out, ?_, ?_, fun i hi j hj => (key' i hi j hj).1⟩
  · rw [gemmNew_succ hin]
    simp only [gemmNewOmm, gemmNewHH]
    rw [if_neg e3, h]; rfl
  · have r1 : ∑ i ∈ range (opDim0 ta p q), (out i 0).nRows = (Mat.hier p q A).opRows ta := by
      rw [gA'.opRows]
      exact Finset.sum_congr rfl (fun i hi => (key' i (Finset.mem_range.1 hi) 0 l0).2.2.1)
    have r2 : ∑ j ∈ range (opDim1 tb r s), (out 0 j).nCols = (Mat.hier r s B).opCols tb := by
      rw [gB'.opCols]
      exact Finset.sum_congr rfl (fun j hj => (key' 0 m0 j (Finset.mem_range.1 hj)).2.2.2)
    simp only [Even]
    rw [r1, r2]
    intro i hi j hj
    obtain ⟨-, h1, h2, h3⟩ := key' i hi j hj
    refine ⟨h1, ?_, ?_⟩
    · rw [h2, (gA i hi 0 k0).1]; exact splitChild_evenSize sA hi
    · rw [h3, (gB 0 (by omega) j hj).2]; exact splitChild_evenSize sB hj

theorem hhl_total {n' p q r s : Nat} {A B : Nat → Nat → Mat R} {c : LowRank R} (hA : (Mat.hier p q A).WF)
    (eA : (Mat.hier p q A).Even) (hB : (Mat.hier r s B).WF) (eB : (Mat.hier r s B).Even)
    (hC : (Mat.lowRank c).Target Q)
    (ht : TransSafe ta tb (.hier p q A) (.hier r s B))
    (hr : RankSafe sq (.hier p q A) (.hier r s B))
    (hd : GemmDims ta tb (.hier p q A) (.hier r s B) (.lowRank c)) (α β : R)
    (hD : ∀ c : Dense R, GemmDims ta tb (.hier p q A) (.hier r s B) (.dense c) →
      ∃ d, gemm o n' (.hier p q A) (.hier r s B) (.dense c) α β ta tb = .ok (.dense d))
    (hN : ∃ m n out, gemmNew o n' (.hier p q A) (.hier r s B) α ta tb = .ok (.hier m n out)) :
    ∃ C', gemm o (n' + 1) (.hier p q A) (.hier r s B) (.lowRank c) α β ta tb = .ok C' ∧ C'.All Q := by
  have hc : c.WF := hC.wf
  have hq : Q c := hC.all
  rw [gemm_succ hd]
  simp only [gemmOmm, gemmToLowRank, gemmHHLr]
  by_cases he : c.eps ≠ 0
  · rw [if_pos he]
    obtain ⟨cd, hcd, d0, d1, -⟩ := LowRank_toDense_ok c hc
    obtain ⟨d, hd'⟩ := hD cd ⟨by rw [hd.rows]; exact d0.symm, hd.inner, by rw [hd.cols]; exact d1.symm⟩
    obtain ⟨-, P⟩ := (gemmBoth_ok hf n').1 _ _ (.dense cd) _ _ _ _ _ hA hB trivial
      trivial ht hr hd'
    obtain ⟨s0, s1⟩ := P.shape
    obtain ⟨x, hx, qx⟩ := hT.ofEps c d hq hc he (by rw [← s0, d0]) (by rw [← s1, d1])
    exact ⟨.lowRank x, by simp only [hcd, hd', except_bind_ok, Mat.asDense, hx], qx⟩
  · rw [if_neg he]
    obtain ⟨m, n, out, hN⟩ := hN
    have N := (gemmBoth_ok hf n').2 _ _ _ _ _ _ hA hB ht hr hN
    have n0 : (Mat.hier m n out).nRows = c.dim0 := N.rows.trans hd.rows
    have n1 : (Mat.hier m n out).nCols = c.dim1 := N.cols.trans hd.cols
    obtain ⟨x, hx, x0, x1⟩ := hT.ofHier c _ hq hc (not_not.1 he) N.wf n0 n1
    have fx := hf.ofHier _ _ _ N.wf hx
    obtain ⟨y, hy, qy⟩ := hT.add { c with S := c.S.scale β } x (scaleS_wf hc β) hC.sqr fx.1 (fun _ => fx.2)
      x0.symm x1.symm (hT.scale c β hq)
    refine ⟨.lowRank y, ?_, qy⟩
    simp only [hN, except_bind_ok, hx, LrOps.addAssign, x0, x1, decide_true, assertM, if_true, hy]

theorem newLeaf_total {n' : Nat} {A B : Mat R} (hA : A.WF) (hB : B.WF) (hl : A.NotHier ∨ B.NotHier)
    (ht : TransSafe ta tb A B) (hr : RankSafe sq A B) (hin : A.opCols ta = B.opRows tb) (α : R)
    (h : ∀ d, GemmDims ta tb A B (.dense d) → Tot Q (gemm o n') ta tb A B (.dense d)) :
    ∃ d, gemmNew o (n' + 1) A B α ta tb = .ok (.dense d) := by
  have hh : gemmNew o (n' + 1) A B α ta tb =
      gemm o n' A B (.dense (Dense.zero (A.opRows ta) (B.opCols tb))) α 0 ta tb := by
    rw [gemmNew_succ hin]
    cases A <;> cases B <;> first | rfl | skip
    exact (hl.elim False.elim False.elim)
  obtain ⟨c', hc', -⟩ := h (Dense.zero (A.opRows ta) (B.opCols tb)) ⟨rfl, hin, rfl⟩ α 0 _
    (SameShape.refl _) (target_dense Q _)
  obtain ⟨-, P⟩ := (gemmBoth_ok hf n').1 A B (.dense _) _ _ _ _ _ hA hB trivial trivial ht hr hc'
  have := P.shape
  cases c' <;> try exact this.elim
  exact ⟨_, hh.trans hc'⟩

theorem dhl_total {n' r s : Nat} {a : Dense R} {c : LowRank R} {B : Nat → Nat → Mat R}
    (hB : (Mat.hier r s B).WF) (eB : (Mat.hier r s B).Even) (hC : (Mat.lowRank c).Target Q)
    (hr : RankSafe sq (.dense a) (.hier r s B))
    (hd : GemmDims ta tb (.dense a) (.hier r s B) (.lowRank c))
    (e2 : opDim1 tb r s ≠ 1)
    (hblk : ∀ N ≥ n', ∀ k < opDim0 tb r s, ∀ j < opDim1 tb r s, ∀ d d' : Dense R,
      GemmDims ta tb (.dense d) (opBlk tb B k j) (.dense d') →
      Tot Q (gemm o N) ta tb (.dense d) (opBlk tb B k j) (.dense d')) (α β : R) :
    ∃ C', gemm o (n' + 4) (.dense a) (.hier r s B) (.lowRank c) α β ta tb = .ok C' ∧ C'.All Q := by
  obtain ⟨s1, -, -⟩ := even_grid (t := tb) hB eB
  rw [← hd.inner] at s1
  have hk := opDim0_pos (t := tb) hB
  obtain ⟨b, hs, w, ev, same, hb⟩ := split_dense_total (a := a)
    (nr := if ta then opDim0 tb r s else 1) (nc := if ta then 1 else opDim0 tb r s)
    (by split <;> omega) (by split <;> omega)
    (by cases ta; exact esplit_one _; exact s1) (by cases ta; exact s1; exact esplit_one _)
  rw [gemm_succ hd]
  simp only [gemmOmm, gemmToLowRank, hs, except_bind_ok]
  have q0 : opDim0 ta (if ta then opDim0 tb r s else 1) (if ta then 1 else opDim0 tb r s) = 1 := by
    cases ta <;> rfl
  have q1 : opDim1 ta (if ta then opDim0 tb r s else 1) (if ta then 1 else opDim0 tb r s) =
    opDim0 tb r s := by cases ta <;> rfl
  have hbd : ∀ i < 1, ∀ k < opDim0 tb r s, ∃ d, opBlk ta b i k = .dense d := by
    intro i hi k hk
    cases ta
    · exact hb i hi k hk
    · exact hb k hk i hi
  have tr : TransSafe ta tb (Mat.hier (if ta then opDim0 tb r s else 1) (if ta then 1 else opDim0 tb r s) b)
    (.hier r s B) := TransSafe_split_left hb
  have rk : RankSafe sq (Mat.hier (if ta then opDim0 tb r s else 1) (if ta then 1 else opDim0 tb r s) b)
    (.hier r s B) := hr.left (fun k _ => dense_uniform hb k)
  have hd1 : GemmDims ta tb (Mat.hier (if ta then opDim0 tb r s else 1) (if ta then 1 else opDim0 tb r s) b)
    (.hier r s B) (.lowRank c) :=
    ⟨by rw [opRows_same same]; exact hd.rows, by rw [opCols_same same]; exact hd.inner, hd.cols⟩
  refine hhl_total hf hT w ev hB eB hC tr rk hd1 α β ?_ ?_
  · intro c' hd2
    refine hhd_total hf hT w ev hB eB tr rk hd2 q1 (fun h => e2 h.2) (fun i hi k hk j hj d hdd => ?_) α β
    rw [q0] at hi
    rw [q1] at hk
    obtain ⟨x, e⟩ := hbd i hi k hk
    rw [e] at hdd ⊢
    exact hblk n' (Nat.le_refl _) k hk j hj _ _ hdd
  · obtain ⟨out, h, -⟩ := hhNew_total (n' := n' + 1) hf hT (Q := Q) w ev hB eB tr rk hd1.inner q1 (fun h => e2 h.2)
      (P := fun D => ∃ d, D = .dense d) (by
        rintro _ D' ⟨d, rfl⟩ hs -
        cases D' <;> first | exact hs.elim | exact ⟨_, rfl⟩) α (by
        intro i hi j hj hin
        rw [q0] at hi
        obtain ⟨x, e⟩ := hbd i hi 0 hk
        rw [e] at hin ⊢
        obtain ⟨d, hd⟩ := newLeaf_total (n' := n') hf hT (A := .dense x) (B := opBlk tb B 0 j) trivial
          ((grid_hier (t := tb) hB).wf 0 hk j hj)
          (Or.inl trivial) (TransSafe_dense_left _ _)
          (RankSafe_right (RankSafe.left (A' := .dense x) hr (fun _ _ => trivial)) hk hj) hin α
          (fun d hdd => hblk n' (Nat.le_refl _) 0 hk j hj _ _ hdd)
        exact ⟨_, hd, trivial, _, rfl⟩) (by
        rintro i hi k hk j hj _ ⟨d, rfl⟩ hdd
        rw [q0] at hi
        rw [q1] at hk
        obtain ⟨x, e⟩ := hbd i hi k hk
        rw [e] at hdd ⊢
        exact hblk (n' + 1) (by omega) k hk j hj _ _ hdd)
    exact ⟨_, _, _, h⟩

theorem hdl_total {n' p q : Nat} {b : Dense R} {c : LowRank R} {A : Nat → Nat → Mat R}
    (hA : (Mat.hier p q A).WF) (eA : (Mat.hier p q A).Even) (hC : (Mat.lowRank c).Target Q)
    (hr : RankSafe sq (.hier p q A) (.dense b))
    (hd : GemmDims ta tb (.hier p q A) (.dense b) (.lowRank c))
    (e2 : opDim0 ta p q ≠ 1)
    (hblk : ∀ N ≥ n', ∀ i < opDim0 ta p q, ∀ k < opDim1 ta p q, ∀ d d' : Dense R,
      GemmDims ta tb (opBlk ta A i k) (.dense d) (.dense d') →
      Tot Q (gemm o N) ta tb (opBlk ta A i k) (.dense d) (.dense d')) (α β : R) :
    ∃ C', gemm o (n' + 4) (.hier p q A) (.dense b) (.lowRank c) α β ta tb = .ok C' ∧ C'.All Q := by
  obtain ⟨-, s1, -⟩ := even_grid (t := ta) hA eA
  rw [hd.inner] at s1
  have hk := opDim1_pos (t := ta) hA
  obtain ⟨b', hs, w, ev, same, hb⟩ := split_dense_total (a := b)
    (nr := if tb then 1 else opDim1 ta p q) (nc := if tb then opDim1 ta p q else 1)
    (by split <;> omega) (by split <;> omega)
    (by cases tb; exact s1; exact esplit_one _) (by cases tb; exact esplit_one _; exact s1)
  rw [gemm_succ hd]
  simp only [gemmOmm, gemmToLowRank, hs, except_bind_ok]
  have q0 : opDim0 tb (if tb then 1 else opDim1 ta p q) (if tb then opDim1 ta p q else 1) =
    opDim1 ta p q := by cases tb <;> rfl
  have q1 : opDim1 tb (if tb then 1 else opDim1 ta p q) (if tb then opDim1 ta p q else 1) = 1 := by
    cases tb <;> rfl
  have hbd : ∀ k < opDim1 ta p q, ∀ j < 1, ∃ d, opBlk tb b' k j = .dense d := by
    intro k hk j hj
    cases tb
    · exact hb k hk j hj
    · exact hb j hj k hk
  have tr : TransSafe ta tb (.hier p q A)
    (Mat.hier (if tb then 1 else opDim1 ta p q) (if tb then opDim1 ta p q else 1) b') := TransSafe_split_right hb
  have rk : RankSafe sq (.hier p q A)
    (Mat.hier (if tb then 1 else opDim1 ta p q) (if tb then opDim1 ta p q else 1) b') :=
    hr.right (fun k _ => dense_uniform hb k)
  have hd1 : GemmDims ta tb (.hier p q A)
    (Mat.hier (if tb then 1 else opDim1 ta p q) (if tb then opDim1 ta p q else 1) b') (.lowRank c) :=
    ⟨hd.rows, by rw [opRows_same same]; exact hd.inner, by rw [opCols_same same]; exact hd.cols⟩
  refine hhl_total hf hT hA eA w ev hC tr rk hd1 α β ?_ ?_
  · intro c' hd2
    refine hhd_total hf hT hA eA w ev tr rk hd2 q0.symm (fun h => e2 h.1) (fun i hi k hk j hj d hdd => ?_) α β
    rw [q1] at hj
    obtain ⟨x, e⟩ := hbd k hk j hj
    rw [e] at hdd ⊢
    exact hblk n' (Nat.le_refl _) i hi k hk _ _ hdd
  · obtain ⟨out, h, -⟩ := hhNew_total (n' := n' + 1) hf hT (Q := Q) hA eA w ev tr rk hd1.inner q0.symm (fun h => e2 h.1)
      (P := fun D => ∃ d, D = .dense d) (by
        rintro _ D' ⟨d, rfl⟩ hs -
        cases D' <;> first | exact hs.elim | exact ⟨_, rfl⟩) α (by
        intro i hi j hj hin
        rw [q1] at hj
        obtain ⟨x, e⟩ := hbd 0 hk j hj
        rw [e] at hin ⊢
        obtain ⟨d, hd⟩ := newLeaf_total (n' := n') hf hT (A := opBlk ta A i 0) (B := .dense x)
          ((grid_hier (t := ta) hA).wf i hi 0 hk) trivial
          (Or.inr trivial) (TransSafe_dense_right _ _)
          (RankSafe_left (RankSafe.right (B' := .dense x) hr (fun _ _ => trivial)) hi hk) hin α
          (fun d hdd => hblk n' (Nat.le_refl _) i hi 0 hk _ _ hdd)
        exact ⟨_, hd, trivial, _, rfl⟩) (by
        rintro i hi k hk j hj _ ⟨d, rfl⟩ hdd
        rw [q1] at hj
        obtain ⟨x, e⟩ := hbd k hk j hj
        rw [e] at hdd ⊢
        exact hblk (n' + 1) (by omega) i hi k hk _ _ hdd)
    exact ⟨_, _, _, h⟩

theorem ddl_total {n' : Nat} {a b : Dense R} {c : LowRank R} (hC : (Mat.lowRank c).Target Q)
    (hd : GemmDims ta tb (.dense a) (.dense b) (.lowRank c)) (α β : R) :
    ∃ C', gemm o (n' + 1) (.dense a) (.dense b) (.lowRank c) α β ta tb = .ok C' ∧ C'.All Q := by
  have hc : c.WF := hC.wf
  have hq : Q c := hC.all
  have hin := hd.inner
  rw [← dop_cols, ← dop_rows] at hin
  obtain ⟨ab, hab⟩ := Dense_gemmNew_total (α := α) hin
  obtain ⟨-, r0, r1, -⟩ := Dense_gemmNew_spec hab
  have r0' : ab.rows = c.dim0 := by rw [r0, dop_rows]; exact hd.rows
  have r1' : ab.cols = c.dim1 := by rw [r1, dop_cols]; exact hd.cols
  have key : ∃ x, (if c.eps ≠ 0 then o.ofEps ab c.eps else o.ofRank ab c.rank) = .ok x ∧
      x.WF ∧ x.Square ∧ x.dim0 = ab.rows ∧ x.dim1 = ab.cols := by
    split
    · rename_i h
      obtain ⟨x, hx, -⟩ := hT.ofEps c ab hq hc h r0' r1'
      exact ⟨x, hx, hf.ofEps _ _ _ hx⟩
    · rename_i h
      obtain ⟨x, hx⟩ := hT.ofRank c ab hq hc (not_not.1 h) r0' r1'
      exact ⟨x, hx, hf.ofRank _ _ _ hx⟩
  obtain ⟨x, hx, xw, xs, x0, x1⟩ := key
  obtain ⟨y, hy, qy⟩ := hT.add { c with S := c.S.scale β } x (scaleS_wf hc β) hC.sqr xw (fun _ => xs)
    (by rw [x0, r0']) (by rw [x1, r1']) (hT.scale c β hq)
  refine ⟨.lowRank y, ?_, qy⟩
  rw [gemm_succ hd]
  simp only [gemmOmm, gemmToLowRank, gemmDDLr, hab, hx, except_bind_ok, LrOps.addAssign, x0, x1, r0', r1',
    decide_true, assertM, if_true, hy]

/-! ### the induction -/

/-- Products of regular matrices of depth at most `d` return. -/
def TotalUpTo (o : LrOps R) (sq : Prop) (Q : LowRank R → Prop) (b d : Nat) : Prop :=
  (∀ n ≥ 6 * d + 1, ∀ (A B C : Mat R) (α β : R) (ta tb : Bool), A.Regular b → B.Regular b →
    C.Regular b → C.Square → C.All Q → A.depth ≤ d → B.depth ≤ d → C.depth ≤ d →
    TransSafe ta tb A B → RankSafe sq A B → GemmDims ta tb A B C →
    ∃ C', gemm o n A B C α β ta tb = .ok C' ∧ C'.All Q) ∧
  (∀ n ≥ 6 * d + 2, ∀ (A B : Mat R) (α : R) (ta tb : Bool), A.Regular b → B.Regular b →
    A.depth ≤ d → B.depth ≤ d →
    TransSafe ta tb A B → RankSafe sq A B → A.opCols ta = B.opRows tb →
    ∃ D, gemmNew o n A B α ta tb = .ok D ∧ D.Regular b ∧ D.depth ≤ d)

theorem Regular.target {b : Nat} {C : Mat R} (h : C.Regular b) (hs : C.Square) (hq : C.All Q) : C.Target Q :=
  ⟨h.wf, h.sub.noEmpty, hs, h.even, hq⟩

omit hf hT [DecidableEq R] in
theorem regular_dense (b : Nat) (d : Dense R) : (Mat.dense d).Regular b := ⟨trivial, trivial, trivial⟩

omit hf hT in
theorem TotalUpTo.tot {b d n : Nat} (h : TotalUpTo o sq Q b d) (hn : 6 * d + 1 ≤ n) {A B C : Mat R}
    (hA : A.Regular b) (hB : B.Regular b) (hC : C.Regular b) (dA : A.depth ≤ d) (dB : B.depth ≤ d)
    (dC : C.depth ≤ d) (ht : TransSafe ta tb A B) (hr : RankSafe sq A B) (hd : GemmDims ta tb A B C) :
    Tot Q (gemm o n) ta tb A B C := by
  intro α β c hs tc
  have dd := hs.dims hC.wf
  exact h.1 n hn A B c α β ta tb hA hB (hs.regular tc.wf hC) tc.sqr tc.all dA dB
    (by rw [hs.depth]; exact dC) ht hr ⟨by rw [dd.1]; exact hd.rows, hd.inner, by rw [dd.2]; exact hd.cols⟩

omit hf hT [DecidableEq R] in
theorem regular_dims {b p q : Nat} {A : Nat → Nat → Mat R} (h : (Mat.hier p q A).Regular b) (t : Bool) :
    opDim0 t p q = b ∧ opDim1 t p q = b := by
  obtain ⟨rfl, rfl, -⟩ := h.sub
  cases t <;> exact ⟨rfl, rfl⟩

theorem totalUpTo {b : Nat} (hb : 2 ≤ b) (d : Nat) : TotalUpTo o sq Q b d := by
  induction d using Nat.strongRecOn with
  | ind d ih =>
  have G : ∀ n ≥ 6 * d + 1, ∀ (A B C : Mat R) (α β : R) (ta tb : Bool), A.Regular b → B.Regular b →
      C.Regular b → C.Square → C.All Q → A.depth ≤ d → B.depth ≤ d → C.depth ≤ d →
      TransSafe ta tb A B → RankSafe sq A B → GemmDims ta tb A B C →
      ∃ C', gemm o n A B C α β ta tb = .ok C' ∧ C'.All Q := by
    intro n hn A B C α β ta tb rA rB rC sC qC dA dB dC ht hr hd
    have tC := rC.target hf hT sC qC
    -- hierarchical left factor
    have lower : ∀ {p q : Nat} {X : Nat → Nat → Mat R}, (Mat.hier p q X).depth ≤ d →
        ∃ e, d = e + 1 ∧ ∃ n0, n = n0 + 6 ∧ 6 * e + 1 ≤ n0 := by
      intro p q X h
      simp only [Mat.depth] at h
      exact ⟨d - 1, by omega, n - 6, by omega, by omega⟩
    obtain ⟨n1, rfl⟩ : ∃ n1, n = n1 + 1 := ⟨n - 1, by omega⟩
    -- results for a dense target
    have wrap : ∀ {A B : Mat R} {c : Dense R} {N : Nat},
        (∃ x, gemm o N A B (.dense c) α β ta tb = .ok (.dense x)) →
        ∃ C', gemm o N A B (.dense c) α β ta tb = .ok C' ∧ C'.All Q := by
      rintro A B c N ⟨x, hx⟩
      exact ⟨_, hx, trivial⟩
    cases A with
    | empty => exact rA.sub.elim
    | dense a =>
      cases B with
      | empty => exact rB.sub.elim
      | dense b' =>
        cases C with
        | empty => exact rC.sub.elim
        | dense c =>
          refine wrap ?_
          rw [gemm_succ hd]
          exact leafD_total (gemm o n1) rA.wf rB.wf trivial trivial hd α β
        | lowRank c => exact ddl_total hf hT tC hd α β
        | hier m n C =>
          obtain ⟨e, rfl, n0, hn0, hle⟩ := lower dC
          obtain ⟨m1, m2⟩ := regular_dims rC false
          have T := ih e (by omega)
          rw [hn0]
          refine ddh_total (n' := n0 + 4) hf hT tC hd (by simp only [opDim0] at m1; simp at m1; omega)
            (by simp only [opDim1] at m2; simp at m2; omega) (fun i hi j hj x y hdd => ?_) α β
          exact T.tot (by omega) (regular_dense _ _) (regular_dense _ _) (rC.block hi hj)
            (Nat.zero_le _) (Nat.zero_le _) (by have := depth_block (blk := C) hi hj; omega)
            (TransSafe_dense_left _ _) (fun _ => ⟨0, trivial, trivial⟩) hdd
      | lowRank b' =>
        cases C with
        | empty => exact rC.sub.elim
        | dense c =>
          refine wrap ?_
          rw [gemm_succ hd]
          exact leafD_total (gemm o n1) rA.wf rB.wf trivial trivial hd α β
        | lowRank c =>
          rw [gemm_succ hd]
          exact gemmDLr_total hT rB.wf tC hr hd α β
        | hier m n C =>
          rw [gemm_succ hd]
          exact gemmDLr_total hT rB.wf tC hr hd α β
      | hier r s B =>
        obtain ⟨e, rfl, n0, hn0, hle⟩ := lower dB
        obtain ⟨m1, m2⟩ := regular_dims rB tb
        have T := ih e (by omega)
        rw [hn0]
        have blk : ∀ N ≥ n0, ∀ k < opDim0 tb r s, ∀ j < opDim1 tb r s, ∀ d d' : Dense R,
            GemmDims ta tb (.dense d) (opBlk tb B k j) (.dense d') →
            Tot Q (gemm o N) ta tb (.dense d) (opBlk tb B k j) (.dense d') := by
          intro N hN k hk j hj x y hdd
          exact T.tot (by omega) (regular_dense _ _) (rB.opBlk (by omega) (by omega)) (regular_dense _ _)
            (Nat.zero_le _) (by have := opBlk_depth (blk := B) hk hj; omega) (Nat.zero_le _)
            (TransSafe_dense_left _ _)
            (RankSafe_right (RankSafe.left (A' := .dense x) hr (fun _ _ => trivial)) hk hj) hdd
        cases C with
        | empty => exact rC.sub.elim
        | dense c =>
          exact wrap (dhd_total (n' := n0 + 3) hf hT rB.wf rB.even hr hd (by omega) (blk _ (by omega)) α β)
        | lowRank c =>
          exact dhl_total (n' := n0 + 2) hf hT rB.wf rB.even tC hr hd (by omega)
            (fun N hN => blk N (by omega)) α β
        | hier m n C =>
          obtain ⟨m3, m4⟩ := regular_dims rC false
          have m3' : m = b := m3
          have m4' : n = b := m4
          refine dhh_total (n' := n0 + 4) hf hT rB.wf rB.even tC hr hd (by omega) (by omega)
            (fun i hi k hk j hj x hdd => ?_) α β
          exact T.tot (by omega) (regular_dense _ _) (rB.opBlk (by omega) (by omega)) (rC.block hi hj)
            (Nat.zero_le _) (by have := opBlk_depth (blk := B) (t := tb) hk (by omega : j < _); omega)
            (by have := depth_block (blk := C) hi hj; omega)
            (TransSafe_dense_left _ _)
            (RankSafe_right (RankSafe.left (A' := .dense x) hr (fun _ _ => trivial)) hk (by omega)) hdd
    | lowRank a =>
      cases B with
      | empty => exact rB.sub.elim
      | dense b' =>
        cases C with
        | empty => exact rC.sub.elim
        | dense c =>
          refine wrap ?_
          rw [gemm_succ hd]
          exact leafD_total (gemm o n1) rA.wf rB.wf trivial trivial hd α β
        | lowRank c =>
          rw [gemm_succ hd]
          exact gemmLrD_total hT rA.wf tC hr hd α β
        | hier m n C =>
          rw [gemm_succ hd]
          exact gemmLrD_total hT rA.wf tC hr hd α β
      | lowRank b' =>
        cases C with
        | empty => exact rC.sub.elim
        | dense c =>
          refine wrap ?_
          rw [gemm_succ hd]
          exact leafD_total (gemm o n1) rA.wf rB.wf trivial trivial hd α β
        | lowRank c =>
          rw [gemm_succ hd]
          exact gemmLrLr_total hT rA.wf rB.wf tC hr hd α β
        | hier m n C =>
          rw [gemm_succ hd]
          exact gemmLrLr_total hT rA.wf rB.wf tC hr hd α β
      | hier r s B =>
        obtain ⟨e, rfl, n0, hn0, hle⟩ := lower dB
        obtain ⟨m1, m2⟩ := regular_dims rB tb
        have T := ih e (by omega)
        rw [hn0]
        have blk : ∀ N ≥ n0, ∀ k < opDim0 tb r s, ∀ j < opDim1 tb r s, ∀ d d' : Dense R,
            GemmDims ta tb (.dense d) (opBlk tb B k j) (.dense d') →
            Tot Q (gemm o N) ta tb (.dense d) (opBlk tb B k j) (.dense d') := by
          intro N hN k hk j hj x y hdd
          exact T.tot (by omega) (regular_dense _ _) (rB.opBlk (by omega) (by omega)) (regular_dense _ _)
            (Nat.zero_le _) (by have := opBlk_depth (blk := B) hk hj; omega) (Nat.zero_le _)
            (TransSafe_dense_left _ _)
            (RankSafe_right (RankSafe.left (A' := .dense x) hr (fun _ _ => trivial)) hk hj) hdd
        cases C with
        | empty => exact rC.sub.elim
        | dense c =>
          exact wrap (lhd_total (n' := n0) hf hT rA.wf rB.wf rB.even ht hr hd (by omega) (blk _ (by omega)) α β)
        | lowRank c =>
          exact lhl_total (n' := n0 + 1) hf hT rA.wf rB.wf rB.even tC hr hd (by omega) (blk _ (by omega)) α β
        | hier m n C =>
          obtain ⟨m3, m4⟩ := regular_dims rC false
          have m4' : n = b := m4
          exact lhh_total (n' := n0 + 1) hf hT rA.wf rB.wf rB.even tC ht hr hd (by omega) (by omega)
            (blk _ (by omega)) α β
    | hier p q A =>
      obtain ⟨e, rfl, n0, hn0, hle⟩ := lower dA
      obtain ⟨m1, m2⟩ := regular_dims rA ta
      have T := ih e (by omega)
      rw [hn0]
      have blk : ∀ N ≥ n0, ∀ i < opDim0 ta p q, ∀ k < opDim1 ta p q, ∀ d d' : Dense R,
          GemmDims ta tb (opBlk ta A i k) (.dense d) (.dense d') →
          Tot Q (gemm o N) ta tb (opBlk ta A i k) (.dense d) (.dense d') := by
        intro N hN i hi k hk x y hdd
        exact T.tot (by omega) (rA.opBlk (by omega) (by omega)) (regular_dense _ _) (regular_dense _ _)
          (by have := opBlk_depth (blk := A) hi hk; omega) (Nat.zero_le _) (Nat.zero_le _)
          (TransSafe_dense_right _ _)
          (RankSafe_left (RankSafe.right (B' := .dense x) hr (fun _ _ => trivial)) hi hk) hdd
      cases B with
      | empty => exact rB.sub.elim
      | dense b' =>
        cases C with
        | empty => exact rC.sub.elim
        | dense c =>
          exact wrap (hdd_total (n' := n0 + 3) hf hT rA.wf rA.even hr hd (by omega) (blk _ (by omega)) α β)
        | lowRank c =>
          exact hdl_total (n' := n0 + 2) hf hT rA.wf rA.even tC hr hd (by omega)
            (fun N hN => blk N (by omega)) α β
        | hier m n C =>
          obtain ⟨m3, m4⟩ := regular_dims rC false
          have m3' : m = b := m3
          have m4' : n = b := m4
          refine hdh_total (n' := n0 + 4) hf hT rA.wf rA.even tC hr hd (by omega) (by omega)
            (fun i hi k hk j hj x hdd => ?_) α β
          exact T.tot (by omega) (rA.opBlk (by omega) (by omega)) (regular_dense _ _) (rC.block hi hj)
            (by have := opBlk_depth (blk := A) (t := ta) (by omega : i < _) hk; omega) (Nat.zero_le _)
            (by have := depth_block (blk := C) hi hj; omega)
            (TransSafe_dense_right _ _)
            (RankSafe_left (RankSafe.right (B' := .dense x) hr (fun _ _ => trivial)) (by omega) hk) hdd
      | lowRank b' =>
        cases C with
        | empty => exact rC.sub.elim
        | dense c =>
          exact wrap (hld_total (n' := n0) hf hT rB.wf rA.wf rA.even ht hr hd (by omega) (blk _ (by omega)) α β)
        | lowRank c =>
          exact hll_total (n' := n0 + 1) hf hT rB.wf rA.wf rA.even tC hr hd (by omega) (blk _ (by omega)) α β
        | hier m n C =>
          exact hlh_total (n' := n0 + 1) hf hT rB.wf rA.wf rA.even tC ht hr hd (by omega)
            (blk _ (by omega)) α β
      | hier r s B =>
        obtain ⟨m3, m4⟩ := regular_dims rB tb
        have blk2 : ∀ N ≥ n0, ∀ i < opDim0 ta p q, ∀ k < opDim1 ta p q, ∀ j < opDim1 tb r s, ∀ D : Mat R,
            D.Regular b → D.depth ≤ e → GemmDims ta tb (opBlk ta A i k) (opBlk tb B k j) D →
            Tot Q (gemm o N) ta tb (opBlk ta A i k) (opBlk tb B k j) D := by
          intro N hN i hi k hk j hj D rD dD hdd
          exact T.tot (by omega) (rA.opBlk (by omega) (by omega)) (rB.opBlk (by omega) (by omega)) rD
            (by have := opBlk_depth (blk := A) hi hk; omega)
            (by have := opBlk_depth (blk := B) (t := tb) (by omega : k < _) hj; omega) dD
            (TransSafe_blocks ht hi hk (by omega) hj) (RankSafe_blocks hr hi hk (by omega) hj) hdd
        cases C with
        | empty => exact rC.sub.elim
        | dense c =>
          exact wrap (hhd_total (n' := n0 + 4) hf hT rA.wf rA.even rB.wf rB.even ht hr hd (by omega) (by omega)
            (fun i hi k hk j hj x hdd => blk2 _ (by omega) i hi k hk j hj _ (regular_dense _ _)
              (Nat.zero_le _) hdd) α β)
        | lowRank c =>
          refine hhl_total (n' := n0 + 5) hf hT rA.wf rA.even rB.wf rB.even tC ht hr hd α β ?_ ?_
          · intro c' hd2
            exact hhd_total (n' := n0 + 3) hf hT rA.wf rA.even rB.wf rB.even ht hr hd2 (by omega) (by omega)
              (fun i hi k hk j hj x hdd => blk2 _ (by omega) i hi k hk j hj _ (regular_dense _ _)
                (Nat.zero_le _) hdd) α β
          · obtain ⟨out, h, -⟩ := hhNew_total (n' := n0 + 4) hf hT (Q := Q) rA.wf rA.even rB.wf rB.even ht hr
              hd.inner (by omega) (by omega) (P := fun D => D.Regular b ∧ D.depth ≤ e)
              (fun D D' hD hs hw => ⟨hs.regular hw hD.1, by rw [hs.depth]; exact hD.2⟩) α
              (by
                intro i hi j hj hin
                obtain ⟨D, hD, rD, dD⟩ := T.2 (n0 + 4) (by omega) (opBlk ta A i 0) (opBlk tb B 0 j) α ta tb
                  (rA.opBlk (by omega) (by omega)) (rB.opBlk (by omega) (by omega))
                  (by have := opBlk_depth (blk := A) (t := ta) hi (by omega : 0 < _); omega)
                  (by have := opBlk_depth (blk := B) (t := tb) (by omega : 0 < _) hj; omega)
                  (TransSafe_blocks ht hi (by omega) (by omega) hj)
                  (RankSafe_blocks hr hi (by omega) (by omega) hj) hin
                exact ⟨D, hD, rD.even, rD, dD⟩)
              (fun i hi k hk j hj D hD hdd => blk2 _ (by omega) i hi k hk j hj D hD.1 hD.2 hdd)
            exact ⟨_, _, _, h⟩
        | hier m n C =>
          obtain ⟨m5, m6⟩ := regular_dims rC false
          have m5' : m = b := m5
          have m6' : n = b := m6
          exact hhh_total (n' := n0 + 5) hf hT rA.wf rA.even rB.wf rB.even tC ht hr hd (by omega) (by omega)
            (by omega) (fun i hi k hk j hj hdd => blk2 _ (by omega) i (by omega) k hk j (by omega) _
              (rC.block hi hj) (by have := depth_block (blk := C) hi hj; omega) hdd) α β
  refine ⟨G, ?_⟩
  intro n hn A B α ta tb rA rB dA dB ht hr hin
  obtain ⟨n1, rfl⟩ : ∃ n1, n = n1 + 1 := ⟨n - 1, by omega⟩
  by_cases hl : A.NotHier ∨ B.NotHier
  · obtain ⟨x, hx⟩ := newLeaf_total (Q := Q) (n' := n1) hf hT rA.wf rB.wf hl ht hr hin α (by
      intro c hd α' β' c' hs tc
      have hd' := hs.dims (trivial : (Mat.dense c).WF)
      exact G n1 (by omega) A B c' α' β' ta tb rA rB (hs.regular tc.wf (regular_dense _ _)) tc.sqr tc.all dA dB
        (by rw [hs.depth]; exact Nat.zero_le _) ht hr
        ⟨by rw [hd'.1]; exact hd.rows, hd.inner, by rw [hd'.2]; exact hd.cols⟩)
    exact ⟨_, hx, regular_dense _ _, Nat.zero_le _⟩
  · cases A with
    | dense => exact (hl (Or.inl trivial)).elim
    | lowRank => exact (hl (Or.inl trivial)).elim
    | empty => exact (hl (Or.inl trivial)).elim
    | hier p q A =>
      cases B with
      | dense => exact (hl (Or.inr trivial)).elim
      | lowRank => exact (hl (Or.inr trivial)).elim
      | empty => exact (hl (Or.inr trivial)).elim
      | hier r s B =>
        have hd1 : 1 ≤ d := by simp only [Mat.depth] at dA; omega
        obtain ⟨e, rfl⟩ : ∃ e, d = e + 1 := ⟨d - 1, by omega⟩
        have T := ih e (by omega)
        obtain ⟨m1, m2⟩ := regular_dims rA ta
        obtain ⟨m3, m4⟩ := regular_dims rB tb
        obtain ⟨out, h, ev, hout⟩ := hhNew_total (n' := n1) hf hT (Q := Q) rA.wf rA.even rB.wf rB.even ht hr
          hin (by omega) (by omega) (P := fun D => D.Regular b ∧ D.depth ≤ e)
          (fun D D' hD hs hw => ⟨hs.regular hw hD.1, by rw [hs.depth]; exact hD.2⟩) α
          (by
            intro i hi j hj hin
            obtain ⟨D, hD, rD, dD⟩ := T.2 n1 (by omega) (opBlk ta A i 0) (opBlk tb B 0 j) α ta tb
              (rA.opBlk (by omega) (by omega)) (rB.opBlk (by omega) (by omega))
              (by have := opBlk_depth (blk := A) (t := ta) hi (by omega : 0 < _); omega)
              (by have := opBlk_depth (blk := B) (t := tb) (by omega : 0 < _) hj; omega)
              (TransSafe_blocks ht hi (by omega) (by omega) hj)
              (RankSafe_blocks hr hi (by omega) (by omega) hj) hin
            exact ⟨D, hD, rD.even, rD, dD⟩)
          (fun i hi k hk j hj D hD hdd => T.tot (by omega) (rA.opBlk (by omega) (by omega))
            (rB.opBlk (by omega) (by omega)) hD.1
            (by have := opBlk_depth (blk := A) hi hk; omega)
            (by have := opBlk_depth (blk := B) (t := tb) (by omega : k < _) hj; omega) hD.2
            (TransSafe_blocks ht hi hk (by omega) hj) (RankSafe_blocks hr hi hk (by omega) hj) hdd)
        have N := (gemmBoth_ok hf (n1 + 1)).2 _ _ _ _ _ _ rA.wf rB.wf ht hr h
        refine ⟨_, h, ⟨N.wf, ev, m1, m4, fun i hi j hj => (hout i hi j hj).1.sub⟩, ?_⟩
        simp only [Mat.depth]
        have : (range (opDim0 ta p q)).sup (fun i => (range (opDim1 tb r s)).sup (fun j => (out i j).depth)) ≤ e :=
          Finset.sup_le (fun i hi => Finset.sup_le (fun j hj =>
            (hout i (Finset.mem_range.1 hi) j (Finset.mem_range.1 hj)).2))
        omega

end Blocks

end Mat
end Verif
