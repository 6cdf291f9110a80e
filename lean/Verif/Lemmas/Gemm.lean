import Verif.Lemmas.Arith

set_option linter.unusedSectionVars false
set_option linter.unusedVariables false
set_option linter.unusedSimpArgs false

namespace Verif
open Finset

variable {R : Type} [CommRing R]

/-! ### products of entry functions -/

/-- Product of two entry functions with inner dimension `k`. -/
def mm (k : Nat) (f g : Nat → Nat → R) (i j : Nat) : R := ∑ l ∈ range k, f i l * g l j

/-- Multiple of an entry function. -/
def smul (α : R) (f : Nat → Nat → R) (i j : Nat) : R := α * f i j

theorem mm_assoc (k m : Nat) (f g h : Nat → Nat → R) :
    mm k (mm m f g) h = mm m f (mm k g h) := by
  funext i j
  simp only [mm, Finset.sum_mul, Finset.mul_sum]
  rw [Finset.sum_comm]
  exact Finset.sum_congr rfl (fun _ _ => Finset.sum_congr rfl (fun _ _ => by ring))

theorem mm_congr {k : Nat} {f f' g g' : Nat → Nat → R} {i j : Nat} (h1 : ∀ l < k, f i l = f' i l)
    (h2 : ∀ l < k, g l j = g' l j) : mm k f g i j = mm k f' g' i j :=
  Finset.sum_congr rfl (fun l hl => by
    rw [h1 l (Finset.mem_range.1 hl), h2 l (Finset.mem_range.1 hl)])

theorem mm_smul_left (k : Nat) (α : R) (f g : Nat → Nat → R) :
    mm k (smul α f) g = smul α (mm k f g) := by
  funext i j
  simp only [mm, smul, Finset.mul_sum]
  exact Finset.sum_congr rfl (fun _ _ => by ring)

theorem mm_smul_right (k : Nat) (α : R) (f g : Nat → Nat → R) :
    mm k f (smul α g) = smul α (mm k f g) := by
  funext i j
  simp only [mm, smul, Finset.mul_sum]
  exact Finset.sum_congr rfl (fun _ _ => by ring)

@[simp] theorem smul_one (f : Nat → Nat → R) : smul 1 f = f := by
  funext i j; simp [smul]

namespace Mat

/-- `op` of a dense matrix. -/
def dop (t : Bool) (d : Dense R) : Dense R := if t then d.transpose else d

/-- `op` of a low-rank matrix. -/
def lop (t : Bool) (l : LowRank R) : LowRank R := if t then l.transpose else l

theorem lop_wf {t : Bool} {l : LowRank R} (h : l.WF) : (lop t l).WF := by
  cases t
  · exact h
  · exact ⟨rfl, by simp [lop, LowRank.transpose, LowRank.ofFactors, Dense.transpose, h.vrows],
      rfl, by simp [lop, LowRank.transpose, LowRank.ofFactors, Dense.transpose, h.ucols, h.srows],
      rfl⟩

theorem lop_uniform {t : Bool} {l : LowRank R} {k : Nat} (h : l.WF)
    (hu : (Mat.lowRank l).UniformRank k) : (lop t l).S.rows = k ∧ (lop t l).S.cols = k := by
  cases t
  · exact ⟨by rw [← hu.1]; exact h.srows, hu.2⟩
  · exact ⟨hu.2, by rw [← hu.1]; exact h.srows⟩

theorem lop_dim0 {t : Bool} {l : LowRank R} (h : l.WF) : (lop t l).dim0 = opRows t (.lowRank l) := by
  cases t
  · rfl
  · simp [lop, LowRank.transpose, LowRank.ofFactors, Dense.transpose, h.vcols, opRows, nCols]

theorem lop_dim1 {t : Bool} {l : LowRank R} (h : l.WF) : (lop t l).dim1 = opCols t (.lowRank l) := by
  cases t
  · rfl
  · simp [lop, LowRank.transpose, LowRank.ofFactors, Dense.transpose, h.urows, opCols, nRows]

theorem lop_entry {t : Bool} {l : LowRank R} (h : l.WF) (i j : Nat) :
    opEntry t (.lowRank l) i j = (lop t l).entry i j := by
  cases t
  · rfl
  · simp only [opEntry, if_true, entry, lop]
    exact (LowRank_transpose_entry l j i).symm

theorem lop_U (t : Bool) (l : LowRank R) : (lop t l).U = if t then l.V.transpose else l.U := by
  cases t <;> rfl
theorem lop_S (t : Bool) (l : LowRank R) : (lop t l).S = if t then l.S.transpose else l.S := by
  cases t <;> rfl
theorem lop_V (t : Bool) (l : LowRank R) : (lop t l).V = if t then l.U.transpose else l.V := by
  cases t <;> rfl

theorem dop_U (t : Bool) (l : LowRank R) : dop t (if t then l.V else l.U) = (lop t l).U := by
  cases t <;> rfl
theorem dop_S (t : Bool) (l : LowRank R) : dop t l.S = (lop t l).S := by
  cases t <;> rfl
theorem dop_V (t : Bool) (l : LowRank R) : dop t (if t then l.U else l.V) = (lop t l).V := by
  cases t <;> rfl
@[simp] theorem dop_false (d : Dense R) : dop false d = d := rfl

theorem dop_rows (t : Bool) (d : Dense R) : (dop t d).rows = opRows t (.dense d) := by
  cases t <;> rfl
theorem dop_cols (t : Bool) (d : Dense R) : (dop t d).cols = opCols t (.dense d) := by
  cases t <;> rfl
theorem dop_val (t : Bool) (d : Dense R) (i j : Nat) :
    (dop t d).val i j = opEntry t (.dense d) i j := by
  cases t <;> rfl

theorem LowRank_entry_mm (l : LowRank R) :
    l.entry = mm l.S.cols (mm l.S.rows l.U.val l.S.val) l.V.val := rfl

/-- `gemm` on dense matrices. -/
theorem Dense_gemm_spec {A B C D : Dense R} {α β : R} {ta tb : Bool}
    (h : Dense.gemm A B C α β ta tb = .ok D) :
    (dop ta A).rows = C.rows ∧ (dop ta A).cols = (dop tb B).rows ∧ (dop tb B).cols = C.cols ∧
    D.rows = C.rows ∧ D.cols = C.cols ∧
    ∀ i j, D.val i j = α * mm (dop ta A).cols (dop ta A).val (dop tb B).val i j + β * C.val i j := by
  obtain ⟨⟨h1, h2, h3⟩, rfl⟩ := Dense_gemm_eq_ok h
  cases ta <;> cases tb <;> exact ⟨h1, h2, h3, rfl, rfl, fun i j => rfl⟩

/-- `gemm` on dense matrices returning a new one. -/
theorem Dense_gemmNew_spec {A B D : Dense R} {α : R} {ta tb : Bool}
    (h : Dense.gemmNew A B α ta tb = .ok D) :
    (dop ta A).cols = (dop tb B).rows ∧ D.rows = (dop ta A).rows ∧ D.cols = (dop tb B).cols ∧
    D.val = smul α (mm (dop ta A).cols (dop ta A).val (dop tb B).val) := by
  simp only [Dense.gemmNew, except_bind_eq_ok] at h
  obtain ⟨-, -, h⟩ := h
  obtain ⟨h1, h2, h3, h4, h5, h6⟩ := Dense_gemm_spec h
  refine ⟨h2, by rw [h4, ← h1], by rw [h5, ← h3], ?_⟩
  funext i j
  rw [h6]; simp [smul]

/-! ### specification of a product -/

/-- The dimensions fit. -/
structure GemmDims (ta tb : Bool) (A B C : Mat R) : Prop where
  rows : A.opRows ta = C.nRows
  inner : A.opCols ta = B.opRows tb
  cols : B.opCols tb = C.nCols

/-- `C'` is `alpha * op(A) * op(B) + beta * C` with the structure of `C`; at
entries outside dense blocks only if `ex` holds. -/
structure GemmPost (ex : Prop) (A B C C' : Mat R) (α β : R) (ta tb : Bool) : Prop where
  wf : C'.WF
  sqr : C'.Square
  shape : C.SameShape C'
  ent : ∀ i < C.nRows, ∀ j < C.nCols, (C.denseAt i j ∨ ex) →
    C'.entry i j = α * prodEntry ta tb A B i j + β * C.entry i j

/-- What is known about a recursive call. -/
def GemmOk (ex sq : Prop) (g : GemmT R) : Prop :=
  ∀ A B C α β ta tb C', A.WF → B.WF → C.WF → C.Square → TransSafe ta tb A B → RankSafe sq A B →
    g A B C α β ta tb = .ok C' → GemmDims ta tb A B C ∧ GemmPost ex A B C C' α β ta tb

/-- `D` is a new matrix `alpha * op(A) * op(B)`. -/
structure GemmNewPost (A B D : Mat R) (α : R) (ta tb : Bool) : Prop where
  inner : A.opCols ta = B.opRows tb
  wf : D.WF
  leaves : D.DenseLeaves
  rows : D.nRows = A.opRows ta
  cols : D.nCols = B.opCols tb
  ent : ∀ i < D.nRows, ∀ j < D.nCols, D.entry i j = α * prodEntry ta tb A B i j

def GemmNewOk (sq : Prop) (gn : GemmNewT R) : Prop :=
  ∀ A B α ta tb D, A.WF → B.WF → TransSafe ta tb A B → RankSafe sq A B →
    gn A B α ta tb = .ok D → GemmNewPost A B D α ta tb

theorem DenseLeaves.square {A : Mat R} (h : A.DenseLeaves) : A.Square := by
  induction A with
  | dense d => trivial
  | lowRank l => exact h.elim
  | empty => exact h.elim
  | hier br bc blk ih => exact fun i hi j hj => ih i j (h i hi j hj)

theorem DenseLeaves.denseAt {A : Mat R} (h : A.DenseLeaves) {i j : Nat} (hi : i < A.nRows)
    (hj : j < A.nCols) (hA : A.WF) : A.denseAt i j := by
  induction A generalizing i j with
  | dense d => trivial
  | lowRank l => exact h.elim
  | empty => exact h.elim
  | hier br bc blk ih =>
    simp only [WF] at hA
    rw [nRows_hier] at hi
    rw [nCols_hier] at hj
    obtain ⟨p, hp, r, hr, rfl⟩ := exists_block _ _ _ hi
    obtain ⟨q, hq, s, hs, rfl⟩ := exists_block _ _ _ hj
    rw [denseAt_block hp hq hr hs]
    have := hA.2.2 p hp q hq
    exact ih p q (h p hp q hq) (by rw [this.2.1]; exact hr) (by rw [this.2.2]; exact hs) this.1

theorem DenseLeaves.shape {A B : Mat R} (h : A.DenseLeaves) (hs : A.SameShape B) :
    B.DenseLeaves := by
  induction A generalizing B with
  | dense d => cases B <;> first | exact hs.elim | trivial
  | lowRank l => exact h.elim
  | empty => exact h.elim
  | hier br bc blk ih =>
    cases B <;> try exact hs.elim
    obtain ⟨rfl, rfl, hs⟩ := hs
    exact fun i hi j hj => ih i j (h i hi j hj) (hs i hi j hj)

theorem opRows_same {t : Bool} {A A' : Mat R} (h : SameEntries A A') : A.opRows t = A'.opRows t := by
  cases t
  · exact h.1
  · exact h.2.1

theorem opCols_same {t : Bool} {A A' : Mat R} (h : SameEntries A A') : A.opCols t = A'.opCols t := by
  cases t
  · exact h.2.1
  · exact h.1

theorem opEntry_same {t : Bool} {A A' : Mat R} (h : SameEntries A A') {i j : Nat}
    (hi : i < A.opRows t) (hj : j < A.opCols t) : A.opEntry t i j = A'.opEntry t i j := by
  cases t
  · exact h.2.2 i hi j hj
  · exact h.2.2 j hj i hi

theorem SameEntries.symm' {A B : Mat R} (h : SameEntries A B) : SameEntries B A :=
  ⟨h.1.symm, h.2.1.symm, fun i hi j hj =>
    (h.2.2 i (by rw [h.1]; exact hi) j (by rw [h.2.1]; exact hj)).symm⟩

theorem prodEntry_same {ta tb : Bool} {A A' B B' : Mat R} (hA : SameEntries A A')
    (hB : SameEntries B B') (hin : A.opCols ta = B.opRows tb) {i j : Nat} (hi : i < A.opRows ta)
    (hj : j < B.opCols tb) : prodEntry ta tb A B i j = prodEntry ta tb A' B' i j := by
  unfold prodEntry
  rw [← opCols_same hA]
  refine Finset.sum_congr rfl (fun l hl => ?_)
  rw [Finset.mem_range] at hl
  rw [opEntry_same hA hi hl, opEntry_same hB (by rw [← hin]; exact hl) hj]

/-- Replacing the factors by other representations of the same matrices. -/
theorem GemmPost.congr {ex : Prop} {ta tb : Bool} {A A' B B' C C' : Mat R} {α β : R}
    (hd : GemmDims ta tb A B C) (hA : SameEntries A A') (hB : SameEntries B B')
    (h : GemmPost ex A' B' C C' α β ta tb) : GemmPost ex A B C C' α β ta tb := by
  refine ⟨h.wf, h.sqr, h.shape, fun i hi j hj hP => ?_⟩
  rw [h.ent i hi j hj hP, prodEntry_same hA hB hd.inner (by rw [hd.rows]; exact hi)
    (by rw [hd.cols]; exact hj)]

/-- A 1-by-1 block matrix represents its block. -/
theorem same_one {A : Nat → Nat → Mat R} (hA : (Mat.hier 1 1 A).WF) :
    SameEntries (Mat.hier 1 1 A) (A 0 0) := by
  have r1 : (Mat.hier 1 1 A).nRows = (A 0 0).nRows := by simp [nRows_hier, psum]
  have r2 : (Mat.hier 1 1 A).nCols = (A 0 0).nCols := by simp [nCols_hier, psum]
  refine ⟨r1, r2, fun i hi j hj => ?_⟩
  have := entry_block (br := 1) (bc := 1) (blk := A) (a := 0) (b := 0) (r := i) (s := j)
    (by omega) (by omega) (by rw [← r1]; exact hi) (by rw [← r2]; exact hj)
  simpa [psum] using this

/-! ### leaf products -/

theorem prodEntry_dd (ta tb : Bool) (a b : Dense R) (i j : Nat) :
    prodEntry ta tb (.dense a) (.dense b) i j =
      mm (dop ta a).cols (dop ta a).val (dop tb b).val i j := by
  unfold prodEntry mm
  rw [dop_cols]
  exact Finset.sum_congr rfl (fun l _ => by rw [dop_val, dop_val])

theorem prodEntry_ld {ta tb : Bool} {a : LowRank R} (ha : a.WF) (b : Dense R) (i j : Nat) :
    prodEntry ta tb (.lowRank a) (.dense b) i j =
      mm (lop ta a).dim1 (lop ta a).entry (dop tb b).val i j := by
  unfold prodEntry mm
  rw [lop_dim1 ha]
  exact Finset.sum_congr rfl (fun l _ => by rw [lop_entry ha, dop_val])

theorem prodEntry_dl {ta tb : Bool} (a : Dense R) {b : LowRank R} (hb : b.WF) (i j : Nat) :
    prodEntry ta tb (.dense a) (.lowRank b) i j =
      mm (dop ta a).cols (dop ta a).val (lop tb b).entry i j := by
  unfold prodEntry mm
  rw [dop_cols]
  exact Finset.sum_congr rfl (fun l _ => by rw [lop_entry hb, dop_val])

theorem prodEntry_ll {ta tb : Bool} {a b : LowRank R} (ha : a.WF) (hb : b.WF) (i j : Nat) :
    prodEntry ta tb (.lowRank a) (.lowRank b) i j =
      mm (lop ta a).dim1 (lop ta a).entry (lop tb b).entry i j := by
  unfold prodEntry mm
  rw [lop_dim1 ha]
  exact Finset.sum_congr rfl (fun l _ => by rw [lop_entry ha, lop_entry hb])

theorem gemmLrDD_ok {a : LowRank R} {b c d : Dense R} {α β : R} {ta tb : Bool} (ha : a.WF)
    (h : gemmLrDD a b c α β ta tb = .ok d) : d.rows = c.rows ∧ d.cols = c.cols ∧
    ∀ i j, d.val i j = α * prodEntry ta tb (.lowRank a) (.dense b) i j + β * c.val i j := by
  simp only [gemmLrDD, except_bind_eq_ok] at h
  obtain ⟨x, hx, y, hy, h⟩ := h
  obtain ⟨x0, x1, x2, x3⟩ := Dense_gemmNew_spec hx
  obtain ⟨y0, y1, y2, y3⟩ := Dense_gemmNew_spec hy
  obtain ⟨d0, d1, d2, d3, d4, d5⟩ := Dense_gemm_spec h
  have w := lop_wf (t := ta) ha
  simp only [dop_V, dop_U, dop_S, dop_false] at *
  refine ⟨d3, d4, fun i j => ?_⟩
  rw [d5, prodEntry_ld ha, y3, x3]
  simp only [w.ucols, w.srows, w.vcols, one_mul, smul_one, mm_smul_right, LowRank_entry_mm, mm_assoc]
  rfl

theorem gemmDLrD_ok {a : Dense R} {b : LowRank R} {c d : Dense R} {α β : R} {ta tb : Bool}
    (hb : b.WF) (h : gemmDLrD a b c α β ta tb = .ok d) : d.rows = c.rows ∧ d.cols = c.cols ∧
    ∀ i j, d.val i j = α * prodEntry ta tb (.dense a) (.lowRank b) i j + β * c.val i j := by
  simp only [gemmDLrD, except_bind_eq_ok] at h
  obtain ⟨x, hx, y, hy, h⟩ := h
  obtain ⟨x0, x1, x2, x3⟩ := Dense_gemmNew_spec hx
  obtain ⟨y0, y1, y2, y3⟩ := Dense_gemmNew_spec hy
  obtain ⟨d0, d1, d2, d3, d4, d5⟩ := Dense_gemm_spec h
  have w := lop_wf (t := tb) hb
  simp only [dop_V, dop_U, dop_S, dop_false] at *
  refine ⟨d3, d4, fun i j => ?_⟩
  rw [d5, prodEntry_dl a hb, y3, x3, y2, x2]
  simp only [w.ucols, w.srows, one_mul, smul_one, mm_smul_left, mm_smul_right, LowRank_entry_mm, mm_assoc]
  rfl

theorem gemmLrLrD_ok {a b : LowRank R} {c d : Dense R} {α β : R} {ta tb : Bool}
    (ha : a.WF) (hb : b.WF)
    (h : gemmLrLrD a b c α β ta tb = .ok d) : d.rows = c.rows ∧ d.cols = c.cols ∧
    ∀ i j, d.val i j = α * prodEntry ta tb (.lowRank a) (.lowRank b) i j + β * c.val i j := by
  simp only [gemmLrLrD, except_bind_eq_ok] at h
  obtain ⟨x, hx, y, hy, z, hz, v, hv, h⟩ := h
  obtain ⟨x0, x1, x2, x3⟩ := Dense_gemmNew_spec hx
  obtain ⟨y0, y1, y2, y3⟩ := Dense_gemmNew_spec hy
  obtain ⟨z0, z1, z2, z3⟩ := Dense_gemmNew_spec hz
  obtain ⟨v0, v1, v2, v3⟩ := Dense_gemmNew_spec hv
  obtain ⟨d0, d1, d2, d3, d4, d5⟩ := Dense_gemm_spec h
  have w := lop_wf (t := ta) ha
  have w' := lop_wf (t := tb) hb
  simp only [dop_V, dop_U, dop_S, dop_false] at *
  refine ⟨d3, d4, fun i j => ?_⟩
  rw [d5, prodEntry_ll ha hb, v3, z3, y3, x3, v2, z2, y2, x2]
  simp only [w.ucols, w.srows, w.vcols, w'.ucols, w'.srows, one_mul, smul_one, mm_smul_left,
    mm_smul_right, LowRank_entry_mm, mm_assoc]
  rfl

/-! ### adding a low-rank product -/

theorem ofFactors_entry {U S V : Dense R} (i j : Nat) :
    (LowRank.ofFactors U S V).entry i j = mm S.cols (mm S.rows U.val S.val) V.val i j := rfl

/-- `C *= beta; C += X` where `X` is `alpha * op(A) * op(B)`. -/
theorem scaleAdd_ok {o : LrOps R} {sq : Prop} (hf : o.Fits sq) {A B C C' : Mat R} {X : LowRank R}
    {α β : R} {ta tb : Bool} (hC : C.WF) (hCs : C.Square) (hX : X.WF) (hXs : sq → X.Square)
    (hE : ∀ i < X.dim0, ∀ j < X.dim1, X.entry i j = α * prodEntry ta tb A B i j)
    (h : scaleAdd o C β X = .ok C') : GemmPost (o.Exact sq) A B C C' α β ta tb := by
  simp only [scaleAdd, except_bind_eq_ok] at h
  obtain ⟨D, hD, h⟩ := h
  obtain ⟨w1, s1, e1⟩ := scale_shape hC hD
  obtain ⟨⟨d1, d2⟩, q2, w2, s2, e2⟩ := addAssign_ok (B := .lowRank X) hf w1 (scale_square hCs hD) hX
    hXs (by cases D <;> trivial) h
  have dd := s1.dims hC
  refine ⟨w2, q2, s1.trans s2, fun i hi j hj hP => ?_⟩
  rw [e2 i (by rw [dd.1]; exact hi) j (by rw [dd.2]; exact hj)
    (by rwa [s1.denseAt hC hi hj]), e1 i hi j hj]
  have : (Mat.lowRank X).entry i j = X.entry i j := rfl
  rw [this, hE i (by rw [show X.dim0 = (Mat.lowRank X).nRows from rfl, ← d1, dd.1]; exact hi) j
    (by rw [show X.dim1 = (Mat.lowRank X).nCols from rfl, ← d2, dd.2]; exact hj)]
  ring

/-- Value of `LR *` products with the right factor of the low-rank matrix
multiplied first. -/
theorem lr_left {sq : Prop} {a : LowRank R} (ha : a.WF) {B : Mat R} {V : Dense R} {α : R} {ta tb : Bool}
    (hr : RankSafe sq (.lowRank a) B)
    (hV : ∀ i < (lop ta a).S.cols, ∀ j < V.cols, V.val i j = α * mm (lop ta a).dim1 (lop ta a).V.val
      (B.opEntry tb) i j) (h0 : V.rows = (lop ta a).S.cols) :
    (LowRank.ofFactors (lop ta a).U (lop ta a).S V).WF ∧
    (sq → (LowRank.ofFactors (lop ta a).U (lop ta a).S V).Square) ∧
    ∀ i < (LowRank.ofFactors (lop ta a).U (lop ta a).S V).dim0,
      ∀ j < (LowRank.ofFactors (lop ta a).U (lop ta a).S V).dim1,
      (LowRank.ofFactors (lop ta a).U (lop ta a).S V).entry i j =
        α * prodEntry ta tb (.lowRank a) B i j := by
  have w := lop_wf (t := ta) ha
  refine ⟨ofFactors_wf (by rw [w.ucols, w.srows]) h0, ?_, ?_⟩
  · intro hs
    obtain ⟨k, hk, -⟩ := hr hs
    have := lop_uniform (t := ta) ha hk
    show (lop ta a).S.cols = (lop ta a).S.rows
    rw [this.1, this.2]
  intro i _ j hj
  rw [ofFactors_entry]
  have e : prodEntry ta tb (.lowRank a) B i j =
      mm (lop ta a).dim1 (lop ta a).entry (B.opEntry tb) i j := by
    unfold prodEntry mm
    rw [lop_dim1 ha]
    exact Finset.sum_congr rfl (fun l _ => by rw [lop_entry ha])
  rw [e, LowRank_entry_mm, mm_congr (g' := smul α (mm (lop ta a).dim1 (lop ta a).V.val (B.opEntry tb)))
    (fun _ _ => rfl) (fun l hl => hV l hl j hj), mm_smul_right, mm_assoc, mm_assoc, mm_assoc]
  rfl

theorem lr_right {sq : Prop} {b : LowRank R} (hb : b.WF) {A : Mat R} {U : Dense R} {α : R} {ta tb : Bool}
    (hr : RankSafe sq A (.lowRank b))
    (hU : ∀ i < U.rows, ∀ j < (lop tb b).S.rows, U.val i j = α * mm (A.opCols ta) (A.opEntry ta)
      (lop tb b).U.val i j) (h0 : U.cols = (lop tb b).S.rows) :
    (LowRank.ofFactors U (lop tb b).S (lop tb b).V).WF ∧
    (sq → (LowRank.ofFactors U (lop tb b).S (lop tb b).V).Square) ∧
    ∀ i < (LowRank.ofFactors U (lop tb b).S (lop tb b).V).dim0,
      ∀ j < (LowRank.ofFactors U (lop tb b).S (lop tb b).V).dim1,
      (LowRank.ofFactors U (lop tb b).S (lop tb b).V).entry i j =
        α * prodEntry ta tb A (.lowRank b) i j := by
  have w := lop_wf (t := tb) hb
  refine ⟨ofFactors_wf h0 w.vrows, ?_, ?_⟩
  · intro hs
    obtain ⟨k, -, hk⟩ := hr hs
    have := lop_uniform (t := tb) hb hk
    show (lop tb b).S.cols = (lop tb b).S.rows
    rw [this.1, this.2]
  intro i hi j _
  rw [ofFactors_entry]
  have e : prodEntry ta tb A (.lowRank b) i j =
      mm (A.opCols ta) (A.opEntry ta) (lop tb b).entry i j := by
    unfold prodEntry mm
    exact Finset.sum_congr rfl (fun l _ => by rw [lop_entry hb])
  rw [e, LowRank_entry_mm, mm_assoc, mm_congr (f' := smul α (mm (A.opCols ta) (A.opEntry ta) (lop tb b).U.val))
    (fun l hl => hU i hi l hl) (fun _ _ => rfl), mm_smul_left, mm_assoc, mm_assoc]
  rfl

theorem gemmLrD_ok {o : LrOps R} {sq : Prop} (hf : o.Fits sq) {a : LowRank R} {b : Dense R}
    {C C' : Mat R} {α β : R} {ta tb : Bool} (ha : a.WF) (hC : C.WF) (hCs : C.Square)
    (hr : RankSafe sq (.lowRank a) (.dense b)) (h : gemmLrD o a b C α β ta tb = .ok C') :
    GemmPost (o.Exact sq) (.lowRank a) (.dense b) C C' α β ta tb := by
  simp only [gemmLrD, except_bind_eq_ok] at h
  obtain ⟨V, hV, h⟩ := h
  obtain ⟨v0, v1, v2, v3⟩ := Dense_gemmNew_spec hV
  have w := lop_wf (t := ta) ha
  rw [← lop_U, ← lop_S] at h
  rw [dop_V] at v0 v1 v3
  obtain ⟨wx, sx, hx⟩ := lr_left (ta := ta) (tb := tb) ha (B := .dense b) (V := V) (α := α) hr (by
    intro i _ j _
    rw [v3, w.vcols]
    simp only [smul]
    congr 1
    exact mm_congr (fun _ _ => rfl) (fun l _ => dop_val _ _ _ _)) (by rw [v1, w.vrows])
  exact scaleAdd_ok hf hC hCs wx sx hx h

theorem gemmDLr_ok {o : LrOps R} {sq : Prop} (hf : o.Fits sq) {a : Dense R} {b : LowRank R}
    {C C' : Mat R} {α β : R} {ta tb : Bool} (hb : b.WF) (hC : C.WF) (hCs : C.Square)
    (hr : RankSafe sq (.dense a) (.lowRank b)) (h : gemmDLr o a b C α β ta tb = .ok C') :
    GemmPost (o.Exact sq) (.dense a) (.lowRank b) C C' α β ta tb := by
  simp only [gemmDLr, except_bind_eq_ok] at h
  obtain ⟨U, hU, h⟩ := h
  obtain ⟨v0, v1, v2, v3⟩ := Dense_gemmNew_spec hU
  have w := lop_wf (t := tb) hb
  rw [← lop_V, ← lop_S] at h
  rw [dop_U] at v0 v2 v3
  obtain ⟨wx, sx, hx⟩ := lr_right (ta := ta) (tb := tb) hb (A := .dense a) (U := U) (α := α) hr (by
    intro i _ j _
    rw [v3]
    simp only [smul]
    congr 1
    rw [dop_cols]
    exact mm_congr (fun l _ => dop_val _ _ _ _) (fun _ _ => rfl)) (by rw [v2, w.ucols, w.srows])
  exact scaleAdd_ok hf hC hCs wx sx hx h

theorem gemmLrLr_ok {o : LrOps R} {sq : Prop} (hf : o.Fits sq) {a b : LowRank R} {C C' : Mat R}
    {α β : R} {ta tb : Bool} (ha : a.WF) (hb : b.WF) (hC : C.WF) (hCs : C.Square)
    (hr : RankSafe sq (.lowRank a) (.lowRank b)) (h : gemmLrLr o a b C α β ta tb = .ok C') :
    GemmPost (o.Exact sq) (.lowRank a) (.lowRank b) C C' α β ta tb := by
  simp only [gemmLrLr, except_bind_eq_ok] at h
  obtain ⟨x, hx, y, hy, S, hS, h⟩ := h
  obtain ⟨x0, x1, x2, x3⟩ := Dense_gemmNew_spec hx
  obtain ⟨y0, y1, y2, y3⟩ := Dense_gemmNew_spec hy
  obtain ⟨s0, s1, s2, s3⟩ := Dense_gemmNew_spec hS
  have w := lop_wf (t := ta) ha
  have w' := lop_wf (t := tb) hb
  rw [← lop_U, ← lop_V] at h
  simp only [dop_V, dop_U, dop_S, dop_false] at *
  have hSr : S.rows = (lop ta a).S.rows := by rw [s1, x1]
  have hSc : S.cols = (lop tb b).S.cols := by rw [s2, y2]
  refine scaleAdd_ok hf hC hCs (ofFactors_wf (by rw [w.ucols, hSr, w.srows])
    (by rw [w'.vrows, hSc])) ?_ ?_ h
  · intro hs
    obtain ⟨k, hk, hk'⟩ := hr hs
    show S.cols = S.rows
    rw [hSr, hSc, (lop_uniform (t := ta) ha hk).1, (lop_uniform (t := tb) hb hk').2]
  · intro i _ j _
    rw [ofFactors_entry, prodEntry_ll ha hb, s3, x3, y3, hSr, hSc, x2]
    simp only [w.vcols, w'.ucols, w'.srows, smul_one, mm_smul_left,
      mm_smul_right, LowRank_entry_mm, mm_assoc]
    rfl

end Mat
end Verif
