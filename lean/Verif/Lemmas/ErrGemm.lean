import Verif.Lemmas.GemmTop
import Verif.Spec.Within
import Mathlib.Tactic.Linarith
import Mathlib.Tactic.Positivity

set_option linter.unusedSectionVars false
set_option linter.unusedVariables false

/-
Truncation errors of structured products add up.
-/

namespace Verif
open Finset

namespace Mat

section
variable {R : Type} [CommRing R]

/-! ### positive inner dimensions -/

theorem opCols_not (t : Bool) (A : Mat R) : A.opCols (!t) = A.opRows t := by cases t <;> rfl

theorem Innr_leaf_left {ta tb : Bool} {A B : Mat R} (hA : A.NotHier) (hB : B.Wide (!tb)) :
    Innr ta tb A B := by
  have key : ∀ X : Mat R, X.opCols (!tb) = X.opRows tb := fun X => opCols_not tb X
  cases A <;> first | exact hA.elim | skip
  all_goals
    cases B <;> first | exact hB | exact Or.inr (by rw [← key]; exact hB)

theorem Innr_leaf_right {ta tb : Bool} {A B : Mat R} (hB : B.NotHier) (hA : A.Wide ta) :
    Innr ta tb A B := by
  cases B <;> first | exact hB.elim | skip
  all_goals
    cases A <;> first | exact hA | exact Or.inl hA

theorem Wide.innr {ta tb : Bool} {A B : Mat R} (hA : A.Wide ta) (hB : B.Wide (!tb)) :
    Innr ta tb A B := by
  induction A generalizing B with
  | dense a => exact Innr_leaf_left trivial hB
  | lowRank a => exact Innr_leaf_left trivial hB
  | empty m n => exact Innr_leaf_left trivial hB
  | hier p q A ih =>
    cases B with
    | hier r s B => exact fun i hi j hj k hk l hl _ => ih i j (hA i hi j hj) (hB k hk l hl)
    | dense => exact hA
    | lowRank => exact hA
    | empty => exact hA

theorem Innr_blocks {ta tb : Bool} {p q r s : Nat} {A B : Nat → Nat → Mat R}
    (h : Innr ta tb (.hier p q A) (.hier r s B)) {i k j : Nat} (hi : i < opDim0 ta p q)
    (hk : k < opDim1 ta p q) (hk' : k < opDim0 tb r s) (hj : j < opDim1 tb r s) :
    Innr ta tb (opBlk ta A i k) (opBlk tb B k j) := by
  cases ta <;> cases tb
  · exact h i hi k hk k hk' j hj rfl
  · exact h i hi k hk j hj k hk' rfl
  · exact h k hk i hi k hk' j hj rfl
  · exact h k hk i hi j hj k hk' rfl

theorem Wide_blk {t b : Bool} {p q : Nat} {A : Nat → Nat → Mat R} (h : (Mat.hier p q A).Wide b)
    {i j : Nat} (hi : i < opDim0 t p q) (hj : j < opDim1 t p q) : (opBlk t A i j).Wide b := by
  cases t
  · exact h i hi j hj
  · exact h j hj i hi

theorem Innr_split_left {ta tb : Bool} {nr nc : Nat} {b : Nat → Nat → Mat R}
    (h : ∀ i < nr, ∀ j < nc, ∃ d, b i j = .dense d) {r s : Nat} {B : Nat → Nat → Mat R}
    (hB : (Mat.hier r s B).Wide (!tb)) : Innr ta tb (.hier nr nc b) (.hier r s B) := by
  intro i hi j hj k hk l hl _
  obtain ⟨d, hd⟩ := h i hi j hj
  rw [hd]; exact Innr_leaf_left trivial (hB k hk l hl)

theorem Innr_split_right {ta tb : Bool} {nr nc : Nat} {b : Nat → Nat → Mat R}
    (h : ∀ i < nr, ∀ j < nc, ∃ d, b i j = .dense d) {r s : Nat} {A : Nat → Nat → Mat R}
    (hA : (Mat.hier r s A).Wide ta) : Innr ta tb (.hier r s A) (.hier nr nc b) := by
  intro i hi j hj k hk l hl _
  obtain ⟨d, hd⟩ := h k hk l hl
  rw [hd]; exact Innr_leaf_right trivial (hA i hi j hj)

theorem Wide.pos {t : Bool} {A : Mat R} (hA : A.WF) (h : A.Wide t) : 0 < A.opCols t := by
  induction A with
  | dense a => exact h
  | lowRank a => exact h
  | empty m n => exact h
  | hier p q A ih =>
    have G := grid_hier (t := t) hA
    have hb := Wide_blk (t := t) h G.m0 G.n0
    have hw := G.wf 0 G.m0 0 G.n0
    have : 0 < (opBlk t A 0 0).opCols t := by
      cases t <;> exact ih 0 0 hw hb
    rw [G.opCols]
    have e := psum_le (fun j => (opBlk t A 0 j).opCols t) G.n0
    beta_reduce at e
    omega

theorem Innr.pos {ta tb : Bool} {A B : Mat R} (hA : A.WF) (hB : B.WF) (h : Innr ta tb A B) :
    0 < A.opCols ta ∨ 0 < B.opRows tb := by
  have right : ∀ {A : Mat R}, A.NotHier → Innr ta tb A B → 0 < A.opCols ta ∨ 0 < B.opRows tb := by
    intro A hl h
    cases B with
    | hier r s B =>
      have hw : (Mat.hier r s B).Wide (!tb) := by
        cases A <;> first | exact hl.elim | exact h
      have := hw.pos hB
      rw [opCols_not] at this
      exact Or.inr this
    | _ => cases A <;> first | exact hl.elim | exact h
  induction A generalizing B with
  | dense a => exact right trivial h
  | lowRank a => exact right trivial h
  | empty m n => exact right trivial h
  | hier p q A ih =>
    clear right
    cases B with
    | hier r s B =>
      have GA := grid_hier (t := ta) hA
      have GB := grid_hier (t := tb) hB
      have hb := Innr_blocks h GA.m0 GA.n0 GB.m0 GB.n0
      have wA := GA.wf 0 GA.m0 0 GA.n0
      have wB := GB.wf 0 GB.m0 0 GB.n0
      have right' : ∀ {A : Mat R}, A.NotHier → Innr ta tb A (opBlk tb B 0 0) →
          0 < A.opCols ta ∨ 0 < (opBlk tb B 0 0).opRows tb := by
        intro A hl h
        generalize opBlk tb B 0 0 = X at *
        cases X with
        | hier r s B =>
          have hw : (Mat.hier r s B).Wide (!tb) := by
            cases A <;> first | exact hl.elim | exact h
          have := hw.pos wB
          rw [opCols_not] at this
          exact Or.inr this
        | _ => cases A <;> first | exact hl.elim | exact h
      have : 0 < (opBlk ta A 0 0).opCols ta ∨ 0 < (opBlk tb B 0 0).opRows tb := by
        cases ta <;> exact ih 0 0 wA wB hb right'
      rcases this with e | e
      · refine Or.inl ?_
        rw [GA.opCols]
        have e' := psum_le (fun j => (opBlk ta A 0 j).opCols ta) GA.n0
        beta_reduce at e'
        omega
      · refine Or.inr ?_
        rw [GB.opRows]
        have e' := psum_le (fun j => (opBlk tb B j 0).opRows tb) GB.m0
        beta_reduce at e'
        omega
    | dense => exact Or.inl (Wide.pos hA h)
    | lowRank => exact Or.inl (Wide.pos hA h)
    | empty => exact Or.inl (Wide.pos hA h)

/-- Splitting only the outer dimension keeps the inner one. -/
theorem wide_one {t : Bool} {p q : Nat} {A : Nat → Nat → Mat R} (hA : (Mat.hier p q A).WF)
    (h1 : opDim1 t p q = 1) (hl : ∀ i < p, ∀ j < q, ∃ d, A i j = .dense d)
    (h0 : 0 < (Mat.hier p q A).opCols t) : (Mat.hier p q A).Wide t := by
  have G := grid_hier (t := t) hA
  rw [G.opCols, h1] at h0
  have e0 : 0 < (opBlk t A 0 0).opCols t := by simpa [psum] using h0
  intro i hi j hj
  obtain ⟨d, hd⟩ := hl i hi j hj
  have : 0 < (A i j).opCols t := by
    cases t
    · have hj0 : j = 0 := by have : q = 1 := h1; omega
      subst hj0
      rw [show A i 0 = opBlk false A i 0 from rfl, G.cols i hi 0 G.n0]
      exact e0
    · have hj0 : i = 0 := by have : p = 1 := h1; omega
      subst hj0
      rw [show A 0 j = opBlk true A j 0 from rfl, G.cols j hj 0 G.n0]
      exact e0
  rw [hd] at this ⊢
  exact this

end

/-! ### error bounds -/

variable {K : Type} [Field K] [LinearOrder K] [IsStrictOrderedRing K]

/-- The result of a product is off by at most `2 τ` per unit of the inner
dimension. -/
def ErrPost (τ : K) (A B C C' : Mat K) (α β : K) (ta tb : Bool) : Prop :=
  ∀ i < C.nRows, ∀ j < C.nCols,
    |C'.entry i j - (α * prodEntry ta tb A B i j + β * C.entry i j)| ≤ 2 * (A.opCols ta : K) * τ

/-- What is known about the error of a recursive call. -/
def GemmErr (τ : K) (g : GemmT K) : Prop :=
  ∀ A B C α β ta tb C', A.WF → B.WF → C.WF → C.Square → TransSafe ta tb A B → Innr ta tb A B →
    g A B C α β ta tb = .ok C' → ErrPost τ A B C C' α β ta tb

theorem bound_of {n : Nat} {τ x : K} (hn : 0 < n) (hτ : 0 ≤ τ) (h : x ≤ 2 * τ) :
    x ≤ 2 * (n : K) * τ := by
  have : (1 : K) ≤ n := by exact_mod_cast hn
  have := mul_le_mul_of_nonneg_right this hτ
  linarith

theorem ErrPost.of_eq {ex : Prop} {τ : K} (hτ : 0 ≤ τ) {A B C C' : Mat K} {α β : K} {ta tb : Bool}
    (h : GemmPost ex A B C C' α β ta tb) (hd : ∀ i < C.nRows, ∀ j < C.nCols, C.denseAt i j) :
    ErrPost τ A B C C' α β ta tb := by
  intro i hi j hj
  rw [h.ent i hi j hj (Or.inl (hd i hi j hj)), sub_self, abs_zero]
  positivity

/-- A statement about entries, block by block. -/
theorem blockwise_pred {br bc : Nat} {blk g : Nat → Nat → Mat K} (hA : (Mat.hier br bc blk).WF)
    (E : Nat → Nat → K → Prop)
    (key : ∀ i < br, ∀ j < bc, (g i j).WF ∧ (blk i j).SameShape (g i j) ∧
      ∀ r < (blk i 0).nRows, ∀ s < (blk 0 j).nCols,
        E (psum (fun a => (blk a 0).nRows) i + r) (psum (fun b => (blk 0 b).nCols) j + s)
          ((g i j).entry r s)) :
    ∀ i < (Mat.hier br bc blk).nRows, ∀ j < (Mat.hier br bc blk).nCols,
      E i j ((Mat.hier br bc g).entry i j) := by
  have hA' := hA
  simp only [WF] at hA'
  obtain ⟨hbr, hbc, hd⟩ := hA'
  have G := hier_grid (blk := g) (h := fun a => (blk a 0).nRows) (w := fun b => (blk 0 b).nCols)
    hbr hbc (fun i hi j hj => ⟨(key i hi j hj).1, by
      rw [((key i hi j hj).2.1.dims (hd i hi j hj).1).1, (hd i hi j hj).2.1], by
      rw [((key i hi j hj).2.1.dims (hd i hi j hj).1).2, (hd i hi j hj).2.2]⟩)
  intro i hi j hj
  rw [nRows_hier] at hi
  rw [nCols_hier] at hj
  obtain ⟨p, hp, r, hr, rfl⟩ := exists_block _ _ _ hi
  obtain ⟨q, hq, s, hs, rfl⟩ := exists_block _ _ _ hj
  rw [(G.2.2.2 p hp q hq r hr s hs).1]
  exact (key p hp q hq).2.2 r hr s hs

/-- `A += X` with a low-rank `X`. -/
theorem addAssign_err {o : LrOps K} (hf : o.Fits False) {τ : K} (hτ : 0 ≤ τ) (hw : o.Within τ)
    {A A' : Mat K} {X : LowRank K} (hA : A.WF) (hAs : A.Square) (hX : X.WF)
    (h : A.addAssign o (.lowRank X) = .ok A') :
    ∀ i < A.nRows, ∀ j < A.nCols, |A'.entry i j - (A.entry i j + X.entry i j)| ≤ τ := by
  induction A generalizing X A' with
  | dense a =>
    obtain ⟨-, -, -, -, e⟩ := addAssign_ok (B := .lowRank X) hf hA hAs hX (fun h => h.elim) trivial h
    intro i hi j hj
    rw [e i hi j hj (Or.inl trivial)]
    show |_ + X.entry i j - _| ≤ τ
    rw [sub_self, abs_zero]
    exact hτ
  | lowRank a =>
    simp only [addAssign, LrOps.addAssign, except_bind_eq_ok, assertM_eq_ok, decide_eq_true_eq] at h
    obtain ⟨l, ⟨-, e1, -, e2, h1⟩, h⟩ := h
    cases h
    exact fun i hi j hj => hw.add a X l hA hAs hX e1 e2 h1 i hi j hj
  | empty => cases h
  | hier br bc blk ih =>
    have full := addAssign_ok (B := .lowRank X) hf hA hAs hX (fun h => h.elim) trivial h
    simp only [addAssign, except_bind_eq_ok] at h
    obtain ⟨BH, hs, h⟩ := h
    have hA' := hA
    simp only [WF] at hA'
    obtain ⟨hbr, hbc, hd⟩ := hA'
    obtain ⟨b', rfl, hsp⟩ := split_isSplit (A := .lowRank X) hX hbr hbc hs
    simp only [except_bind_eq_ok] at h
    obtain ⟨g, hg, h⟩ := h
    cases h
    have hlr : ∀ i < br, ∀ j < bc, ∃ l, b' i j = .lowRank l := by
      simp only [split, splitOmm, splitLowRank] at hs
      split at hs
      · have hs := Except.ok.inj hs
        injection hs with e1 e2 e3
        intro i _ j _
        rw [← e3]
        exact ⟨_, rfl⟩
      · cases hs
    have S := hsp.same hbr hbc
    have hBw := hsp.wf hbr hbc
    have hBw' := hBw
    simp only [WF] at hBw'
    obtain ⟨-, -, hbd⟩ := hBw'
    have step : ∀ i < br, ∀ j < bc, (blk i j).addAssign o (b' i j) = .ok (g i j) := by
      intro i hi j hj
      have := collect2_ok hg i hi j hj
      simp only [except_bind_eq_ok] at this
      obtain ⟨-, -, -, -, this⟩ := this
      exact this
    have one : ∀ i < br, ∀ j < bc, ((blk i j).nRows = (b' i j).nRows ∧
        (blk i j).nCols = (b' i j).nCols) ∧ (g i j).WF ∧ (blk i j).SameShape (g i j) ∧
        ∀ r < (blk i j).nRows, ∀ s < (blk i j).nCols,
          |(g i j).entry r s - ((blk i j).entry r s + (b' i j).entry r s)| ≤ τ := by
      intro i hi j hj
      obtain ⟨l, hl⟩ := hlr i hi j hj
      have st := step i hi j hj
      have wl := (hbd i hi j hj).1
      rw [hl] at st wl ⊢
      have ok := addAssign_ok (B := .lowRank l) hf (hd i hi j hj).1 (hAs i hi j hj) wl
        (fun h => h.elim) (by cases blk i j <;> trivial) st
      exact ⟨ok.1, ok.2.2.1, ok.2.2.2.1,
        ih i j (hd i hi j hj).1 (hAs i hi j hj) wl st⟩
    have d1 : ∀ a < br, (blk a 0).nRows = (b' a 0).nRows := fun a ha => (one a ha 0 hbc).1.1
    have d2 : ∀ a < bc, (blk 0 a).nCols = (b' 0 a).nCols := fun a ha => (one 0 hbr a ha).1.2
    refine blockwise_pred hA
      (fun i j v => |v - ((Mat.hier br bc blk).entry i j + X.entry i j)| ≤ τ) ?_
    intro i hi j hj
    refine ⟨(one i hi j hj).2.1, (one i hi j hj).2.2.1, fun r hr s hs => ?_⟩
    have key := (one i hi j hj).2.2.2 r (by rw [(hd i hi j hj).2.1]; exact hr) s
      (by rw [(hd i hi j hj).2.2]; exact hs)
    rw [entry_block hi hj hr hs]
    have eX : X.entry (psum (fun a => (blk a 0).nRows) i + r) (psum (fun b => (blk 0 b).nCols) j + s) =
        (b' i j).entry r s := by
      rw [psum_congr (fun a ha => d1 a (by omega)), psum_congr (fun a ha => d2 a (by omega))]
      have hr' : r < (b' i 0).nRows := by rw [← d1 i hi]; exact hr
      have hs' : s < (b' 0 j).nCols := by rw [← d2 j hj]; exact hs
      rw [← entry_block (blk := b') hi hj hr' hs']
      refine (S.2.2 _ ?_ _ ?_).symm
      · rw [nRows_hier]
        have := psum_le (fun a => (b' a 0).nRows) hi
        beta_reduce at this ⊢
        omega
      · rw [nCols_hier]
        have := psum_le (fun a => (b' 0 a).nCols) hj
        beta_reduce at this ⊢
        omega
    rw [eX]
    exact key

/-- `C *= beta; C += X` where `X` is `alpha * op(A) * op(B)`. -/
theorem scaleAdd_err {o : LrOps K} (hf : o.Fits False) {τ : K} (hτ : 0 ≤ τ) (hw : o.Within τ)
    {A B C C' : Mat K} {X : LowRank K}
    {α β : K} {ta tb : Bool} (hp : 0 < A.opCols ta) (hC : C.WF) (hCs : C.Square) (hX : X.WF)
    (hE : ∀ i < X.dim0, ∀ j < X.dim1, X.entry i j = α * prodEntry ta tb A B i j)
    (h : scaleAdd o C β X = .ok C') : ErrPost τ A B C C' α β ta tb := by
  simp only [scaleAdd, except_bind_eq_ok] at h
  obtain ⟨D, hD, h⟩ := h
  obtain ⟨w1, s1, e1⟩ := scale_shape hC hD
  obtain ⟨⟨d1, d2⟩, -⟩ := addAssign_ok (B := .lowRank X) hf w1 (scale_square hCs hD) hX
    (fun h => h.elim) (by cases D <;> trivial) h
  have e2 := addAssign_err hf hτ hw w1 (scale_square hCs hD) hX h
  have dd := s1.dims hC
  intro i hi j hj
  have := e2 i (by rw [dd.1]; exact hi) j (by rw [dd.2]; exact hj)
  rw [e1 i hi j hj, hE i (by rw [show X.dim0 = (Mat.lowRank X).nRows from rfl, ← d1, dd.1]; exact hi) j
    (by rw [show X.dim1 = (Mat.lowRank X).nCols from rfl, ← d2, dd.2]; exact hj)] at this
  refine bound_of hp hτ ?_
  have e : C'.entry i j - (α * prodEntry ta tb A B i j + β * C.entry i j) =
      C'.entry i j - (C.entry i j * β + α * prodEntry ta tb A B i j) := by ring
  rw [e]
  linarith

theorem rankSafe_false (A B : Mat K) : RankSafe False A B := fun h => h.elim

theorem gemmLrD_err {o : LrOps K} (hf : o.Fits False) {τ : K} (hτ : 0 ≤ τ) (hw : o.Within τ)
    {a : LowRank K} {b : Dense K} {C C' : Mat K} {α β : K} {ta tb : Bool}
    (hp : 0 < (Mat.lowRank a).opCols ta) (ha : a.WF) (hC : C.WF) (hCs : C.Square)
    (h : gemmLrD o a b C α β ta tb = .ok C') :
    ErrPost τ (.lowRank a) (.dense b) C C' α β ta tb := by
  simp only [gemmLrD, except_bind_eq_ok] at h
  obtain ⟨V, hV, h⟩ := h
  obtain ⟨v0, v1, v2, v3⟩ := Dense_gemmNew_spec hV
  have w := lop_wf (t := ta) ha
  rw [← lop_U, ← lop_S] at h
  rw [dop_V] at v0 v1 v3
  obtain ⟨wx, sx, hx⟩ := lr_left (ta := ta) (tb := tb) ha (B := .dense b) (V := V) (α := α)
    (rankSafe_false _ _) (by
    intro i _ j _
    rw [v3, w.vcols]
    simp only [smul]
    congr 1
    exact mm_congr (fun _ _ => rfl) (fun l _ => dop_val _ _ _ _)) (by rw [v1, w.vrows])
  exact scaleAdd_err hf hτ hw hp hC hCs wx hx h

theorem gemmDLr_err {o : LrOps K} (hf : o.Fits False) {τ : K} (hτ : 0 ≤ τ) (hw : o.Within τ)
    {a : Dense K} {b : LowRank K} {C C' : Mat K} {α β : K} {ta tb : Bool}
    (hp : 0 < (Mat.dense a).opCols ta) (hb : b.WF) (hC : C.WF) (hCs : C.Square)
    (h : gemmDLr o a b C α β ta tb = .ok C') :
    ErrPost τ (.dense a) (.lowRank b) C C' α β ta tb := by
  simp only [gemmDLr, except_bind_eq_ok] at h
  obtain ⟨U, hU, h⟩ := h
  obtain ⟨v0, v1, v2, v3⟩ := Dense_gemmNew_spec hU
  have w := lop_wf (t := tb) hb
  rw [← lop_V, ← lop_S] at h
  rw [dop_U] at v0 v2 v3
  obtain ⟨wx, sx, hx⟩ := lr_right (ta := ta) (tb := tb) hb (A := .dense a) (U := U) (α := α)
    (rankSafe_false _ _) (by
    intro i _ j _
    rw [v3]
    simp only [smul]
    congr 1
    rw [dop_cols]
    exact mm_congr (fun l _ => dop_val _ _ _ _) (fun _ _ => rfl)) (by rw [v2, w.ucols, w.srows])
  exact scaleAdd_err hf hτ hw hp hC hCs wx hx h

theorem gemmLrLr_err {o : LrOps K} (hf : o.Fits False) {τ : K} (hτ : 0 ≤ τ) (hw : o.Within τ)
    {a b : LowRank K} {C C' : Mat K} {α β : K} {ta tb : Bool} (hp : 0 < (Mat.lowRank a).opCols ta)
    (ha : a.WF) (hb : b.WF) (hC : C.WF) (hCs : C.Square) (h : gemmLrLr o a b C α β ta tb = .ok C') :
    ErrPost τ (.lowRank a) (.lowRank b) C C' α β ta tb := by
  simp only [gemmLrLr, except_bind_eq_ok] at h
  obtain ⟨x, hx, y, hy, S, hS, h⟩ := h
  obtain ⟨x0, x1, x2, x3⟩ := Dense_gemmNew_spec hx
  obtain ⟨y0, y1, y2, y3⟩ := Dense_gemmNew_spec hy
  obtain ⟨s0, s1, s2, s3⟩ := Dense_gemmNew_spec hS
  have w := lop_wf (t := ta) ha
  have w' := lop_wf (t := tb) hb
  rw [← lop_U, ← lop_V] at h
  simp only [dop_V, dop_U, dop_S, dop_false] at *
  have hSr : S.rows = (lop ta a).S.rows := by rw [s1, x1]
  have hSc : S.cols = (lop tb b).S.cols := by rw [s2, y2]
  refine scaleAdd_err hf hτ hw hp hC hCs (ofFactors_wf (by rw [w.ucols, hSr, w.srows])
    (by rw [w'.vrows, hSc])) ?_ h
  intro i _ j _
  rw [ofFactors_entry, prodEntry_ll ha hb, s3, x3, y3, hSr, hSc, x2]
  simp only [w.vcols, w'.ucols, w'.srows, smul_one, mm_smul_left,
    mm_smul_right, LowRank_entry_mm, mm_assoc]
  rfl

/-! ### accumulating products -/

theorem loop_err {ex : Prop} {g : GemmT K} (hg : GemmOk ex False g) {τ : K} (he : GemmErr τ g)
    {m : Nat} {a b : Nat → Mat K}
    {f : Nat → Mat K → Except Err (Mat K)} {α : K} {β : Nat → K} {ta tb : Bool} {C C' : Mat K}
    (hC : C.WF) (hCs : C.Square) (ha : ∀ k < m, (a k).WF) (hb : ∀ k < m, (b k).WF)
    (ht : ∀ k < m, TransSafe ta tb (a k) (b k)) (hi : ∀ k < m, Innr ta tb (a k) (b k))
    (hstep : ∀ k < m, ∀ c c', f k c = .ok c' → g (a k) (b k) c α (β k) ta tb = .ok c')
    (hβ : ∀ k, 0 < k → β k = 1)
    (h : loop m f C = .ok C') :
    ∀ i < C.nRows, ∀ j < C.nCols,
      |C'.entry i j - (α * (∑ k ∈ range m, prodEntry ta tb (a k) (b k) i j) +
        (if m = 0 then 1 else β 0) * C.entry i j)| ≤
      2 * ((∑ k ∈ range m, (a k).opCols ta : ℕ) : K) * τ := by
  induction m generalizing C' with
  | zero =>
    cases h
    intro i _ j _
    simp
  | succ m ih =>
    rw [loop_succ, except_bind_eq_ok] at h
    obtain ⟨c, hc, h⟩ := h
    have P := loop_post hg hC hCs (fun k hk => ha k (by omega)) (fun k hk => hb k (by omega))
      (fun k hk => ht k (by omega)) (fun k hk => rankSafe_false _ _) (fun k hk => hstep k (by omega))
      hβ hc
    obtain ⟨-, i2, i3, i4, -⟩ := P
    have i5 := ih (fun k hk => ha k (by omega)) (fun k hk => hb k (by omega))
      (fun k hk => ht k (by omega)) (fun k hk => hi k (by omega)) (fun k hk => hstep k (by omega)) hc
    have E := he _ _ _ _ _ _ _ _ (ha m (by omega)) (hb m (by omega)) i2 i3 (ht m (by omega))
      (hi m (by omega)) (hstep m (by omega) c C' h)
    have dd := i4.dims hC
    intro i hi' j hj'
    have e1 := E i (by rw [dd.1]; exact hi') j (by rw [dd.2]; exact hj')
    have e2 := i5 i hi' j hj'
    rw [Finset.sum_range_succ, Finset.sum_range_succ]
    push_cast
    by_cases hm : m = 0
    · subst hm
      cases hc
      simpa using e1
    · rw [hβ m (by omega)] at e1
      rw [if_neg hm] at e2
      have t := abs_add_le (C'.entry i j - (α * prodEntry ta tb (a m) (b m) i j + 1 * c.entry i j))
        (c.entry i j - (α * (∑ k ∈ range m, prodEntry ta tb (a k) (b k) i j) + β 0 * C.entry i j))
      have e : C'.entry i j - (α * (∑ k ∈ range m, prodEntry ta tb (a k) (b k) i j +
          prodEntry ta tb (a m) (b m) i j) + β 0 * C.entry i j) =
        (C'.entry i j - (α * prodEntry ta tb (a m) (b m) i j + 1 * c.entry i j)) +
        (c.entry i j - (α * (∑ k ∈ range m, prodEntry ta tb (a k) (b k) i j) + β 0 * C.entry i j)) := by
        ring
      rw [e]
      push_cast at e2
      refine t.trans ((add_le_add e1 e2).trans (le_of_eq ?_))
      ring

theorem target_err {τ : K} {ta tb : Bool} {A B : Mat K} {m mA k0 k1 n : Nat}
    {a b C C' : Nat → Nat → Mat K} {h w w' v : Nat → Nat} {α β : K}
    (GA : Grid ta A mA k0 a h w) (GB : Grid tb B k1 n b w' v) (hK : k0 ≤ k1) (hm : mA ≤ m)
    (hC : (Mat.hier m n C).WF) (hd : GemmDims ta tb A B (.hier m n C))
    (key : ∀ i < m, ∀ j < n, (C' i j).WF ∧ (C i j).SameShape (C' i j))
    (keyD : ∀ i < mA, ∀ j < n, ∀ k < k0, GemmDims ta tb (a i k) (b k j) (C i j))
    (keyE : ∀ i < mA, ∀ j < n,
      ∀ r < (C i j).nRows, ∀ s < (C i j).nCols,
        |(C' i j).entry r s - (α * (∑ k ∈ range k0, prodEntry ta tb (a i k) (b k j) r s) +
          β * (C i j).entry r s)| ≤ 2 * (A.opCols ta : K) * τ) :
    ErrPost τ A B (.hier m n C) (.hier m n C') α β ta tb := by
  have hC' := hC
  simp only [WF] at hC'
  obtain ⟨hm0, hn0, hCd⟩ := hC'
  have hw : ∀ k < k0, w k = w' k := by
    intro k hk
    rw [← GA.cols 0 GA.m0 k hk, ← GB.rows k (by omega) 0 hn0]
    exact (keyD 0 GA.m0 0 hn0 k hk).inner
  have hrow : ∀ i < mA, h i = (C i 0).nRows := by
    intro i hi
    rw [← GA.rows i hi 0 GA.n0]
    exact (keyD i hi 0 hn0 0 GA.n0).rows
  have hcol : ∀ j < n, v j = (C 0 j).nCols := by
    intro j hj
    rw [← GB.cols 0 GB.m0 j hj]
    exact (keyD 0 GA.m0 j hj 0 GA.n0).cols
  have hrest : ∀ i < m, mA ≤ i → (C i 0).nRows = 0 := by
    intro i hi hmi
    have e := hd.rows
    rw [GA.opRows, nRows_hier, psum_congr hrow] at e
    have e1 := psum_le (fun a => (C a 0).nRows) hi
    have e2 := psum_mono (fun a => (C a 0).nRows) hmi
    omega
  refine blockwise_pred (g := C') hC
    (fun x y z => |z - (α * prodEntry ta tb A B x y + β * (Mat.hier m n C).entry x y)| ≤
      2 * (A.opCols ta : K) * τ) ?_
  intro i hi j hj
  refine ⟨(key i hi j hj).1, (key i hi j hj).2, fun r hr s hs => ?_⟩
  by_cases hmi : i < mA
  · have e := keyE i hmi j hj r (by rw [(hCd i hi j hj).2.1]; exact hr) s
      (by rw [(hCd i hi j hj).2.2]; exact hs)
    rw [entry_block hi hj hr hs]
    rw [← psum_congr (fun c hc => hrow c (by omega)), ← psum_congr (fun c hc => hcol c (by omega))]
    rw [prodEntry_grid GA GB hK hw hmi hj (by rw [hrow i hmi]; exact hr)
      (by rw [hcol j hj]; exact hs)]
    exact e
  · rw [hrest i hi (by omega)] at hr
    omega

theorem gemmHHH_err {ex : Prop} {g : GemmT K} (hg : GemmOk ex False g) {τ : K} (he : GemmErr τ g)
    {p q r s m n : Nat}
    {A B C : Nat → Nat → Mat K} {α β : K} {ta tb : Bool} {C' : Mat K}
    (hA : (Mat.hier p q A).WF) (hB : (Mat.hier r s B).WF) (hC : (Mat.hier m n C).WF)
    (hCs : (Mat.hier m n C).Square) (ht : TransSafe ta tb (.hier p q A) (.hier r s B))
    (hi : Innr ta tb (.hier p q A) (.hier r s B))
    (hd : GemmDims ta tb (.hier p q A) (.hier r s B) (.hier m n C))
    (h : gemmHHH g p q A r s B m n C α β ta tb = .ok C') :
    ErrPost τ (.hier p q A) (.hier r s B) (.hier m n C) C' α β ta tb := by
  simp only [gemmHHH, except_bind_eq_ok, assertM_eq_ok, decide_eq_true_eq] at h
  obtain ⟨-, e1, -, e2, -, e3, D, hD, h⟩ := h
  cases h
  subst e1; subst e3
  have GA := grid_hier (t := ta) hA
  have GB := grid_hier (t := tb) hB
  have hC' := hC
  simp only [WF] at hC'
  have key := fun i hi j hj => loop_post hg (hC'.2.2 i hi j hj).1 (hCs i hi j hj)
    (a := fun k => opBlk ta A i k) (b := fun k => opBlk tb B k j)
    (β := fun k => if k = 0 then β else 1)
    (fun k hk => GA.wf i hi k hk) (fun k hk => GB.wf k (by omega) j hj)
    (fun k hk => TransSafe_blocks ht hi hk (by omega) hj)
    (fun k hk => rankSafe_false _ _)
    (fun k hk c c' hc => hc) (fun k hk => if_neg (by omega)) (collect2_ok hD i hi j hj)
  have keyE := fun i hi' j hj => loop_err hg he (hC'.2.2 i hi' j hj).1 (hCs i hi' j hj)
    (a := fun k => opBlk ta A i k) (b := fun k => opBlk tb B k j)
    (β := fun k => if k = 0 then β else 1)
    (fun k hk => GA.wf i hi' k hk) (fun k hk => GB.wf k (by omega) j hj)
    (fun k hk => TransSafe_blocks ht hi' hk (by omega) hj)
    (fun k hk => Innr_blocks hi hi' hk (by omega) hj)
    (fun k hk c c' hc => hc) (fun k hk => if_neg (by omega)) (collect2_ok hD i hi' j hj)
  refine target_err GA GB (by omega) (Nat.le_refl _) hC hd
    (fun i hi j hj => ⟨(key i hi j hj).2.1, (key i hi j hj).2.2.2.1⟩)
    (fun i hi j hj => (key i hi j hj).1) ?_
  intro i hi j hj r hr s hs
  have e := keyE i hi j hj r hr s hs
  rw [if_neg (by have := GA.n0; omega)] at e
  simp only [if_true] at e
  refine e.trans (le_of_eq ?_)
  congr 3
  rw [GA.opCols]
  exact Finset.sum_congr rfl (fun k hk => GA.cols i hi k (mem_range.1 hk))

theorem gemmRowLoop_err {ex : Prop} {g : GemmT K} (hg : GemmOk ex False g) {τ : K}
    (he : GemmErr τ g) {r s m n : Nat}
    {A : Mat K} {B C : Nat → Nat → Mat K} {α β : K} {ta tb : Bool} {C' : Mat K}
    (hA : A.WF) (hB : (Mat.hier r s B).WF) (hC : (Mat.hier m n C).WF)
    (hCs : (Mat.hier m n C).Square)
    (ht : ∀ j < opDim1 tb r s, TransSafe ta tb A (opBlk tb B 0 j))
    (hi : ∀ j < opDim1 tb r s, Innr ta tb A (opBlk tb B 0 j))
    (hd : GemmDims ta tb A (.hier r s B) (.hier m n C))
    (hn : opDim1 tb r s = n) (h1 : opDim0 tb r s = 1) (hm : m = 1)
    (h : gemmRowLoop g A r s B m n C α β ta tb = .ok C') :
    ErrPost τ A (.hier r s B) (.hier m n C) C' α β ta tb := by
  simp only [gemmRowLoop, except_bind_eq_ok] at h
  obtain ⟨f, hf, h⟩ := h
  cases h
  subst hn; subst hm
  have GA := grid_one (t := ta) hA
  have GB := grid_hier (t := tb) hB
  have hC' := hC
  simp only [WF] at hC'
  have key : ∀ j < opDim1 tb r s, (GemmDims ta tb A (opBlk tb B 0 j) (C 0 j) ∧
      GemmPost ex A (opBlk tb B 0 j) (C 0 j) (f j) α β ta tb) ∧
      ErrPost τ A (opBlk tb B 0 j) (C 0 j) (f j) α β ta tb := by
    intro j hj
    have := collect_ok hf j hj
    simp only [except_bind_eq_ok] at this
    obtain ⟨b, hb, c, hc, hh⟩ := this
    obtain ⟨-, rfl⟩ := vecAt_row h1 hb
    obtain ⟨-, rfl⟩ := vecAt_row (t := false) rfl hc
    exact ⟨hg _ _ _ _ _ _ _ _ hA (GB.wf 0 (by omega) j hj) (hC'.2.2 0 (by omega) j hj).1
      (hCs 0 (by omega) j hj) (ht j hj) (rankSafe_false _ _) hh,
      he _ _ _ _ _ _ _ _ hA (GB.wf 0 (by omega) j hj) (hC'.2.2 0 (by omega) j hj).1
      (hCs 0 (by omega) j hj) (ht j hj) (hi j hj) hh⟩
  have fj : ∀ i j, j < opDim1 tb r s → (if j < opDim1 tb r s then f j else C i j) = f j :=
    fun i j hj => if_pos hj
  refine target_err GA GB (by omega) (Nat.le_refl _) hC hd ?_ ?_ ?_
  · intro i hi j hj
    have : i = 0 := by omega
    subst this
    rw [fj _ j hj]
    exact ⟨(key j hj).1.2.wf, (key j hj).1.2.shape⟩
  · intro i hi j hj k hk
    have : i = 0 := by omega
    subst this
    have : k = 0 := by omega
    subst this
    exact (key j hj).1.1
  · intro i hi j hj x hx y hy
    have : i = 0 := by omega
    subst this
    rw [fj _ j hj]
    simpa using (key j hj).2 x hx y hy

theorem gemmColLoop_err {ex : Prop} {g : GemmT K} (hg : GemmOk ex False g) {τ : K}
    (he : GemmErr τ g) {p q m n : Nat}
    {B : Mat K} {A C : Nat → Nat → Mat K} {α β : K} {ta tb : Bool} {C' : Mat K}
    (hA : (Mat.hier p q A).WF) (hB : B.WF) (hC : (Mat.hier m n C).WF)
    (hCs : (Mat.hier m n C).Square)
    (ht : ∀ i < opDim0 ta p q, TransSafe ta tb (opBlk ta A i 0) B)
    (hi : ∀ i < opDim0 ta p q, Innr ta tb (opBlk ta A i 0) B)
    (hd : GemmDims ta tb (.hier p q A) B (.hier m n C))
    (h1 : opDim1 ta p q = 1) (hn : n = 1)
    (h : gemmColLoop g p q A B m n C α β ta tb = .ok C') :
    ErrPost τ (.hier p q A) B (.hier m n C) C' α β ta tb := by
  simp only [gemmColLoop, except_bind_eq_ok] at h
  obtain ⟨f, hf, h⟩ := h
  cases h
  subst hn
  have GA := grid_hier (t := ta) hA
  have GB := grid_one (t := tb) hB
  have hC' := hC
  simp only [WF] at hC'
  have key : ∀ i < opDim0 ta p q, i < m ∧ (i < m → (GemmDims ta tb (opBlk ta A i 0) B (C i 0) ∧
      GemmPost ex (opBlk ta A i 0) B (C i 0) (f i) α β ta tb) ∧
      ErrPost τ (opBlk ta A i 0) B (C i 0) (f i) α β ta tb) := by
    intro i hi'
    have := collect_ok hf i hi'
    simp only [except_bind_eq_ok] at this
    obtain ⟨b, hb, c, hc, hh⟩ := this
    obtain ⟨-, rfl⟩ := vecAt_col h1 hb
    obtain ⟨hm, rfl⟩ := vecAt_col (t := false) rfl hc
    refine ⟨hm, fun hm => ⟨?_, ?_⟩⟩
    · exact hg _ _ _ _ _ _ _ _ (GA.wf i hi' 0 (by omega)) hB (hC'.2.2 i hm 0 (by omega)).1
        (hCs i hm 0 (by omega)) (ht i hi') (rankSafe_false _ _) hh
    · exact he _ _ _ _ _ _ _ _ (GA.wf i hi' 0 (by omega)) hB (hC'.2.2 i hm 0 (by omega)).1
        (hCs i hm 0 (by omega)) (ht i hi') (hi i hi') hh
  have hmm : opDim0 ta p q ≤ m := by
    have h0 := GA.m0
    have := (key (opDim0 ta p q - 1) (by omega)).1
    omega
  have fj : ∀ i j, i < opDim0 ta p q → (if i < opDim0 ta p q then f i else C i j) = f i :=
    fun i j hj => if_pos hj
  have fj' : ∀ i j, ¬ i < opDim0 ta p q → (if i < opDim0 ta p q then f i else C i j) = C i j :=
    fun i j hj => if_neg hj
  have key2 : ∀ i < opDim0 ta p q, _ := fun i hi => (key i hi).2 (key i hi).1
  refine target_err GA GB (by omega) hmm hC hd ?_ ?_ ?_
  · intro i hi j hj
    have : j = 0 := by omega
    subst this
    by_cases hi' : i < opDim0 ta p q
    · rw [fj _ _ hi']
      exact ⟨(key2 i hi').1.2.wf, (key2 i hi').1.2.shape⟩
    · rw [fj' _ _ hi']
      exact ⟨(hC'.2.2 i hi 0 (by omega)).1, SameShape.refl _⟩
  · intro i hi j hj k hk
    have : j = 0 := by omega
    subst this
    have : k = 0 := by omega
    subst this
    exact (key2 i hi).1.1
  · intro i hi j hj x hx y hy
    have : j = 0 := by omega
    subst this
    have e := (key2 i hi).2 x hx y hy
    have ec : (Mat.hier p q A).opCols ta = (opBlk ta A i 0).opCols ta := by
      rw [GA.opCols, h1, GA.cols i hi 0 GA.n0]
      simp [psum]
    rw [fj _ _ hi, ec]
    simpa [h1] using e

/-! ### recursive calls on other representations -/

theorem GemmErr.congr {τ : K} {g : GemmT K} (he : GemmErr τ g) {A A' B B' C C' : Mat K} {α β : K}
    {ta tb : Bool} (hA : SameEntries A' A) (hB : SameEntries B' B) (hd : GemmDims ta tb A B C)
    (wA : A'.WF) (wB : B'.WF) (wC : C.WF) (sC : C.Square) (ht : TransSafe ta tb A' B')
    (hi : Innr ta tb A' B') (h : g A' B' C α β ta tb = .ok C') :
    ErrPost τ A B C C' α β ta tb := by
  have E := he _ _ _ _ _ _ _ _ wA wB wC sC ht hi h
  intro i hi' j hj'
  have e := E i hi' j hj'
  rw [opCols_same hA] at e
  rw [prodEntry_same (SameEntries.symm' hA) (SameEntries.symm' hB) hd.inner
    (by rw [hd.rows]; exact hi') (by rw [hd.cols]; exact hj')]
  exact e

theorem split_left_err {τ : K} {g : GemmT K} (he : GemmErr τ g) {a : Dense K} {nr nc r s : Nat}
    {B : Nat → Nat → Mat K} {HA C C' : Mat K} {α β : K} {ta tb : Bool} (h1 : 1 ≤ nr) (h2 : 1 ≤ nc)
    (hB : (Mat.hier r s B).WF) (hC : C.WF) (hCs : C.Square) (hi : (Mat.hier r s B).Wide (!tb))
    (hd : GemmDims ta tb (.dense a) (.hier r s B) C) (hs : (Mat.dense a).split nr nc = .ok HA)
    (h : g HA (.hier r s B) C α β ta tb = .ok C') :
    ErrPost τ (.dense a) (.hier r s B) C C' α β ta tb := by
  obtain ⟨b, rfl, w, same, hb⟩ := split_dense_leaves h1 h2 hs
  exact he.congr same (SameEntries.refl' _) hd w hB hC hCs (TransSafe_split_left hb)
    (Innr_split_left hb hi) h

theorem split_right_err {τ : K} {g : GemmT K} (he : GemmErr τ g) {b : Dense K} {nr nc r s : Nat}
    {A : Nat → Nat → Mat K} {HB C C' : Mat K} {α β : K} {ta tb : Bool} (h1 : 1 ≤ nr) (h2 : 1 ≤ nc)
    (hA : (Mat.hier r s A).WF) (hC : C.WF) (hCs : C.Square) (hi : (Mat.hier r s A).Wide ta)
    (hd : GemmDims ta tb (.hier r s A) (.dense b) C) (hs : (Mat.dense b).split nr nc = .ok HB)
    (h : g (.hier r s A) HB C α β ta tb = .ok C') :
    ErrPost τ (.hier r s A) (.dense b) C C' α β ta tb := by
  obtain ⟨b', rfl, w, same, hb⟩ := split_dense_leaves h1 h2 hs
  exact he.congr (SameEntries.refl' _) same hd hA w hC hCs (TransSafe_split_right hb)
    (Innr_split_right hb hi) h

/-! ### low-rank targets -/

theorem lrAdd_err {o : LrOps K} {τ : K} (hw : o.Within τ) {A B : Mat K}
    {c x d : LowRank K} {α β : K} {ta tb : Bool} (hc : c.WF) (hcs : c.Square) (hx : x.WF)
    (hE : x.dim0 = c.dim0 → x.dim1 = c.dim1 → ∀ i < c.dim0, ∀ j < c.dim1,
      |x.entry i j - α * prodEntry ta tb A B i j| ≤ τ)
    (h : o.addAssign { c with S := c.S.scale β } x = .ok d) :
    ∀ i < c.dim0, ∀ j < c.dim1,
      |d.entry i j - (α * prodEntry ta tb A B i j + β * c.entry i j)| ≤ 2 * τ := by
  simp only [LrOps.addAssign, except_bind_eq_ok, assertM_eq_ok, decide_eq_true_eq] at h
  obtain ⟨-, e1, -, e2, h⟩ := h
  intro i hi j hj
  have a1 := hw.add _ _ _ (scaleS_wf hc β) hcs hx e1 e2 h i hi j hj
  have a2 := hE e1.symm e2.symm i hi j hj
  rw [scaleS_entry] at a1
  have t := abs_add_le (d.entry i j - (β * c.entry i j + x.entry i j))
    (x.entry i j - α * prodEntry ta tb A B i j)
  have e : d.entry i j - (α * prodEntry ta tb A B i j + β * c.entry i j) =
      (d.entry i j - (β * c.entry i j + x.entry i j)) + (x.entry i j - α * prodEntry ta tb A B i j) := by
    ring
  rw [e]
  linarith

theorem gemmDDLr_err {o : LrOps K} (hf : o.Fits False) {τ : K} (hτ : 0 ≤ τ) (hw : o.Within τ)
    {a b : Dense K} {c : LowRank K} {C' : Mat K} {α β : K} {ta tb : Bool}
    (hp : 0 < (Mat.dense a).opCols ta) (hc : c.WF) (hcs : c.Square)
    (h : gemmDDLr o a b c α β ta tb = .ok C') :
    ErrPost τ (.dense a) (.dense b) (.lowRank c) C' α β ta tb := by
  simp only [gemmDDLr, except_bind_eq_ok] at h
  obtain ⟨ab, hab, x, hx, d, hd, h⟩ := h
  cases h
  obtain ⟨e0, e1, e2, e3⟩ := Dense_gemmNew_spec hab
  have key : x.WF ∧ x.dim0 = ab.rows ∧ x.dim1 = ab.cols ∧
      (∀ i < ab.rows, ∀ j < ab.cols, |x.entry i j - ab.val i j| ≤ τ) := by
    split at hx
    · obtain ⟨f1, f2, f3, f4⟩ := hf.ofEps _ _ _ hx
      exact ⟨f1, f3, f4, hw.ofEps _ _ _ hx⟩
    · obtain ⟨f1, f2, f3, f4⟩ := hf.ofRank _ _ _ hx
      exact ⟨f1, f3, f4, hw.ofRank _ _ _ hx⟩
  obtain ⟨f1, f3, f4, f5⟩ := key
  intro i hi j hj
  refine bound_of hp hτ (lrAdd_err hw hc hcs f1 ?_ hd i hi j hj)
  intro g1 g2 i hi j hj
  have := f5 i (by rw [← f3, g1]; exact hi) j (by rw [← f4, g2]; exact hj)
  rw [e3] at this
  rw [prodEntry_dd]
  exact this

theorem gemmHHLr_err {ex : Prop} {o : LrOps K} (hf : o.Fits False) {τ : K} (hτ : 0 ≤ τ)
    (hw : o.Within τ) {g : GemmT K}
    {gn : GemmNewT K} (hg : GemmOk ex False g) (hgn : GemmNewOk False gn) {A B : Mat K}
    {c : LowRank K} {C' : Mat K} {α β : K} {ta tb : Bool} (hp : 0 < A.opCols ta) (hA : A.WF)
    (hB : B.WF) (hc : c.WF) (hcs : c.Square) (ht : TransSafe ta tb A B)
    (hd0 : GemmDims ta tb A B (.lowRank c))
    (h : gemmHHLr o g gn A B c α β ta tb = .ok C') :
    ErrPost τ A B (.lowRank c) C' α β ta tb := by
  simp only [gemmHHLr] at h
  split at h
  · simp only [except_bind_eq_ok] at h
    obtain ⟨cd, hcd, cd', hcd', d, hd, l, hl, h⟩ := h
    cases h
    obtain ⟨D0, hD0, k1, k2, k3⟩ := LowRank_toDense_ok c hc
    rw [hcd] at hD0
    cases hD0
    obtain ⟨-, P⟩ := hg _ _ (.dense cd) _ _ _ _ _ hA hB trivial trivial ht (rankSafe_false _ _) hcd'
    rw [asDense_ok hd] at P
    have s1 : cd.rows = d.rows := P.shape.1
    have s2 : cd.cols = d.cols := P.shape.2
    intro i hi j hj
    have hi' : i < cd.rows := by rw [k1]; exact hi
    have hj' : j < cd.cols := by rw [k2]; exact hj
    have e1 := P.ent i hi' j hj' (Or.inl trivial)
    have e2 := hw.ofEps _ _ _ hl i (by rw [← s1]; exact hi') j (by rw [← s2]; exact hj')
    refine bound_of hp hτ ?_
    have e3 : d.val i j = α * prodEntry ta tb A B i j + β * c.entry i j := by
      rw [← k3 i j]; exact e1
    rw [e3] at e2
    show |l.entry i j - (α * prodEntry ta tb A B i j + β * c.entry i j)| ≤ 2 * τ
    linarith
  · simp only [except_bind_eq_ok] at h
    obtain ⟨ab, hab, h⟩ := h
    have N := hgn _ _ _ _ _ _ hA hB ht (rankSafe_false _ _) hab
    cases ab <;> try (cases h)
    rename_i m n blk
    simp only [except_bind_eq_ok] at h
    obtain ⟨x, hx, d, hd, h⟩ := h
    cases h
    obtain ⟨f1, f2⟩ := hf.ofHier _ _ _ N.wf hx
    intro i hi j hj
    refine bound_of hp hτ (lrAdd_err hw hc hcs f1 ?_ hd i hi j hj)
    intro g1 g2 i hi j hj
    have r0 : (Mat.hier m n blk).nRows = c.dim0 := N.rows.trans hd0.rows
    have c0 : (Mat.hier m n blk).nCols = c.dim1 := N.cols.trans hd0.cols
    have := hw.ofHier _ _ _ N.wf hx (by rw [g1, r0]) (by rw [g2, c0]) i (by rw [r0]; exact hi) j
      (by rw [c0]; exact hj)
    rw [N.ent i (by rw [r0]; exact hi) j (by rw [c0]; exact hj)] at this
    exact this

theorem gemmToLowRank_err {ex : Prop} {o : LrOps K} (hf : o.Fits False) {τ : K} (hτ : 0 ≤ τ)
    (hw : o.Within τ) {g : GemmT K} {gn : GemmNewT K} (hg : GemmOk ex False g) (he : GemmErr τ g)
    (hgn : GemmNewOk False gn) {A B : Mat K}
    {c : LowRank K} {C' : Mat K} {α β : K} {ta tb : Bool} (hA : A.WF) (hB : B.WF) (hc : c.WF)
    (hcs : c.Square) (ht : TransSafe ta tb A B) (hi : Innr ta tb A B)
    (hd : GemmDims ta tb A B (.lowRank c))
    (h : gemmToLowRank o g gn A B c α β ta tb = .ok C') :
    ErrPost τ A B (.lowRank c) C' α β ta tb := by
  have hp : 0 < A.opCols ta := by
    rcases hi.pos hA hB with e | e
    · exact e
    · rw [hd.inner]; exact e
  cases A with
  | dense a =>
    cases B with
    | dense b => exact gemmDDLr_err hf hτ hw hp hc hcs h
    | lowRank b => exact gemmDLr_err hf hτ hw hp hB hc hcs h
    | hier r s BB =>
      simp only [gemmToLowRank, except_bind_eq_ok] at h
      obtain ⟨HA, hs, h⟩ := h
      have := opDim0_pos (t := tb) hB
      exact split_left_err he (by split <;> omega) (by split <;> omega) hB hc hcs hi hd hs h
    | empty => cases h
  | lowRank a =>
    cases B with
    | dense b => exact gemmLrD_err hf hτ hw hp hA hc hcs h
    | lowRank b => exact gemmLrLr_err hf hτ hw hp hA hB hc hcs h
    | hier r s BB =>
      simp only [gemmToLowRank, except_bind_eq_ok] at h
      obtain ⟨M, hM, V, hV, h⟩ := h
      obtain ⟨v0, v1⟩ := newV_ok hgn hA hB (rankSafe_false _ _) hM hV
      rw [← lop_U, ← lop_S] at h
      obtain ⟨wx, sx, hx⟩ := lr_left (ta := ta) hA (rankSafe_false _ _) v1 v0
      exact scaleAdd_err hf hτ hw hp hc hcs wx hx h
    | empty => cases h
  | empty => cases B <;> cases h
  | hier p q AA =>
    cases B with
    | dense b =>
      simp only [gemmToLowRank, except_bind_eq_ok] at h
      obtain ⟨HB, hs, h⟩ := h
      have := opDim1_pos (t := ta) hA
      exact split_right_err he (by split <;> omega) (by split <;> omega) hA hc hcs hi hd hs h
    | lowRank b =>
      simp only [gemmToLowRank, except_bind_eq_ok] at h
      obtain ⟨M, hM, U, hU, h⟩ := h
      obtain ⟨v0, v1⟩ := newU_ok hgn hB hA (rankSafe_false _ _) hM hU
      rw [← lop_V, ← lop_S] at h
      obtain ⟨wx, sx, hx⟩ := lr_right (tb := tb) hB (rankSafe_false _ _) v1 v0
      exact scaleAdd_err hf hτ hw hp hc hcs wx hx h
    | hier r s BB => exact gemmHHLr_err hf hτ hw hg hgn hp hA hB hc hcs ht hd h
    | empty => cases h

/-! ### hierarchical targets -/

theorem Innr_one_right {ta tb : Bool} {A : Mat K} {r s : Nat} {B : Nat → Nat → Mat K}
    (hA : A.NotHier) (h1 : r = 1 ∧ s = 1) (hB : (Mat.hier r s B).Wide (!tb)) :
    Innr ta tb A (B 0 0) := by
  obtain ⟨rfl, rfl⟩ := h1
  exact Innr_leaf_left hA (hB 0 (by omega) 0 (by omega))

theorem Innr_one_left {ta tb : Bool} {B : Mat K} {r s : Nat} {A : Nat → Nat → Mat K}
    (hB : B.NotHier) (h1 : r = 1 ∧ s = 1) (hA : (Mat.hier r s A).Wide ta) :
    Innr ta tb (A 0 0) B := by
  obtain ⟨rfl, rfl⟩ := h1
  exact Innr_leaf_right hB (hA 0 (by omega) 0 (by omega))

theorem gemmToHier_err {ex : Prop} {o : LrOps K} (hf : o.Fits False) {τ : K} (hτ : 0 ≤ τ)
    (hw : o.Within τ) {g : GemmT K} {gn : GemmNewT K} (hg : GemmOk ex False g) (he : GemmErr τ g)
    (hgn : GemmNewOk False gn) {A B : Mat K}
    {m n : Nat} {C : Nat → Nat → Mat K} {C' : Mat K} {α β : K} {ta tb : Bool} (hA : A.WF) (hB : B.WF)
    (hc : (Mat.hier m n C).WF) (hcs : (Mat.hier m n C).Square) (ht : TransSafe ta tb A B)
    (hi : Innr ta tb A B) (hd : GemmDims ta tb A B (.hier m n C))
    (h : gemmToHier o g gn A B m n C α β ta tb = .ok C') :
    ErrPost τ A B (.hier m n C) C' α β ta tb := by
  have hmn := hc
  simp only [WF] at hmn
  have hp : 0 < A.opCols ta := by
    rcases hi.pos hA hB with e | e
    · exact e
    · rw [hd.inner]; exact e
  have hp' : 0 < B.opCols (!tb) := by rw [opCols_not, ← hd.inner]; exact hp
  cases A with
  | dense a =>
    cases B with
    | dense b =>
      simp only [gemmToHier, gemmDDH] at h
      split at h
      · cases h
      split at h
      · simp only [except_bind_eq_ok] at h
        obtain ⟨AH, hs, h⟩ := h
        obtain ⟨b', rfl, w, same, hb⟩ := split_dense_leaves (by split <;> omega) (by split <;> omega) hs
        exact he.congr same (SameEntries.refl' _) hd w hB hc hcs (TransSafe_dense_right _ _)
          (Innr_leaf_right trivial (wide_one w (by cases ta <;> rfl) hb
            (by rw [opCols_same same]; exact hp))) h
      split at h
      · simp only [except_bind_eq_ok] at h
        obtain ⟨AH, hs, h⟩ := h
        obtain ⟨b', rfl, w, same, hb⟩ := split_dense_leaves (by split <;> omega) (by split <;> omega) hs
        exact he.congr (SameEntries.refl' _) same hd hA w hc hcs (TransSafe_dense_left _ _)
          (Innr_leaf_left trivial (wide_one w (by cases tb <;> rfl) hb
            (by rw [opCols_same same]; exact hp'))) h
      · simp only [except_bind_eq_ok] at h
        obtain ⟨AH, hs, BH, hs', h⟩ := h
        obtain ⟨b1, rfl, w1, same1, hb1⟩ := split_dense_leaves (by split <;> omega) (by split <;> omega) hs
        obtain ⟨b2, rfl, w2, same2, hb2⟩ := split_dense_leaves (by split <;> omega) (by split <;> omega) hs'
        exact he.congr same1 same2 hd w1 w2 hc hcs (TransSafe_split_left hb1)
          (Innr_split_left hb1 (wide_one w2 (by cases tb <;> rfl) hb2
            (by rw [opCols_same same2]; exact hp'))) h
    | lowRank b => exact gemmDLr_err hf hτ hw hp hB hc hcs h
    | hier r s BB =>
      simp only [gemmToHier, gemmDHH, except_bind_eq_ok, assertM_eq_ok, decide_eq_true_eq] at h
      obtain ⟨-, hn, h⟩ := h
      have := opDim0_pos (t := tb) hB
      split at h
      · rename_i hone
        exact he.congr (SameEntries.refl' _) (one_block hB hone).2 hd hA (one_block hB hone).1 hc
          hcs (TransSafe_dense_left _ _) (Innr_one_right trivial hone hi) h
      split at h
      · rename_i h1
        exact gemmRowLoop_err hg he hA hB hc hcs (fun j _ => TransSafe_dense_left _ _)
          (fun j hj => Innr_leaf_left trivial (Wide_blk (t := tb) hi (by omega) hj)) hd hn h1.1 h1.2 h
      · simp only [except_bind_eq_ok] at h
        obtain ⟨AH, hs, h⟩ := h
        exact split_left_err he (by split <;> omega) (by split <;> omega) hB hc hcs hi hd hs h
    | empty => cases h
  | lowRank a =>
    cases B with
    | dense b => exact gemmLrD_err hf hτ hw hp hA hc hcs h
    | lowRank b => exact gemmLrLr_err hf hτ hw hp hA hB hc hcs h
    | hier r s BB =>
      simp only [gemmToHier, gemmLrHH, except_bind_eq_ok, assertM_eq_ok, decide_eq_true_eq] at h
      obtain ⟨-, hn, h⟩ := h
      have hta : ta = false := ht
      split at h
      · rename_i hone
        exact he.congr (SameEntries.refl' _) (one_block hB hone).2 hd hA (one_block hB hone).1 hc
          hcs (TransSafe_leaf_hier (A := .lowRank a) trivial ht _)
          (Innr_one_right trivial hone hi) h
      split at h
      · rename_i h1
        exact gemmRowLoop_err hg he hA hB hc hcs
          (fun j _ => TransSafe_leaf_hier (A := .lowRank a) trivial ht _)
          (fun j hj => Innr_leaf_left trivial (Wide_blk (t := tb) hi (by omega) hj)) hd hn h1.1 h1.2 h
      · subst hta
        simp only [except_bind_eq_ok] at h
        obtain ⟨M, hM, V, hV, h⟩ := h
        obtain ⟨v0, v1⟩ := newV_ok (ta := false) hgn hA hB (rankSafe_false _ _) hM hV
        obtain ⟨wx, sx, hx⟩ := lr_left (ta := false) hA (rankSafe_false _ _) v1 v0
        exact scaleAdd_err hf hτ hw hp hc hcs wx hx h
    | empty => cases h
  | empty => cases B <;> cases h
  | hier p q AA =>
    cases B with
    | dense b =>
      simp only [gemmToHier, gemmHDH] at h
      have := opDim1_pos (t := ta) hA
      split at h
      · rename_i hone
        exact he.congr (one_block hA hone).2 (SameEntries.refl' _) hd (one_block hA hone).1 hB hc
          hcs (TransSafe_dense_right _ _) (Innr_one_left trivial hone hi) h
      split at h
      · rename_i h1
        exact gemmColLoop_err hg he hA hB hc hcs (fun j _ => TransSafe_dense_right _ _)
          (fun j hj => Innr_leaf_right trivial (Wide_blk (t := ta) hi hj (by omega))) hd h1.1 h1.2 h
      · simp only [except_bind_eq_ok] at h
        obtain ⟨BH, hs, h⟩ := h
        exact split_right_err he (by split <;> omega) (by split <;> omega) hA hc hcs hi hd hs h
    | lowRank b =>
      simp only [gemmToHier, gemmHLrH] at h
      have htt : ta = false ∧ tb = false := ht
      split at h
      · rename_i hone
        exact he.congr (one_block hA hone).2 (SameEntries.refl' _) hd (one_block hA hone).1 hB hc
          hcs (TransSafe_hier_leaf (B := .lowRank b) trivial ht _)
          (Innr_one_left trivial hone hi) h
      split at h
      · rename_i h1
        exact gemmColLoop_err hg he hA hB hc hcs
          (fun j _ => TransSafe_hier_leaf (B := .lowRank b) trivial ht _)
          (fun j hj => Innr_leaf_right trivial (Wide_blk (t := ta) hi hj (by omega))) hd h1.1 h1.2 h
      · obtain ⟨rfl, rfl⟩ := htt
        simp only [except_bind_eq_ok] at h
        obtain ⟨M, hM, U, hU, h⟩ := h
        obtain ⟨v0, v1⟩ := newU_ok (tb := false) hgn hB hA (rankSafe_false _ _) hM hU
        obtain ⟨wx, sx, hx⟩ := lr_right (tb := false) hB (rankSafe_false _ _) v1 v0
        exact scaleAdd_err hf hτ hw hp hc hcs wx hx h
    | hier r s BB => exact gemmHHH_err hg he hA hB hc hcs ht hi hd h
    | empty => cases h

/-! ### everything together -/

theorem gemmBoth_err {o : LrOps K} (hf : o.Fits False) {τ : K} (hτ : 0 ≤ τ) (hw : o.Within τ)
    (fuel : Nat) : GemmErr τ (gemmBoth o fuel).1 := by
  induction fuel with
  | zero =>
    intro A B C α β ta tb C' _ _ _ _ _ _ h
    cases h
  | succ n ih =>
    obtain ⟨hg, hgn⟩ := gemmBoth_ok hf n
    intro A B C α β ta tb C' hA hB hC hCs ht hi h
    simp only [gemmBoth, except_bind_eq_ok, assertM_eq_ok, decide_eq_true_eq] at h
    obtain ⟨-, e1, -, e2, -, e3, h⟩ := h
    have hd : GemmDims ta tb A B C := ⟨e1, e2, e3⟩
    cases C with
    | dense c =>
      exact ErrPost.of_eq hτ (gemmToDense_ok hg hA hB ht (rankSafe_false _ _) hd h)
        (fun _ _ _ _ => trivial)
    | lowRank c => exact gemmToLowRank_err hf hτ hw hg ih hgn hA hB hC hCs ht hi hd h
    | hier m n C => exact gemmToHier_err hf hτ hw hg ih hgn hA hB hC hCs ht hi hd h
    | empty => cases h

end Mat
end Verif
