import Verif.Lemmas.Refl
import Verif.Lemmas.Lu

/-!
The operations the QR drivers use, on single tiles.
-/

set_option linter.unusedSectionVars false
set_option linter.unusedVariables false

namespace Verif
open Finset

variable {R : Type} [CommRing R]

namespace Mat

/-- Dense or low-rank. -/
def IsTile : Mat R → Prop
  | .dense _ => True
  | .lowRank _ => True
  | _ => False

/-- Consistent, and either without low-rank blocks or `ex` holds. -/
structure Good (ex : Prop) (M : Mat R) : Prop where
  wf : M.WF
  sqr : M.Square
  fine : M.AllDense ∨ ex

theorem Good.of_shape {ex : Prop} {A B : Mat R} (h : Good ex A) (hw : B.WF) (hs : B.Square)
    (sh : A.SameShape B) : Good ex B := by
  refine ⟨hw, hs, h.fine.imp_left (fun hd i hi j hj => ?_)⟩
  have d := sh.dims h.wf
  rw [d.1] at hi
  rw [d.2] at hj
  exact (sh.denseAt h.wf hi hj).2 (hd i hi j hj)

theorem IsTile.of_shape {A B : Mat R} (h : A.IsTile) (sh : A.SameShape B) : B.IsTile := by
  cases A <;> cases B <;> first | exact h.elim | exact sh.elim | trivial

theorem IsTile.of_shape' {A B : Mat R} (h : B.IsTile) (sh : A.SameShape B) : A.IsTile :=
  h.of_shape sh.symm

variable [DecidableEq R] {o : LrOps R}

theorem gemm_good (hf : o.Fits False) {ex : Prop} (hex : ex → o.Exact False) {fuel : Nat}
    {A B C C' : Mat R} {α β : R} {ta : Bool} (hA : A.WF) (hB : B.WF) (hC : Good ex C)
    (ht : TransSafe ta false A B) (h : gemm o fuel A B C α β ta false = .ok C') :
    A.opRows ta = C.nRows ∧ A.opCols ta = B.nRows ∧ B.nCols = C.nCols ∧ Good ex C' ∧
    C.SameShape C' ∧ ∀ i < C.nRows, ∀ j < C.nCols,
      C'.entry i j = α * ∑ l ∈ range B.nRows, A.opEntry ta i l * B.entry l j + β * C.entry i j := by
  obtain ⟨d, P⟩ := (gemmBoth_ok hf fuel).1 A B C α β ta false C' hA hB hC.wf hC.sqr ht
    (fun h => h.elim) h
  have e : A.opCols ta = B.nRows := d.inner
  refine ⟨d.rows, e, d.cols, hC.of_shape P.wf P.sqr P.shape, P.shape, fun i hi j hj => ?_⟩
  rw [P.ent i hi j hj (hC.fine.imp (fun h => h i hi j hj) hex), prodEntry, e]
  rfl

theorem gemm_leftOrth (ho : o.LeftOrth) {fuel : Nat} {A B C' : Mat R} {c : LowRank R} {α β : R}
    {ta : Bool} (hA : A.IsTile) (hB : B.IsTile)
    (h : gemm o fuel A B (.lowRank c) α β ta false = .ok C') :
    ∃ c', C' = .lowRank c' ∧ c'.LeftOrth := by
  cases fuel with
  | zero => cases h
  | succ fuel =>
    simp only [gemm, gemmBoth, except_bind_eq_ok] at h
    obtain ⟨-, -, -, -, -, -, h⟩ := h
    simp only [gemmOmm, gemmToLowRank] at h
    have key : ∀ X, scaleAdd o (.lowRank c) β X = .ok C' → ∃ c', C' = .lowRank c' ∧ c'.LeftOrth := by
      intro X h
      simp only [scaleAdd, scale, except_bind_ok, addAssign, LrOps.addAssign, except_bind_eq_ok] at h
      obtain ⟨l, ⟨-, -, -, -, h1⟩, h2⟩ := h
      exact ⟨l, (Except.ok.inj h2).symm, ho _ _ _ h1⟩
    cases A with
    | hier => exact hA.elim
    | empty => exact hA.elim
    | dense a =>
      cases B with
      | hier => exact hB.elim
      | empty => exact hB.elim
      | dense b =>
        simp only [gemmDDLr, except_bind_eq_ok, LrOps.addAssign] at h
        obtain ⟨_, -, x, -, l, ⟨-, -, -, -, h1⟩, h2⟩ := h
        exact ⟨l, (Except.ok.inj h2).symm, ho _ _ _ h1⟩
      | lowRank b =>
        simp only [gemmDLr, except_bind_eq_ok] at h
        obtain ⟨_, -, h⟩ := h
        exact key _ h
    | lowRank a =>
      cases B with
      | hier => exact hB.elim
      | empty => exact hB.elim
      | dense b =>
        simp only [gemmLrD, except_bind_eq_ok] at h
        obtain ⟨_, -, h⟩ := h
        exact key _ h
      | lowRank b =>
        simp only [gemmLrLr, except_bind_eq_ok] at h
        obtain ⟨_, -, _, -, _, -, h⟩ := h
        exact key _ h

/-- Transposed triangular multiplication is available for tiles only. -/
theorem trmm_trans_inv {fuel : Nat} {A B B' : Mat R} {uplo : Uplo} {unit : Bool} {α : R}
    (h : trmm o fuel A B .left uplo true unit α = .ok B') : (∃ a, A = .dense a) ∧ B.IsTile := by
  unfold trmm at h
  generalize gemm o fuel = g at h
  have hh : ∀ (f p q r s : Nat) (A B : Nat → Nat → Mat R) X,
      trmmWith g .left uplo true unit α f (.hier p q A) (.hier r s B) ≠ .ok X := by
    intro f p q r s A B X hX
    cases f with
    | zero => cases hX
    | succ f =>
      simp [trmmWith, trmmOmm, trmmHH, except_bind_eq_ok, assertM] at hX
  have hs : ∀ (d : Dense R) m n X, (Mat.dense d).split m n = .ok X → ∃ r s b, X = .hier r s b := by
    intro d m n X hX
    simp only [split, splitOmm, splitDense] at hX
    split at hX
    · exact ⟨_, _, _, (Except.ok.inj hX).symm⟩
    · cases hX
  cases fuel with
  | zero => cases h
  | succ f =>
    simp only [trmmWith] at h
    cases A with
    | empty => cases B <;> cases h
    | lowRank => cases B <;> cases h
    | dense a =>
      refine ⟨⟨a, rfl⟩, ?_⟩
      cases B with
      | dense => trivial
      | lowRank => trivial
      | empty => cases h
      | hier r s B =>
        simp only [trmmOmm, except_bind_eq_ok] at h
        obtain ⟨-, -, -, -, X, hX, h⟩ := h
        obtain ⟨_, _, _, rfl⟩ := hs _ _ _ _ hX
        exact (hh _ _ _ _ _ _ _ _ h).elim
    | hier p q A =>
      exfalso
      cases B with
      | empty => cases h
      | dense b =>
        simp only [trmmOmm, except_bind_eq_ok] at h
        obtain ⟨-, -, -, -, X, hX, Y, h, -⟩ := h
        obtain ⟨_, _, _, rfl⟩ := hs _ _ _ _ hX
        exact hh _ _ _ _ _ _ _ _ h
      | lowRank b =>
        simp only [trmmOmm, except_bind_eq_ok] at h
        obtain ⟨-, -, -, -, X, hX, Y, h, -⟩ := h
        obtain ⟨_, _, _, rfl⟩ := hs _ _ _ _ hX
        exact hh _ _ _ _ _ _ _ _ h
      | hier r s B =>
        have := hh (f + 1) p q r s A B B'
        simp only [trmmWith] at this
        exact this h

/-- Triangular multiplication of a tile with a dense triangle. -/
theorem trmm_tile {ex : Prop} {fuel : Nat} {a : Dense R} {B B' : Mat R} {uplo : Uplo} {trans unit : Bool}
    (hB : Good ex B) (hl : B.IsTile)
    (h : trmm o fuel (.dense a) B .left uplo trans unit 1 = .ok B') :
    a.rows = a.cols ∧ a.rows = B.nRows ∧ Good ex B' ∧ B.SameShape B' ∧
    ∀ i < B.nRows, ∀ j < B.nCols,
      B'.entry i j = ∑ l ∈ range a.rows, opFun trans (a.tri uplo unit) i l * B.entry l j := by
  unfold trmm at h
  generalize gemm o fuel = g at h
  cases fuel with
  | zero => cases h
  | succ f =>
    simp only [trmmWith] at h
    cases B with
    | hier => exact hl.elim
    | empty => exact hl.elim
    | dense b =>
      simp only [trmmOmm, except_bind_eq_ok] at h
      obtain ⟨d, h, h2⟩ := h
      cases Except.ok.inj h2
      obtain ⟨h1, h2, h3, h4, h5⟩ := Dense_trmm_ok h
      have sh : (Mat.dense b).SameShape (.dense d) := ⟨h3.symm, h4.symm⟩
      refine ⟨h1, h2, hB.of_shape trivial trivial sh, sh, fun i hi j hj => ?_⟩
      change d.val i j = _
      rw [h5, one_mul]
      rfl
    | lowRank b =>
      simp only [trmmOmm, except_bind_eq_ok] at h
      obtain ⟨-, -, -, -, d, h, h2⟩ := h
      cases Except.ok.inj h2
      obtain ⟨h1, h2, h3, h4, h5⟩ := Dense_trmm_ok h
      have hw : b.WF := hB.wf
      refine ⟨h1, h2.trans hw.urows, hB.of_shape (setOuter_wf hw h3 h4) (setOuter_square hB.sqr) setOuter_shape,
        setOuter_shape, fun i hi j hj => ?_⟩
      rw [setOuter_trmm hw (fun x _ y _ => h5 x y) i hi j hj, one_mul]
      rfl

theorem ident_mul {n : Nat} {B : Mat R} (i j : Nat) (hi : i < n) :
    ∑ l ∈ range n, (Mat.dense (Dense.ident n n : Dense R)).entry i l * B.entry l j = B.entry i j := by
  rw [Finset.sum_eq_single i]
  · simp [entry, Dense.ident]
  · intro l _ hl
    simp [entry, Dense.ident, Ne.symm hl]
  · intro h; exact absurd (Finset.mem_range.2 hi) h

theorem transpose_spec {A T : Mat R} (hA : A.WF) (h : A.transpose = .ok T) :
    T.WF ∧ T.nRows = A.nCols ∧ T.nCols = A.nRows ∧ (A.IsTile → T.IsTile) ∧
    ∀ i < A.nRows, ∀ j < A.nCols, T.entry j i = A.entry i j := by
  have hE : A.NoEmpty := by
    clear hA
    induction A generalizing T with
    | dense => trivial
    | lowRank => trivial
    | empty => cases h
    | hier br bc blk ih =>
      simp only [transpose, except_bind_eq_ok] at h
      obtain ⟨g, hg, -⟩ := h
      exact fun i hi j hj => ih i j (collect2_ok hg i hi j hj)
  obtain ⟨T', h1, h2, h3, h4, h5, h6⟩ := transpose_ok A hA hE
  rw [h] at h1
  cases Except.ok.inj h1
  refine ⟨h2, h4, h5, fun ht => ?_, h6⟩
  cases A with
  | dense => cases Except.ok.inj h; trivial
  | lowRank => cases Except.ok.inj h; trivial
  | hier => exact ht.elim
  | empty => exact ht.elim

end Mat
end Verif
