import Verif.Lemmas.FloatGemmRec
import Verif.Lemmas.SameGemm

/-
Products in floating-point arithmetic return where exact products return: which
operations run depends on the structures of the operands only.
-/

namespace Verif
open Finset

/-- The same dimensions. -/
def Dense.Fit (a b : Dense ℝ) : Prop := b.rows = a.rows ∧ b.cols = a.cols

/-- Factors of the same dimensions. -/
structure LowRank.Fit (a b : LowRank ℝ) : Prop where
  dim0 : b.dim0 = a.dim0
  dim1 : b.dim1 = a.dim1
  U : a.U.Fit b.U
  S : a.S.Fit b.S
  V : a.V.Fit b.V

theorem Dense.Fit.refl (a : Dense ℝ) : a.Fit a := ⟨rfl, rfl⟩

theorem LowRank.Fit.ofFactors {U U' S S' V V' : Dense ℝ} (h1 : U.Fit U') (h2 : S.Fit S') (h3 : V.Fit V') :
    (LowRank.ofFactors U S V).Fit (LowRank.ofFactors U' S' V') := ⟨h1.1, h3.2, h1, h2, h3⟩

section
variable (F : FlBlas)

theorem fit_gemm {a a' b b' c c' : Dense ℝ} (ha : a.Fit a') (hb : b.Fit b') (hc : c.Fit c')
    (α β : ℝ) (ta tb : Bool) :
    Both (fun X X' => c.Fit X ∧ X.Fit X') (Dense.gemm a b c α β ta tb)
      (F.gemmDense a' b' c' α β ta tb) := by
  obtain ⟨a1, a2⟩ := ha
  obtain ⟨b1, b2⟩ := hb
  obtain ⟨c1, c2⟩ := hc
  unfold Dense.gemm FlBlas.gemmDense
  refine Both.assert' (by rw [a1, a2, c1]) (fun _ => Both.assert' (by rw [a1, a2, b1, b2])
    (fun _ => Both.assert' (by rw [b1, b2, c2]) (fun _ => Both.ok ?_)))
  exact ⟨⟨rfl, rfl⟩, c1, c2⟩

theorem fit_new {a a' b b' : Dense ℝ} (ha : a.Fit a') (hb : b.Fit b') (α : ℝ) (ta tb : Bool) :
    Both Dense.Fit (Dense.gemmNew a b α ta tb) (F.gemmDenseNew a' b' α ta tb) := by
  obtain ⟨a1, a2⟩ := id ha
  obtain ⟨b1, b2⟩ := id hb
  unfold Dense.gemmNew FlBlas.gemmDenseNew
  refine Both.assert' (by rw [a1, a2, b1, b2]) (fun _ => ?_)
  rw [a1, a2, b1, b2]
  exact (fit_gemm F ha hb (Dense.Fit.refl _) α 0 ta tb).mono (fun _ _ h => h.2)

theorem fit_LrDD (a : LowRank ℝ) (b : Dense ℝ) {c c' : Dense ℝ} (hc : c.Fit c') (α β : ℝ) (ta tb : Bool) :
    Both (fun X X' => c.Fit X ∧ X.Fit X') (Mat.gemmLrDD a b c α β ta tb) (F.gemmLrDD a b c' α β ta tb) := by
  unfold Mat.gemmLrDD FlBlas.gemmLrDD
  exact (fit_new F (.refl _) (.refl _) α ta tb).bind (fun x x' _ _ hx =>
    (fit_new F (.refl _) hx 1 ta false).bind (fun y y' _ _ hy => fit_gemm F (.refl _) hy hc 1 β ta false))

theorem fit_DLrD (a : Dense ℝ) (b : LowRank ℝ) {c c' : Dense ℝ} (hc : c.Fit c') (α β : ℝ) (ta tb : Bool) :
    Both (fun X X' => c.Fit X ∧ X.Fit X') (Mat.gemmDLrD a b c α β ta tb) (F.gemmDLrD a b c' α β ta tb) := by
  unfold Mat.gemmDLrD FlBlas.gemmDLrD
  exact (fit_new F (.refl _) (.refl _) α ta tb).bind (fun x x' _ _ hx =>
    (fit_new F hx (.refl _) 1 false tb).bind (fun y y' _ _ hy => fit_gemm F hy (.refl _) hc 1 β false tb))

theorem fit_LrLrD (a b : LowRank ℝ) {c c' : Dense ℝ} (hc : c.Fit c') (α β : ℝ) (ta tb : Bool) :
    Both (fun X X' => c.Fit X ∧ X.Fit X') (Mat.gemmLrLrD a b c α β ta tb) (F.gemmLrLrD a b c' α β ta tb) := by
  unfold Mat.gemmLrLrD FlBlas.gemmLrLrD
  exact (fit_new F (.refl _) (.refl _) α ta tb).bind (fun x x' _ _ hx =>
    (fit_new F (.refl _) hx 1 ta false).bind (fun y y' _ _ hy =>
      (fit_new F hy (.refl _) 1 false tb).bind (fun z z' _ _ hz =>
        (fit_new F (.refl _) hz 1 ta false).bind (fun w w' _ _ hw =>
          fit_gemm F hw (.refl _) hc 1 β false tb))))

end

namespace Mat

theorem Shape.leaves {A B : Mat ℝ} (h : A.Shape B) (hA : A.DenseLeaves) : B.DenseLeaves := by
  induction A generalizing B with
  | dense d => cases B <;> first | exact h.elim | trivial
  | lowRank l => exact hA.elim
  | hier br bc A ih =>
    cases B <;> try exact h.elim
    obtain ⟨rfl, rfl, h⟩ := h
    exact fun i hi j hj => ih i j (h i hi j hj) (hA i hi j hj)
  | empty m n => exact hA.elim

theorem Shape.dims' {A B : Mat ℝ} (h : A.Shape B) (hA : A.HasBlocks) (hd : A.DenseLeaves) :
    A.nRows = B.nRows ∧ A.nCols = B.nCols := by
  induction A generalizing B with
  | dense d => cases B <;> first | exact h.elim | exact ⟨h.1.symm, h.2.symm⟩
  | lowRank l => exact hd.elim
  | hier br bc A ih =>
    cases B <;> try exact h.elim
    obtain ⟨rfl, rfl, h⟩ := h
    obtain ⟨p1, p2, p3⟩ := hA
    constructor
    · simp only [Mat.nRows]
      exact Finset.sum_congr rfl (fun i hi => (ih i 0 (h i (by simpa using hi) 0 p2)
        (p3 i (by simpa using hi) 0 p2) (hd i (by simpa using hi) 0 p2)).1)
    · simp only [Mat.nCols]
      exact Finset.sum_congr rfl (fun j hj => (ih 0 j (h 0 p1 j (by simpa using hj))
        (p3 0 p1 j (by simpa using hj)) (hd 0 p1 j (by simpa using hj))).2)
  | empty m n => exact hd.elim

/-- A target and the results of two computations on it. -/
abbrev FitTo (C : Mat ℝ) (x y : Except Err (Mat ℝ)) : Prop :=
  Both (fun X X' => C.Shape X ∧ X.Shape X') x y

/-- A target in the two computations. -/
structure Tg (C C' : Mat ℝ) : Prop where
  shape : C.Shape C'
  blocks : C.HasBlocks
  leaves : C.DenseLeaves

theorem Tg.next {C C' X X' : Mat ℝ} (h : Tg C C') (h1 : C.Shape X) (h2 : X.Shape X') : Tg X X' :=
  ⟨h2, h1.hasBlocks h.blocks, h1.leaves h.leaves⟩

/-- The two products fail on the same operands, with the same error, and agree in the
structure of what they return. -/
def FlGemmFit (g g' : GemmT ℝ) : Prop :=
  ∀ A B C C' α β ta tb, A.HasBlocks → B.HasBlocks → Tg C C' →
    FitTo C (g A B C α β ta tb) (g' A B C' α β ta tb)

def FlGemmNewFit (gn gn' : GemmNewT ℝ) : Prop :=
  ∀ A B α ta tb, A.HasBlocks → B.HasBlocks → Both Tg (gn A B α ta tb) (gn' A B α ta tb)

theorem fit_loop {C C' : Mat ℝ} (hC : Tg C C') {n : Nat} {f f' : Nat → Mat ℝ → Except Err (Mat ℝ)}
    (hf : ∀ k < n, ∀ X X', Tg X X' → FitTo X (f k X) (f' k X')) :
    FitTo C (loop n f C) (loop n f' C') := by
  refine loop_loop (P := fun _ X X' => C.Shape X ∧ X.Shape X') ⟨Shape.refl _, hC.shape⟩ ?_
  intro k hk X X' h
  exact (hf k hk X X' (hC.next h.1 h.2)).mono (fun Y Y' k => ⟨h.1.trans k.1, k.2⟩)

section
variable (F : FlBlas) (o : LrOps ℝ)

theorem fit_scale {C C' : Mat ℝ} (h : Tg C C') (β : ℝ) : FitTo C (C.scale β) (F.scale C' β) := by
  obtain ⟨s, b, d⟩ := h
  clear b
  induction C generalizing C' with
  | dense c =>
    cases C' <;> try exact s.elim
    exact Both.ok ⟨⟨rfl, rfl⟩, s⟩
  | lowRank l => exact d.elim
  | hier m n C ih =>
    cases C' <;> try exact s.elim
    obtain ⟨rfl, rfl, s⟩ := s
    simp only [Mat.scale, FlBlas.scale]
    exact (collect2_both (fun i hi j hj => ih i j (s i hi j hj) (d i hi j hj))).map (fun g g' hg =>
      ⟨⟨rfl, rfl, fun i hi j hj => (hg i hi j hj).1⟩, rfl, rfl, fun i hi j hj => (hg i hi j hj).2⟩)
  | empty m n => exact d.elim

/-- Low-rank blocks whose factors have the same dimensions. -/
def LrFit : Mat ℝ → Mat ℝ → Prop
  | .hier br bc A, .hier br' bc' B => br' = br ∧ bc' = bc ∧
      ∀ i < br, ∀ j < bc, ∃ a b, A i j = .lowRank a ∧ B i j = .lowRank b ∧ a.Fit b
  | _, _ => False

theorem fit_splitLowRank {b b' : LowRank ℝ} (h : b.Fit b') (m n : Nat) :
    Both LrFit ((Mat.lowRank b).split m n) ((Mat.lowRank b').split m n) := by
  simp only [Mat.split, splitOmm, Mat.nRows, Mat.nCols, h.dim0, h.dim1]
  generalize hrs : (⟨0, b.dim0⟩ : IndexRange).split m = rs
  generalize hcs : (⟨0, b.dim1⟩ : IndexRange).split n = cs
  unfold splitLowRank
  rw [h.U.1, h.V.2]
  by_cases hin : (rs.length ≤ 1 ∨ rangesInside b.U.rows rs = true) ∧
      (cs.length ≤ 1 ∨ rangesInside b.V.cols cs = true)
  · rw [if_pos hin, if_pos hin]
    refine Both.ok ⟨rfl, rfl, fun i hi j hj => ⟨_, _, rfl, rfl, LowRank.Fit.ofFactors ?_ h.S ?_⟩⟩
    · split
      · exact ⟨rfl, h.U.2⟩
      · exact h.U
    · split
      · exact ⟨h.V.1, rfl⟩
      · exact h.V
  · rw [if_neg hin, if_neg hin]
    exact Both.err _ _

theorem fit_addAssign {C C' : Mat ℝ} {X X' : LowRank ℝ} (hC : Tg C C') (hX : X.Fit X') :
    FitTo C (C.addAssign o (.lowRank X)) (F.addAssign C' (.lowRank X')) := by
  obtain ⟨s, b, d⟩ := hC
  clear b
  induction C generalizing C' X X' with
  | dense c =>
    cases C' <;> try exact s.elim
    rename_i c'
    have : Both (fun Y Y' => c.Fit Y ∧ Y.Fit Y') (c.addLowRank X) (F.addLowRank c' X') := by
      unfold Dense.addLowRank FlBlas.addLowRank
      exact (fit_new F hX.U hX.S 1 false false).bind (fun x x' _ _ hx =>
        fit_gemm F hx hX.V s 1 1 false false)
    exact this.map (fun _ _ h => h)
  | lowRank l => exact d.elim
  | hier m n C ih =>
    cases C' <;> try exact s.elim
    obtain ⟨rfl, rfl, s⟩ := s
    simp only [Mat.addAssign, FlBlas.addAssign]
    refine (fit_splitLowRank hX _ _).bind (fun BH BH' _ _ hs => ?_)
    cases BH with
    | hier p q BH =>
      cases BH' with
      | hier p' q' BH' =>
        obtain ⟨rfl, rfl, hs⟩ := hs
        refine (collect2_both (P := fun i j X X' => (C i j).Shape X ∧ X.Shape X') (fun i hi j hj =>
          Both.assert (fun k1 => Both.assert (fun k2 => ?_)))).map (fun g g' hg =>
          ⟨⟨rfl, rfl, fun i hi j hj => (hg i hi j hj).1⟩, rfl, rfl, fun i hi j hj => (hg i hi j hj).2⟩)
        obtain ⟨x, x', e1, e2, hx⟩ := hs i k1 j k2
        rw [e1, e2]
        exact ih i j hx (s i hi j hj) (d i hi j hj)
      | _ => exact hs.elim
    | _ => exact hs.elim
  | empty m n => exact d.elim

theorem fit_scaleAdd {C C' : Mat ℝ} {X X' : LowRank ℝ} (hC : Tg C C') (hX : X.Fit X') (β : ℝ) :
    FitTo C (scaleAdd o C β X) (F.scaleAdd C' β X') := by
  unfold scaleAdd FlBlas.scaleAdd
  refine (fit_scale F hC β).bind (fun Y Y' _ _ ⟨y1, y2⟩ => ?_)
  exact (fit_addAssign F o (hC.next y1 y2) hX).mono (fun Z Z' hz => ⟨y1.trans hz.1, hz.2⟩)

variable {C C' : Mat ℝ} (hC : Tg C C')
include hC

theorem fit_gemmLrD (a : LowRank ℝ) (b : Dense ℝ) (α β : ℝ) (ta tb : Bool) :
    FitTo C (gemmLrD o a b C α β ta tb) (F.gemmLrD a b C' α β ta tb) := by
  unfold gemmLrD FlBlas.gemmLrD
  exact (fit_new F (.refl _) (.refl _) α ta tb).bind (fun x x' _ _ hx =>
    fit_scaleAdd F o hC (.ofFactors (.refl _) (.refl _) hx) β)

theorem fit_gemmDLr (a : Dense ℝ) (b : LowRank ℝ) (α β : ℝ) (ta tb : Bool) :
    FitTo C (gemmDLr o a b C α β ta tb) (F.gemmDLr a b C' α β ta tb) := by
  unfold gemmDLr FlBlas.gemmDLr
  exact (fit_new F (.refl _) (.refl _) α ta tb).bind (fun x x' _ _ hx =>
    fit_scaleAdd F o hC (.ofFactors hx (.refl _) (.refl _)) β)

theorem fit_gemmLrLr (a b : LowRank ℝ) (α β : ℝ) (ta tb : Bool) :
    FitTo C (gemmLrLr o a b C α β ta tb) (F.gemmLrLr a b C' α β ta tb) := by
  unfold gemmLrLr FlBlas.gemmLrLr
  exact (fit_new F (.refl _) (.refl _) 1 ta ta).bind (fun x x' _ _ hx =>
    (fit_new F (.refl _) (.refl _) 1 tb tb).bind (fun y y' _ _ hy =>
      (fit_new F hx hy α false false).bind (fun S S' _ _ hS =>
        fit_scaleAdd F o hC (.ofFactors (.refl _) hS (.refl _)) β)))

end

/-! ### parts of targets and operands -/

theorem flsplit_blocks {a : Dense ℝ} {nr nc : Nat} (hr : 1 ≤ nr) (hc : 1 ≤ nc) {M : Mat ℝ}
    (h : (Mat.dense a).split nr nc = .ok M) : M.HasBlocks := by
  rcases same_split (Dense.Same.refl a) hr hc with ⟨x, y, e, -, hx⟩ | ⟨e, e1, -⟩
  · rw [h] at e
    cases e
    exact hx.2
  · rw [h] at e1
    cases e1

theorem fit_split {c c' : Dense ℝ} (h : c.Fit c') {nr nc : Nat} (hr : 1 ≤ nr) (hc : 1 ≤ nc) :
    Both Tg ((Mat.dense c).split nr nc) ((Mat.dense c').split nr nc) := by
  have key : Both (fun M M' => M.Shape M' ∧ M.DenseLeaves) ((Mat.dense c).split nr nc)
      ((Mat.dense c').split nr nc) := by
    simp only [Mat.split, splitOmm, Mat.nRows, Mat.nCols, h.1, h.2]
    unfold splitDense
    rw [h.1, h.2]
    split
    · exact Both.ok ⟨⟨rfl, rfl, fun i hi j hj => ⟨rfl, rfl⟩⟩, fun i hi j hj => trivial⟩
    · exact Both.err _ _
  rcases key with ⟨x, y, e1, e2, hx⟩ | ⟨e, e1, e2⟩
  · exact Or.inl ⟨x, y, e1, e2, hx.1, flsplit_blocks hr hc e1, hx.2⟩
  · exact Or.inr ⟨e, e1, e2⟩

theorem fit_join {c c' : Dense ℝ} (h : c.Fit c') {X X' : Mat ℝ} (hX : X.Shape X') (hd : X.DenseLeaves)
    (hf : ∀ br bc blk, X = .hier br bc blk → ∀ i < br, ∀ j < bc, ∃ d, blk i j = .dense d) :
    FitTo (.dense c) (joinDense c X) (joinDense c' X') := by
  cases X with
  | hier m n blk =>
    cases X' with
    | hier m' n' blk' =>
      obtain ⟨rfl, rfl, hX⟩ := hX
      simp only [joinDense]
      refine (collect2_both (P := fun _ _ _ _ => True) (fun i hi j hj => ?_)).bind
        (fun g g' _ _ _ => Both.ok ⟨⟨rfl, rfl⟩, h⟩)
      obtain ⟨d, e⟩ := hf _ _ _ rfl i hi j hj
      have s := hX i hi j hj
      rw [e] at s ⊢
      cases e' : blk' i j <;> rw [e'] at s <;> try exact s.elim
      exact Both.ok trivial
    | _ => exact hX.elim
  | dense d =>
    cases X' <;> try exact hX.elim
    exact Both.err _ _
  | _ => exact hd.elim

theorem fit_through {c c' : Dense ℝ} (h : c.Fit c') {nr nc : Nat} (hr : 1 ≤ nr) (hc : 1 ≤ nc)
    {f f' : Mat ℝ → Except Err (Mat ℝ)}
    (hf : ∀ CH CH', Tg CH CH' → FitTo CH (f CH) (f' CH')) :
    FitTo (.dense c) (do
      let CH ← (Mat.dense c).split nr nc
      let CH' ← f CH
      joinDense c CH') (do
      let CH ← (Mat.dense c').split nr nc
      let CH' ← f' CH
      joinDense c' CH') := by
  refine (fit_split h hr hc).bind (fun CH CH' e1 _ t => ?_)
  refine (hf CH CH' t).bind (fun X X' _ _ ⟨x1, x2⟩ => ?_)
  refine fit_join h x2 (x1.leaves t.leaves) ?_
  rintro br bc blk rfl i hi j hj
  simp only [Mat.split, splitOmm, splitDense, Mat.nRows, Mat.nCols, IndexRange.length_split] at e1
  split at e1
  · cases e1
    obtain ⟨rfl, rfl, x1⟩ := x1
    have := x1 i hi j hj
    cases e : blk i j <;> rw [e] at this <;> first | exact this.elim | exact ⟨_, rfl⟩
  · cases e1

/-! ### the recursion -/

section
variable {F : FlBlas} {o : LrOps ℝ} {g g' : GemmT ℝ} {gn gn' : GemmNewT ℝ} (hg : FlGemmFit g g')
include hg

theorem fit_toDense (A B : Mat ℝ) (bA : A.HasBlocks) (bB : B.HasBlocks) {c c' : Dense ℝ} (hc : c.Fit c')
    (α β : ℝ) (ta tb : Bool) :
    FitTo (.dense c) (gemmToDense g A B c α β ta tb) (F.gemmToDense g' A B c' α β ta tb) := by
  have tc : Tg (.dense c) (.dense c') := ⟨hc, trivial, trivial⟩
  have right : ∀ (A : Mat ℝ) (r s : Nat) (B : Nat → Nat → Mat ℝ), A.HasBlocks →
      (Mat.hier r s B).HasBlocks →
      FitTo (.dense c)
        (if r = 1 ∧ s = 1 then g A (B 0 0) (.dense c) α β ta tb
          else do
            let CH ← (Mat.dense c).split 1 (opDim1 tb r s)
            let CH' ← g A (.hier r s B) CH α β ta tb
            joinDense c CH')
        (if r = 1 ∧ s = 1 then g' A (B 0 0) (.dense c') α β ta tb
          else do
            let CH ← (Mat.dense c').split 1 (opDim1 tb r s)
            let CH' ← g' A (.hier r s B) CH α β ta tb
            joinDense c' CH') := by
    intro A r s B bA bB
    split
    · exact hg _ _ _ _ _ _ _ _ bA (bB.2.2 0 bB.1 0 bB.2.1) tc
    · exact fit_through hc (le_refl _) (hasBlocks_opDim bB).2
        (f := fun CH => g A (.hier r s B) CH α β ta tb)
        (f' := fun CH => g' A (.hier r s B) CH α β ta tb)
        (fun CH CH' t => hg _ _ _ _ _ _ _ _ bA bB t)
  have left : ∀ (p q : Nat) (A : Nat → Nat → Mat ℝ) (B : Mat ℝ), (Mat.hier p q A).HasBlocks →
      B.HasBlocks →
      FitTo (.dense c)
        (if p = 1 ∧ q = 1 then g (A 0 0) B (.dense c) α β ta tb
          else do
            let CH ← (Mat.dense c).split (opDim0 ta p q) 1
            let CH' ← g (.hier p q A) B CH α β ta tb
            joinDense c CH')
        (if p = 1 ∧ q = 1 then g' (A 0 0) B (.dense c') α β ta tb
          else do
            let CH ← (Mat.dense c').split (opDim0 ta p q) 1
            let CH' ← g' (.hier p q A) B CH α β ta tb
            joinDense c' CH') := by
    intro p q A B bA bB
    split
    · exact hg _ _ _ _ _ _ _ _ (bA.2.2 0 bA.1 0 bA.2.1) bB tc
    · exact fit_through hc (hasBlocks_opDim bA).1 (le_refl _)
        (f := fun CH => g (.hier p q A) B CH α β ta tb)
        (f' := fun CH => g' (.hier p q A) B CH α β ta tb)
        (fun CH CH' t => hg _ _ _ _ _ _ _ _ bA bB t)
  cases A with
  | dense a =>
    cases B with
    | dense b => exact (fit_gemm F (.refl a) (.refl b) hc α β ta tb).map (fun _ _ h => h)
    | lowRank b => exact (fit_DLrD F a b hc α β ta tb).map (fun _ _ h => h)
    | hier r s B => exact right (.dense a) r s B bA bB
    | empty => exact Both.err _ _
  | lowRank a =>
    cases B with
    | dense b => exact (fit_LrDD F a b hc α β ta tb).map (fun _ _ h => h)
    | lowRank b => exact (fit_LrLrD F a b hc α β ta tb).map (fun _ _ h => h)
    | hier r s B => exact right (.lowRank a) r s B bA bB
    | empty => exact Both.err _ _
  | hier p q A =>
    cases B with
    | dense b => exact left p q A _ bA bB
    | lowRank b => exact left p q A _ bA bB
    | hier r s B =>
      simp only [FlBlas.gemmToDense, gemmToDense, gemmHHD]
      refine Both.assert (fun _ => ?_)
      split
      · refine fit_loop tc (fun k hk X X' t => ?_)
        refine Both.bind_same _ (fun a ha => Both.bind_same _ (fun b hb => ?_))
        have ha' : a.HasBlocks := by
          rcases same_vecAt bA (fun i _ j _ => Same.refl (A i j)) k with ⟨x, y, e, -, hx⟩ | ⟨e, e1, -⟩
          · rw [ha] at e
            cases e
            exact hx.2.1
          · rw [ha] at e1
            cases e1
        have hb' : b.HasBlocks := by
          rcases same_vecAt bB (fun i _ j _ => Same.refl (B i j)) k with ⟨x, y, e, -, hx⟩ | ⟨e, e1, -⟩
          · rw [hb] at e
            cases e
            exact hx.2.1
          · rw [hb] at e1
            cases e1
        exact hg _ _ _ _ _ _ _ _ ha' hb' t
      · exact fit_through hc (hasBlocks_opDim bA).1 (hasBlocks_opDim bB).2
          (f := fun CH => g (.hier p q A) (.hier r s B) CH α β ta tb)
          (f' := fun CH => g' (.hier p q A) (.hier r s B) CH α β ta tb)
          (fun CH CH' t => hg _ _ _ _ _ _ _ _ bA bB t)
    | empty m n => exact left p q A _ bA bB
  | empty m n =>
    cases B with
    | hier r s B => exact right (.empty m n) r s B bA bB
    | _ => exact Both.err _ _

omit hg in
theorem vecAt_blocks {p q : Nat} {A : Nat → Nat → Mat ℝ} (bA : (Mat.hier p q A).HasBlocks) {k : Nat}
    {a : Mat ℝ} (ha : vecAt p q A k = .ok a) : a.HasBlocks ∧ a = if p = 1 then A 0 k else A k 0 := by
  rcases same_vecAt bA (fun i _ j _ => Same.refl (A i j)) k with ⟨x, y, e, -, hx⟩ | ⟨e, e1, -⟩
  · rw [ha] at e
    cases e
    exact hx.2
  · rw [ha] at e1
    cases e1

omit hg in
theorem fit_vecAt {p q : Nat} {A A' : Nat → Nat → Mat ℝ} (t : Tg (.hier p q A) (.hier p q A')) (k : Nat) :
    Both (fun x x' => Tg x x' ∧ x = if p = 1 then A 0 k else A k 0)
      (Mat.vecAt p q A k) (Mat.vecAt p q A' k) := by
  obtain ⟨⟨-, -, s⟩, ⟨p1, p2, p3⟩, d⟩ := t
  unfold Mat.vecAt
  refine Both.assert (fun g1 => Both.assert (fun g2 => Both.ok ?_))
  by_cases hp : p = 1
  · rw [if_neg (by simpa using hp)] at g2
    rw [if_pos hp, if_pos hp]
    exact ⟨⟨s 0 p1 k g2, p3 0 p1 k g2, d 0 p1 k g2⟩, rfl⟩
  · rw [if_pos hp] at g2
    rw [if_neg hp, if_neg hp]
    exact ⟨⟨s k g2 0 p2, p3 k g2 0 p2, d k g2 0 p2⟩, rfl⟩

theorem fit_rowLoop {A : Mat ℝ} (bA : A.HasBlocks) {r s : Nat} {B : Nat → Nat → Mat ℝ}
    (bB : (Mat.hier r s B).HasBlocks) {n : Nat} {C C' : Nat → Nat → Mat ℝ}
    (hC : Tg (.hier 1 n C) (.hier 1 n C')) (α β : ℝ) (ta tb : Bool) :
    FitTo (.hier 1 n C) (gemmRowLoop g A r s B 1 n C α β ta tb)
      (gemmRowLoop g' A r s B 1 n C' α β ta tb) := by
  unfold gemmRowLoop
  refine (collect_both (P := fun j x x' => (C 0 j).Shape x ∧ x.Shape x') (fun j hj => ?_)).map
    (fun f f' hf => ?_)
  · refine Both.bind_same _ (fun b hb => (fit_vecAt hC j).bind (fun c c' _ _ hc => ?_))
    have := hg A b c c' α β ta tb bA (vecAt_blocks bB hb).1 hc.1
    rw [hc.2, if_pos rfl] at this
    rw [hc.2, if_pos rfl]
    exact this
  · refine ⟨⟨rfl, rfl, fun i hi j hj => ?_⟩, rfl, rfl, fun i hi j hj => ?_⟩
    · obtain rfl : i = 0 := by omega
      simp only
      split
      · exact (hf j ‹_›).1
      · exact Shape.refl _
    · obtain rfl : i = 0 := by omega
      simp only
      split
      · exact (hf j ‹_›).2
      · exact hC.shape.2.2 0 hi j hj

theorem fit_colLoop {B : Mat ℝ} (bB : B.HasBlocks) {p q : Nat} {A : Nat → Nat → Mat ℝ}
    (bA : (Mat.hier p q A).HasBlocks) {m : Nat} {C C' : Nat → Nat → Mat ℝ}
    (hC : Tg (.hier m 1 C) (.hier m 1 C')) (α β : ℝ) (ta tb : Bool) :
    FitTo (.hier m 1 C) (gemmColLoop g p q A B m 1 C α β ta tb)
      (gemmColLoop g' p q A B m 1 C' α β ta tb) := by
  unfold gemmColLoop
  refine (collect_both (P := fun i x x' => (i < m → (C i 0).Shape x ∧ x.Shape x')) (fun i hi => ?_)).map
    (fun f f' hf => ?_)
  · refine Both.bind_same _ (fun a ha => (fit_vecAt hC i).bind (fun c c' _ _ hc => ?_))
    refine (hg a B c c' α β ta tb (vecAt_blocks bA ha).1 bB hc.1).mono (fun x x' hx him => ?_)
    have e : c = C i 0 := by
      rw [hc.2]
      split
      · obtain rfl : i = 0 := by omega
        rfl
      · rfl
    rw [← e]
    exact hx
  · refine ⟨⟨rfl, rfl, fun i hi j hj => ?_⟩, rfl, rfl, fun i hi j hj => ?_⟩
    · obtain rfl : j = 0 := by omega
      simp only
      split
      · exact (hf i ‹_› hi).1
      · exact Shape.refl _
    · obtain rfl : j = 0 := by omega
      simp only
      split
      · exact (hf i ‹_› hi).2
      · exact hC.shape.2.2 i hi 0 hj

theorem fit_toHier (hgn : FlGemmNewFit gn gn') (A B : Mat ℝ) (bA : A.HasBlocks) (bB : B.HasBlocks)
    {m n : Nat} {C C' : Nat → Nat → Mat ℝ} (hC : Tg (.hier m n C) (.hier m n C')) (α β : ℝ)
    (ta tb : Bool) :
    FitTo (.hier m n C) (gemmToHier o g gn A B m n C α β ta tb)
      (F.gemmToHier g' gn' A B m n C' α β ta tb) := by
  have m1 : 1 ≤ m := hC.blocks.1
  have n1 : 1 ≤ n := hC.blocks.2.1
  cases A with
  | dense a =>
    cases B with
    | dense b =>
      simp only [gemmToHier, FlBlas.gemmToHier, gemmDDH]
      split
      · exact Both.err _ _
      split
      · exact Both.bind_same _ (fun AH e => hg _ (.dense b) _ _ _ _ _ _
          (flsplit_blocks (one_le_ite le_rfl m1) (one_le_ite m1 le_rfl) e) trivial hC)
      split
      · exact Both.bind_same _ (fun BH e => hg (.dense a) _ _ _ _ _ _ _ trivial
          (flsplit_blocks (one_le_ite n1 le_rfl) (one_le_ite le_rfl n1) e) hC)
      · exact Both.bind_same _ (fun AH e => Both.bind_same _ (fun BH e' => hg _ _ _ _ _ _ _ _
          (flsplit_blocks (one_le_ite le_rfl m1) (one_le_ite m1 le_rfl) e)
          (flsplit_blocks (one_le_ite n1 le_rfl) (one_le_ite le_rfl n1) e') hC))
    | lowRank b => exact fit_gemmDLr F o hC a b α β ta tb
    | hier r s B =>
      simp only [gemmToHier, FlBlas.gemmToHier, gemmDHH]
      refine Both.assert (fun _ => ?_)
      split
      · exact hg (.dense a) _ _ _ _ _ _ _ trivial (bB.2.2 0 bB.1 0 bB.2.1) hC
      split
      · rename_i h1
        obtain ⟨-, rfl⟩ := h1
        exact fit_rowLoop hg (A := .dense a) trivial bB hC α β ta tb
      · exact Both.bind_same _ (fun AH e => hg _ _ _ _ _ _ _ _
          (flsplit_blocks (one_le_ite (hasBlocks_opDim bB).1 m1) (one_le_ite m1 (hasBlocks_opDim bB).1) e) bB hC)
    | empty => exact Both.err _ _
  | lowRank a =>
    cases B with
    | dense b => exact fit_gemmLrD F o hC a b α β ta tb
    | lowRank b => exact fit_gemmLrLr F o hC a b α β ta tb
    | hier r s B =>
      simp only [gemmToHier, FlBlas.gemmToHier, gemmLrHH, FlBlas.gemmLrHH]
      refine Both.assert (fun _ => ?_)
      split
      · exact hg (.lowRank a) _ _ _ _ _ _ _ trivial (bB.2.2 0 bB.1 0 bB.2.1) hC
      split
      · rename_i h1
        obtain ⟨-, rfl⟩ := h1
        exact fit_rowLoop hg (A := .lowRank a) trivial bB hC α β ta tb
      · refine (hgn (.dense a.V) _ _ _ _ trivial bB).bind (fun V V' _ _ hV => ?_)
        cases V with
        | dense v =>
          cases V' with
          | dense v' => exact fit_scaleAdd F o hC (.ofFactors (.refl _) (.refl _) hV.shape) β
          | _ => exact hV.shape.elim
        | hier =>
          cases V' with
          | hier => exact Both.err _ _
          | _ => exact hV.shape.elim
        | _ => exact hV.leaves.elim
    | empty => exact Both.err _ _
  | hier p q A =>
    cases B with
    | dense b =>
      simp only [gemmToHier, FlBlas.gemmToHier, gemmHDH]
      split
      · exact hg _ (.dense b) _ _ _ _ _ _ (bA.2.2 0 bA.1 0 bA.2.1) trivial hC
      split
      · rename_i h1
        obtain ⟨-, rfl⟩ := h1
        exact fit_colLoop hg (B := .dense b) trivial bA hC α β ta tb
      · exact Both.bind_same _ (fun BH e => hg _ _ _ _ _ _ _ _ bA
          (flsplit_blocks (one_le_ite n1 (hasBlocks_opDim bA).2) (one_le_ite (hasBlocks_opDim bA).2 n1) e) hC)
    | lowRank b =>
      simp only [gemmToHier, FlBlas.gemmToHier, gemmHLrH, FlBlas.gemmHLrH]
      split
      · exact hg _ (.lowRank b) _ _ _ _ _ _ (bA.2.2 0 bA.1 0 bA.2.1) trivial hC
      split
      · rename_i h1
        obtain ⟨-, rfl⟩ := h1
        exact fit_colLoop hg (B := .lowRank b) trivial bA hC α β ta tb
      · refine (hgn _ (.dense b.U) _ _ _ bA trivial).bind (fun V V' _ _ hV => ?_)
        cases V with
        | dense v =>
          cases V' with
          | dense v' => exact fit_scaleAdd F o hC (.ofFactors hV.shape (.refl _) (.refl _)) β
          | _ => exact hV.shape.elim
        | hier =>
          cases V' with
          | hier => exact Both.err _ _
          | _ => exact hV.shape.elim
        | _ => exact hV.leaves.elim
    | hier r s B =>
      simp only [gemmToHier, FlBlas.gemmToHier, gemmHHH]
      refine Both.assert (fun g1 => Both.assert (fun g2 => Both.assert (fun g3 => ?_)))
      refine (collect2_both (P := fun i j x x' => (C i j).Shape x ∧ x.Shape x') (fun i hi j hj => ?_)).map
        (fun f f' hf => ⟨⟨rfl, rfl, fun i hi j hj => (hf i hi j hj).1⟩, rfl, rfl,
          fun i hi j hj => (hf i hi j hj).2⟩)
      refine fit_loop ⟨hC.shape.2.2 i hi j hj, hC.blocks.2.2 i hi j hj, hC.leaves i hi j hj⟩
        (fun k hk X X' t => ?_)
      exact hg _ _ _ _ _ _ _ _ (hasBlocks_opBlk bA (by omega) hk)
        (hasBlocks_opBlk bB (by omega) (by omega)) t
    | empty m n => exact Both.err _ _
  | empty m n => cases B <;> exact Both.err _ _

theorem fit_newOmm (hgn : FlGemmNewFit gn gn') : FlGemmNewFit (gemmNewOmm g gn) (gemmNewOmm g' gn') := by
  intro A B α ta tb bA bB
  have gen : Both Tg (g A B (.dense (Dense.zero (A.opRows ta) (B.opCols tb))) α 0 ta tb)
      (g' A B (.dense (Dense.zero (A.opRows ta) (B.opCols tb))) α 0 ta tb) := by
    have t : Tg (.dense (Dense.zero (A.opRows ta) (B.opCols tb)))
        (.dense (Dense.zero (A.opRows ta) (B.opCols tb))) := ⟨Shape.refl _, trivial, trivial⟩
    exact (hg _ _ _ _ _ _ _ _ bA bB t).mono (fun X X' h => t.next h.1 h.2)
  cases A with
  | hier p q A =>
    cases B with
    | hier r s B =>
      simp only [gemmNewOmm, gemmNewHH]
      split
      · exact gen
      · refine (collect2_both (P := fun _ _ x x' => Tg x x') (fun i hi j hj => ?_)).map
          (fun f f' hf => ⟨⟨rfl, rfl, fun i hi j hj => (hf i hi j hj).shape⟩,
            ⟨(hasBlocks_opDim bA).1, (hasBlocks_opDim bB).2, fun i hi j hj => (hf i hi j hj).blocks⟩,
            fun i hi j hj => (hf i hi j hj).leaves⟩)
        have opb : ∀ {t : Bool} {p q : Nat} {A : Nat → Nat → Mat ℝ} {i k : Nat} {a : Mat ℝ},
            (Mat.hier p q A).HasBlocks → opAt t p q A i k = .ok a → a.HasBlocks := by
          intro t p q A i k a bA h
          obtain ⟨h1, h2, rfl⟩ := opAt_ok h
          exact hasBlocks_opBlk bA h1 h2
        refine Both.bind_same _ (fun a ha => Both.bind_same _ (fun b hb =>
          (hgn _ _ _ _ _ (opb bA ha) (opb bB hb)).bind (fun c c' _ _ hc => ?_)))
        refine (fit_loop hc (fun k hk X X' t => ?_)).mono (fun X X' h => hc.next h.1 h.2)
        exact Both.bind_same _ (fun a ha => Both.bind_same _ (fun b hb =>
          hg _ _ _ _ _ _ _ _ (opb bA ha) (opb bB hb) t))
    | _ => exact gen
  | _ => exact gen

end

/-- Floating-point products return where exact ones do. -/
theorem gemmBoth_flfit (F : FlBlas) (o : LrOps ℝ) (fuel : Nat) :
    FlGemmFit (gemmBoth o fuel).1 (F.gemmBoth fuel).1 ∧
    FlGemmNewFit (gemmBoth o fuel).2 (F.gemmBoth fuel).2 := by
  induction fuel with
  | zero => exact ⟨fun _ _ _ _ _ _ _ _ _ _ _ => Both.err _ _, fun _ _ _ _ _ _ _ => Both.err _ _⟩
  | succ fuel ih =>
    obtain ⟨hg, hgn⟩ := ih
    constructor
    · intro A B C C' α β ta tb bA bB hC
      simp only [gemmBoth, FlBlas.gemmBoth]
      obtain ⟨c1, c2⟩ := hC.shape.dims' hC.blocks hC.leaves
      refine Both.assert' (by rw [c1]) (fun _ => Both.assert (fun _ =>
        Both.assert' (by rw [c2]) (fun _ => ?_)))
      cases C with
      | dense c =>
        cases C' with
        | dense c' => exact fit_toDense hg A B bA bB hC.shape α β ta tb
        | _ => exact hC.shape.elim
      | hier m n C =>
        cases C' with
        | hier m' n' C' =>
          obtain ⟨rfl, rfl, -⟩ := id hC.shape
          exact fit_toHier hg hgn A B bA bB hC α β ta tb
        | _ => exact hC.shape.elim
      | _ => exact hC.leaves.elim
    · intro A B α ta tb bA bB
      simp only [gemmBoth, FlBlas.gemmBoth]
      exact Both.assert (fun _ => fit_newOmm hg hgn _ _ _ _ _ bA bB)

end Mat
end Verif
