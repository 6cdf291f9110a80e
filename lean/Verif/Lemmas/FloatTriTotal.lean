import Verif.Lemmas.FloatTri
import Verif.Lemmas.FloatReturns
import Verif.Lemmas.TrsmTotal

/-
Triangular solves in floating-point arithmetic return.
-/

set_option linter.unusedSectionVars false
set_option linter.unusedVariables false
set_option linter.unusedSimpArgs false

namespace Verif
open Finset

namespace Mat

theorem Target.leaves {C : Mat ℝ} (h : C.Target (fun _ => False)) : C.DenseLeaves := by
  obtain ⟨-, ne, -, -, al⟩ := h
  induction C with
  | dense => trivial
  | lowRank => exact al.elim
  | empty => exact ne.elim
  | hier p q A ih => exact fun i hi j hj => ih i j (ne i hi j hj) (al i hi j hj)

theorem Shape.sameShape {A B : Mat ℝ} (h : A.Shape B) (hA : A.DenseLeaves) : A.SameShape B := by
  induction A generalizing B with
  | dense d => cases B <;> first | exact h.elim | exact ⟨h.1.symm, h.2.symm⟩
  | lowRank l => exact hA.elim
  | empty => exact hA.elim
  | hier br bc A ih =>
    cases B <;> try exact h.elim
    obtain ⟨rfl, rfl, h⟩ := h
    exact ⟨rfl, rfl, fun i hi j hj => ih i j (h i hi j hj) (hA i hi j hj)⟩

theorem SameShape.wf_leaves {A B : Mat ℝ} (h : A.SameShape B) (hA : A.WF) (hd : A.DenseLeaves) : B.WF := by
  induction A generalizing B with
  | dense d => cases B <;> first | exact h.elim | trivial
  | lowRank l => exact hd.elim
  | empty => exact hd.elim
  | hier br bc A ih =>
    cases B with
    | hier br' bc' B =>
      obtain ⟨rfl, rfl, h⟩ := h
      have hA' := hA
      simp only [WF] at hA'
      exact (hier_grid (blk := B) (h := fun a => (A a 0).nRows) (w := fun b => (A 0 b).nCols)
        hA'.1 hA'.2.1 (fun i hi j hj => ⟨ih i j (h i hi j hj) (hA'.2.2 i hi j hj).1 (hd i hi j hj), by
          rw [((h i hi j hj).dims (hA'.2.2 i hi j hj).1).1, (hA'.2.2 i hi j hj).2.1], by
          rw [((h i hi j hj).dims (hA'.2.2 i hi j hj).1).2, (hA'.2.2 i hi j hj).2.2]⟩)).1
    | _ => exact h.elim

theorem Target.same {C C' : Mat ℝ} (h : C.Target (fun _ => False)) (hs : C.SameShape C') :
    C'.Target (fun _ => False) := by
  have d := h.leaves.shape hs
  exact h.shape hs (hs.wf_leaves h.wf h.leaves) d.square (d.all _)

/-- Low-rank operations that always fail. -/
def failOps : LrOps ℝ := ⟨fun _ _ => .error .abort, fun _ _ => .error .abort, fun _ _ => .error .abort,
  fun _ _ => .error .abort⟩

theorem fl_gemmStep (F : FlBlas) {b d fuel : Nat} (hb : 2 ≤ b) (hn : 6 * d + 1 ≤ fuel) :
    GemmStep (fun _ => False) b d (F.gemm fuel) := by
  intro A X B c hA hX hB dA dX dB sh tc hd α β
  have hf : failOps.Fits False :=
    ⟨fun _ _ _ _ _ _ _ _ _ h => (nomatch h), fun _ _ _ h => (nomatch h), fun _ _ _ h => (nomatch h),
      fun _ _ _ _ h => (nomatch h)⟩
  have hT : failOps.Total False (fun _ => False) :=
    ⟨fun _ _ h => h, fun _ _ _ _ _ _ _ _ h => h.elim, fun _ _ h => h.elim, fun _ _ h => h.elim,
      fun _ _ h => h.elim⟩
  have rc := sh.regular tc.wf hB
  have dd := sh.dims hB.wf
  obtain ⟨x, hx, -⟩ := gemmTot hf hT hb hn A X c α β hA hX rc tc.sqr tc.all dA dX
    (by rw [sh.depth]; exact dB) ⟨by rw [dd.1]; exact hd.rows, hd.inner, by rw [dd.2]; exact hd.cols⟩
  have B0 := (gemmBoth_flfit F failOps fuel).1 A X c c α β false false hA.wf.hasBlocks hX.wf.hasBlocks
    ⟨Shape.refl c, tc.wf.hasBlocks, tc.leaves⟩
  have hx' : (gemmBoth failOps fuel).1 A X c α β false false = .ok x := hx
  rcases B0 with ⟨y, y', e1, e2, h1, h2⟩ | ⟨e, e1, -⟩
  · have l1 := h1.leaves tc.leaves
    have s := (h1.sameShape tc.leaves).trans (h2.sameShape l1)
    exact ⟨y', e2, sh.trans s, tc.same s⟩
  · rw [hx'] at e1; cases e1

theorem trsmDense_total {F : FlLapack} {uplo : Uplo} {side : Side} {A B : Dense ℝ} (h : A.rows = A.cols)
    (hn : A.rows = side.pick B.rows B.cols) (hd : (Mat.dense A).DiagNonzero uplo) :
    ∃ X, F.trsmDense uplo side A B = .ok X := by
  unfold FlLapack.trsmDense
  dsimp only
  split_ifs with h1 h2
  · exact ⟨_, rfl⟩
  · exact ⟨_, rfl⟩
  · refine absurd ⟨by omega, by omega, ?_⟩ h2
    rw [List.all_eq_true]
    intro i hi
    rw [List.mem_range, ← hn] at hi
    rw [decide_eq_true_eq]
    cases uplo with
    | lower => simp [Dense.tri]
    | upper => simpa [Dense.tri, Mat.entry] using hd rfl i hi

theorem fl_trsmWith_total {F : FlLapack} {b d : Nat} {g : GemmT ℝ} (hG : GemmStep (fun _ => False) b d g)
    {uplo : Uplo} {side : Side} (fuel : Nat) :
    ∀ A B : Mat ℝ, A.TriRegular b uplo → A.DiagNonzero uplo → A.depth ≤ d →
      B.Target (fun _ => False) → B.depth ≤ d →
      Solvable b uplo side A B → A.nRows = side.pick B.nRows B.nCols → 2 * A.depth + 1 ≤ fuel →
      ∃ X, F.trsmWith g uplo side fuel A B = .ok X ∧ B.SameShape X ∧ X.Target (fun _ => False) := by
  induction fuel using Nat.strong_induction_on with
  | _ fuel ih =>
  intro A B hA hz dA hB dB hS hn hfu
  obtain ⟨f, rfl⟩ : ∃ f, fuel = f + 1 := ⟨fuel - 1, by omega⟩
  simp only [FlLapack.trsmWith]
  cases B with
  | empty => cases A <;> exact hS.elim
  | lowRank l => exact hB.all.elim
  | dense y =>
    cases A with
    | lowRank a => exact hS.elim
    | empty => exact hS.elim
    | dense a =>
      obtain ⟨X, hX⟩ := trsmDense_total (F := F) (uplo := uplo) (side := side) (B := y) hA.sub hn hz
      have dm := trsmDense_dims hX
      exact ⟨.dense X, by simp only [FlLapack.trsmOmm, hX]; rfl, ⟨dm.1.symm, dm.2.symm⟩, target_dense _ _⟩
    | hier p q A =>
      have hD := hA.sub.diagSquare
      have hq : p = q := hD.1
      have wA := hA.wf
      simp only [WF] at wA
      obtain ⟨eS, -, -⟩ := Even.parts hA.even wA.1 wA.2.1
      have n1 : 1 ≤ side.pick p 1 := by cases side <;> simp [Side.pick] ; omega
      have n2 : 1 ≤ side.pick 1 q := by cases side <;> simp [Side.pick] ; omega
      have d0 : (Mat.hier p q A).depth ≠ 0 := by simp only [depth]; omega
      obtain ⟨f', rfl⟩ : ∃ f', f = f' + 1 := ⟨f - 1, by omega⟩
      obtain ⟨bl, hbl, tb, same, hd⟩ := split_target (Q := fun _ => False) (c := y) n1 n2 (by
        cases side
        · show ESplit y.rows p
          rw [← show (Mat.hier p q A).nRows = y.rows from hn]; exact eS
        · exact esplit_one _) (by
        cases side
        · exact esplit_one _
        · show ESplit y.cols q
          rw [← show (Mat.hier p q A).nRows = y.cols from hn, ← hq]; exact eS)
      have hn' : (Mat.hier p q A).nRows = side.pick (Mat.hier (side.pick p 1) (side.pick 1 q) bl).nRows
          (Mat.hier (side.pick p 1) (side.pick 1 q) bl).nCols := by
        rw [hn]
        obtain ⟨s1, s2, -⟩ := same
        rw [s1, s2]
      have hp' : p = side.pick (side.pick p 1) (side.pick 1 q) := by
        cases side
        · rfl
        · exact hq
      have GD := tri_grid_dims hA.wf hA.even hD tb.wf tb.even hp' hn'
      obtain ⟨X, hX, hXs⟩ := trsm_grid_total hG (t := F.trsmWith g uplo side f') hA dA tb
        (fun i hi j hj => by
          obtain ⟨c, e⟩ := hd i hi j hj
          rw [e]
          exact ⟨regular_dense b c, Nat.zero_le _⟩) hS (by
          rintro ⟨-, rfl⟩; rfl) hp' hn' (fun i hi j hj c hc tc => by
          obtain ⟨e, he⟩ := hd i hi j hj
          have hlt : side.pick i j < p := by
            cases side
            · exact hi
            · show j < p
              rw [hq]; exact hj
          have db := depth_block (blk := A) (br := p) (bc := q) hlt (show side.pick i j < q by omega)
          have dm := hc.dims (tb.block hi hj).wf
          rw [he] at hc
          cases c <;> try exact hc.elim
          refine ih f' (by omega) _ _ (hA.diag hlt) (hz.block hA.wf hD hlt) (by omega) tc (Nat.zero_le _)
            ((hA.diag hlt).sub.solvable_dense hS) ?_ (by omega)
          rw [(GD.1 _ hlt _ hlt).1, dm.1, dm.2, (GD.2 i hi j hj).1, (GD.2 i hi j hj).2.1]
          cases side <;> rfl)
      have hX' : F.trsmWith g uplo side (f' + 1) (.hier p q A) (.hier (side.pick p 1) (side.pick 1 q) bl) =
        .ok (.hier (side.pick p 1) (side.pick 1 q) X) := hX
      have sh : (Mat.hier (side.pick p 1) (side.pick 1 q) bl).SameShape
        (.hier (side.pick p 1) (side.pick 1 q) X) := ⟨rfl, rfl, fun i hi j hj => (hXs i hi j hj).1⟩
      obtain ⟨x, hx⟩ := joinDense_total (c := y) hd sh
      obtain ⟨x', ex, e1, e2, -⟩ := joinDense_entries n1 n2 hbl sh hx
      cases ex
      exact ⟨.dense x, by simp only [FlLapack.trsmOmm, trsmOmm, hbl, except_bind_ok, hX', hx],
        ⟨e1.symm, e2.symm⟩, target_dense _ _⟩
  | hier r s B =>
    cases A with
    | lowRank a => exact hS.elim
    | empty => exact hS.elim
    | dense a => exact hS.elim
    | hier p q A =>
      obtain ⟨h1, h2, hp, hS⟩ := hS
      have hD := hA.sub.diagSquare
      have hq : p = q := hD.1
      have GD := tri_grid_dims hA.wf hA.even hD hB.wf hB.even hp hn
      obtain ⟨X, hX, hXs⟩ := trsm_grid_total hG (t := F.trsmWith g uplo side f) hA dA hB
        (fun i hi j hj => ⟨(hS i hi j hj).1, by
          have := depth_block (blk := B) hi hj
          omega⟩) h1 h2 hp hn (fun i hi j hj c hc tc => by
          have hlt : side.pick i j < p := by cases side <;> rw [hp] <;> assumption
          have db := depth_block (blk := A) (br := p) (bc := q) hlt (show side.pick i j < q by omega)
          have db' := depth_block (blk := B) hi hj
          have dm := hc.dims (hB.block hi hj).wf
          refine ih f (by omega) _ _ (hA.diag hlt) (hz.block hA.wf hD hlt) (by omega) tc
            (by rw [hc.depth]; omega) ((hS i hi j hj).2.shape hc tc.wf) ?_ (by omega)
          rw [(GD.1 _ hlt _ hlt).1, dm.1, dm.2, (GD.2 i hi j hj).1, (GD.2 i hi j hj).2.1]
          cases side <;> rfl)
      have sh : (Mat.hier r s B).SameShape (.hier r s X) := ⟨rfl, rfl, fun i hi j hj => (hXs i hi j hj).1⟩
      exact ⟨_, hX, sh, hB.same sh⟩

/-- Right-hand sides that are modelled. -/
theorem fl_trsm_total {F : FlLapack} {b : Nat} (hb : 2 ≤ b) {uplo : Uplo} {side : Side} {A B : Mat ℝ}
    (hA : A.TriRegular b uplo) (hz : A.DiagNonzero uplo) (hB : B.WF) (hE : B.Even) (hBs : B.SolveTarget)
    (hS : Solvable b uplo side A B) (hn : A.nRows = side.pick B.nRows B.nCols) {fuel : Nat}
    (hfuel : 6 * max A.depth B.depth + 2 ≤ fuel) :
    ∃ X, F.trsm fuel A B uplo side = .ok X := by
  have hG : GemmStep (fun _ => False) b (max A.depth B.depth) (F.gemm fuel) :=
    fl_gemmStep F.toFlBlas hb (by omega)
  rcases hBs.cases with hd | ⟨l, rfl⟩
  · obtain ⟨X, hX, -⟩ := fl_trsmWith_total (F := F) hG fuel A B hA hz (le_max_left _ _)
      ⟨hB, hd.noEmpty, hd.square, hE, hd.all _⟩ (le_max_right _ _) hS hn (by omega)
    exact ⟨X, hX⟩
  · have hl : l.WF := hB
    have hS' : Solvable b uplo side A (.dense (l.outer side)) := by cases A <;> exact hS
    obtain ⟨f, rfl⟩ : ∃ f, fuel = f + 1 := ⟨fuel - 1, by omega⟩
    obtain ⟨X, hX, sX, -⟩ := fl_trsmWith_total (F := F) hG f A (.dense (l.outer side)) hA hz
      (le_max_left _ _) (target_dense _ _) (Nat.zero_le _) hS' (by
        rw [hn]
        cases side
        · exact hl.urows.symm
        · exact hl.vcols.symm) (by omega)
    cases X <;> try exact sX.elim
    rename_i x
    refine ⟨.lowRank (l.setOuter side x), ?_⟩
    have : F.trsm (f + 1) A (.lowRank l) uplo side = (do
        let X ← F.trsmWith (F.gemm (f + 1)) uplo side f A (.dense (l.outer side))
        let X ← X.asDense
        .ok (.lowRank (l.setOuter side X))) := by cases A <;> rfl
    rw [this, hX]
    rfl

end Mat
end Verif
