import Verif.Lemmas.FloatRound
import Verif.Lemmas.FloatLu
import Verif.Lemmas.FloatTriTotal
import Verif.Props.TriTotal

/-
C76: triangular solves computed in floating-point arithmetic.
-/

namespace Verif
open Finset

variable {F : FlLapack} {u : ℝ}

namespace Mat

theorem WideBlocks.of_filled {t : Bool} {B : Mat ℝ} (h : B.Filled) : B.WideBlocks t := by
  refine WideLeaf.blocks (Or.inl ?_)
  cases t
  · exact h.1
  · exact h.2

end Mat

/-- C76: what `trsm` computes in floating-point arithmetic, multiplied by the triangle,
differs from the right-hand side by no more than the rounding errors of as many operations
as the order of the matrix times the cost of one product with its blocks, relative to the
absolute values of the terms.  The structure of the right-hand side is kept. -/
theorem C76_solve (hF : F.Sound u) (fuel : Nat) {A B X : Mat ℝ} {uplo : Uplo} {side : Side}
    (hA : A.WF) (hB : B.WF) (hD : A.DiagSquare) (hT : Mat.TriFits side A B)
    (hn : A.nRows = side.pick B.nRows B.nCols) (fA : A.Filled) (fB : B.Filled) (hs : B.SolveTarget)
    (h : F.trsm fuel A B uplo side = .ok X) :
    X.WF ∧ B.SameShape X ∧ ∀ i < B.nRows, ∀ j < B.nCols,
      |Mat.sideProd side A.nRows (A.triEntry uplo (decide (uplo = .lower))) X i j - B.entry i j| ≤
        ((1 + u) ^ (A.nRows * (A.lag + 3)) - 1) *
        (Mat.sideProd side A.nRows (A.abs.triEntry uplo (decide (uplo = .lower))) X.abs i j +
          B.abs.entry i j) := by
  have P := Mat.trsmWith_fl hF.u0 hF (Mat.gemmBoth_fl hF.toSound fuel).1 fuel hA hB hs hD hT hn
    (by cases side; exacts [fA.1, fA.2]) (Mat.WideBlocks.of_filled fB) le_rfl h
  exact ⟨P.wf, P.shape, P.ent⟩

/-- A dense right-hand side may have any dimensions. -/
theorem C76_solve_dense (hF : F.Sound u) (fuel : Nat) {A X : Mat ℝ} {b : Dense ℝ} {uplo : Uplo}
    {side : Side} (hA : A.WF) (hD : A.DiagSquare) (hn : A.nRows = side.pick b.rows b.cols) (fA : A.Filled)
    (h : F.trsm fuel A (.dense b) uplo side = .ok X) :
    ∃ x : Dense ℝ, X = .dense x ∧ x.rows = b.rows ∧ x.cols = b.cols ∧ ∀ i < b.rows, ∀ j < b.cols,
      |Mat.sideProd side A.nRows (A.triEntry uplo (decide (uplo = .lower))) (.dense x) i j - b.val i j| ≤
        ((1 + u) ^ (A.nRows * (A.lag + 3)) - 1) *
        (Mat.sideProd side A.nRows (A.abs.triEntry uplo (decide (uplo = .lower))) (.dense x.abs) i j +
          |b.val i j|) := by
  have P := Mat.trsmWith_fl hF.u0 hF (Mat.gemmBoth_fl hF.toSound fuel).1 fuel hA (B := .dense b) trivial
    trivial hD (Mat.TriFits_dense _ _ _) hn (by cases side; exacts [fA.1, fA.2]) trivial le_rfl h
  cases X with
  | dense x => exact ⟨x, rfl, P.shape.1.symm, P.shape.2.symm, P.ent⟩
  | _ => exact P.shape.elim

/-- Without low-rank blocks: `3 n` rounding errors for a matrix of order `n`, relative to the
entries of the matrices. -/
theorem C76_no_lowrank (hF : F.Sound u) (fuel : Nat) {A B X : Mat ℝ} {uplo : Uplo} {side : Side}
    (hA : A.WF) (hB : B.WF) (hD : A.DiagSquare) (hT : Mat.TriFits side A B)
    (hn : A.nRows = side.pick B.nRows B.nCols) (fA : A.Filled) (fB : B.Filled) (dA : A.NoLowRank)
    (dB : B.DenseLeaves) (h : F.trsm fuel A B uplo side = .ok X) :
    ∀ i < B.nRows, ∀ j < B.nCols,
      |Mat.sideProd side A.nRows (A.triEntry uplo (decide (uplo = .lower))) X i j - B.entry i j| ≤
        ((1 + u) ^ (3 * A.nRows) - 1) *
        (side.pick
          (∑ l ∈ range A.nRows, |A.triEntry uplo (decide (uplo = .lower)) i l| * |X.entry l j|)
          (∑ l ∈ range A.nRows, |X.entry i l| * |A.triEntry uplo (decide (uplo = .lower)) l j|) +
          |B.entry i j|) := by
  obtain ⟨wX, sX, e⟩ := C76_solve hF fuel hA hB hD hT hn fA fB (Mat.SolveTarget.leaves dB) h
  intro i hi j hj
  have E := e i hi j hj
  have dX := dB.shape sX
  have dm := sX.dims hB
  have sq := hD.dims hA
  rw [Mat.lag_plain dA, zero_add, mul_comm A.nRows 3, Mat.abs_entry hB dB hi hj] at E
  have c : Mat.sideProd side A.nRows (A.abs.triEntry uplo (decide (uplo = .lower))) X.abs i j =
      side.pick
          (∑ l ∈ range A.nRows, |A.triEntry uplo (decide (uplo = .lower)) i l| * |X.entry l j|)
          (∑ l ∈ range A.nRows, |X.entry i l| * |A.triEntry uplo (decide (uplo = .lower)) l j|) := by
    cases side with
    | left =>
      have hn : A.nRows = B.nRows := hn
      refine Finset.sum_congr rfl (fun l hl => ?_)
      have hl := mem_range.1 hl
      rw [Mat.triEntry_abs hA dA _ _ (by omega) (by omega),
        Mat.abs_entry wX dX (by rw [dm.1]; omega) (by rw [dm.2]; exact hj)]
    | right =>
      have hn : A.nRows = B.nCols := hn
      refine Finset.sum_congr rfl (fun l hl => ?_)
      have hl := mem_range.1 hl
      rw [Mat.triEntry_abs hA dA _ _ (by omega) (by omega),
        Mat.abs_entry wX dX (by rw [dm.1]; exact hi) (by rw [dm.2]; omega)]
  rw [← c]
  exact E

/-- A residual that is small relative to `T x` and `b` is that of a perturbed row. -/
theorem perturbed_row {n : Nat} {T x : Nat → ℝ} {b γ : ℝ} (g0 : 0 ≤ γ) (g1 : γ < 1)
    (h : |∑ l ∈ range n, T l * x l - b| ≤ γ * (∑ l ∈ range n, |T l| * |x l| + |b|)) :
    ∃ E : Nat → ℝ, (∀ l, |E l| ≤ 2 * γ / (1 - γ) * |T l|) ∧
      ∑ l ∈ range n, (T l + E l) * x l = b := by
  set s := ∑ l ∈ range n, T l * x l with hs
  set m := ∑ l ∈ range n, |T l| * |x l| with hm
  have sm : |s| ≤ m := (Finset.abs_sum_le_sum_abs _ _).trans
    (le_of_eq (Finset.sum_congr rfl fun l _ => abs_mul _ _))
  have m0 : 0 ≤ m := (abs_nonneg _).trans sm
  have hb : |b| ≤ m + |s - b| := by
    have := abs_sub_abs_le_abs_sub b s
    rw [abs_sub_comm b s] at this
    linarith
  have key : |s - b| ≤ 2 * γ / (1 - γ) * m := by
    rw [div_mul_eq_mul_div, le_div_iff₀ (by linarith)]
    nlinarith
  rcases eq_or_lt_of_le m0 with m0 | m0
  · refine ⟨fun _ => 0, fun l => by
      rw [abs_zero]
      exact mul_nonneg (div_nonneg (by linarith) (by linarith)) (abs_nonneg _), ?_⟩
    rw [← m0, mul_zero] at key
    have : s - b = 0 := abs_eq_zero.1 (le_antisymm key (abs_nonneg _))
    simp only [add_zero]
    linarith
  · refine ⟨fun l => (b - s) / m * (|T l| * SignType.sign (x l)), fun l => ?_, ?_⟩
    · rw [abs_mul, abs_div, abs_of_pos m0, abs_mul, abs_abs, abs_sub_comm]
      have h1 : |s - b| / m ≤ 2 * γ / (1 - γ) := by rw [div_le_iff₀ m0]; exact key
      have h2 : |((SignType.sign (x l) : SignType) : ℝ)| ≤ 1 := by
        rcases lt_trichotomy (x l) 0 with h | h | h <;> simp [h]
      calc |s - b| / m * (|T l| * |((SignType.sign (x l) : SignType) : ℝ)|)
          ≤ 2 * γ / (1 - γ) * (|T l| * 1) := mul_le_mul h1
            (mul_le_mul_of_nonneg_left h2 (abs_nonneg _)) (by positivity)
            (div_nonneg (by linarith) (by linarith))
        _ = _ := by rw [mul_one]
    · have e : ∀ l, (T l + (b - s) / m * (|T l| * SignType.sign (x l))) * x l =
          T l * x l + (b - s) / m * (|T l| * |x l|) := by
        intro l
        rw [← sign_mul_self (x l)]
        ring
      simp only [e]
      rw [Finset.sum_add_distrib, ← Finset.mul_sum, ← hs, ← hm, div_mul_cancel₀ _ m0.ne']
      ring

/-- C76, backward errors: without low-rank blocks, every computed column is the exact
solution of a triangular system whose entries differ by a relative error from those of the
matrix. -/
theorem C76_backward_left (hF : F.Sound u) (fuel : Nat) {A B X : Mat ℝ} {uplo : Uplo}
    (hA : A.WF) (hB : B.WF) (hD : A.DiagSquare) (hT : Mat.TriFits .left A B)
    (hn : A.nRows = B.nRows) (fA : A.Filled) (fB : B.Filled) (dA : A.NoLowRank)
    (dB : B.DenseLeaves) (hu : (1 + u) ^ (3 * A.nRows) < 2) (h : F.trsm fuel A B uplo .left = .ok X) :
    ∀ j < B.nCols, ∃ E : Nat → Nat → ℝ,
      (∀ i l, |E i l| ≤ 2 * ((1 + u) ^ (3 * A.nRows) - 1) / (2 - (1 + u) ^ (3 * A.nRows)) *
        |A.triEntry uplo (decide (uplo = .lower)) i l|) ∧
      ∀ i < B.nRows, ∑ l ∈ range A.nRows,
        (A.triEntry uplo (decide (uplo = .lower)) i l + E i l) * X.entry l j = B.entry i j := by
  intro j hj
  have g0 : (0 : ℝ) ≤ (1 + u) ^ (3 * A.nRows) - 1 := by
    have : (1 : ℝ) ≤ (1 + u) ^ (3 * A.nRows) := one_le_pow₀ (by linarith [hF.u0])
    linarith
  have key : ∀ i, ∃ E : Nat → ℝ,
      (∀ l, |E l| ≤ 2 * ((1 + u) ^ (3 * A.nRows) - 1) / (2 - (1 + u) ^ (3 * A.nRows)) *
        |A.triEntry uplo (decide (uplo = .lower)) i l|) ∧
      (i < B.nRows → ∑ l ∈ range A.nRows,
        (A.triEntry uplo (decide (uplo = .lower)) i l + E l) * X.entry l j = B.entry i j) := by
    intro i
    by_cases hi : i < B.nRows
    · have R := C76_no_lowrank hF fuel hA hB hD hT hn fA fB dA dB h i hi j hj
      obtain ⟨E, h1, h2⟩ := perturbed_row g0 (by linarith) R
      refine ⟨E, fun l => ?_, fun _ => h2⟩
      have e : (2 : ℝ) - (1 + u) ^ (3 * A.nRows) = 1 - ((1 + u) ^ (3 * A.nRows) - 1) := by ring
      rw [e]
      exact h1 l
    · exact ⟨fun _ => 0, fun l => by
        rw [abs_zero]
        exact mul_nonneg (div_nonneg (by linarith) (by linarith)) (abs_nonneg _), fun h => absurd h hi⟩
  choose E h1 h2 using key
  exact ⟨E, h1, fun i hi => h2 i hi⟩

/-- The same for rows, when the triangle is on the right. -/
theorem C76_backward_right (hF : F.Sound u) (fuel : Nat) {A B X : Mat ℝ} {uplo : Uplo}
    (hA : A.WF) (hB : B.WF) (hD : A.DiagSquare) (hT : Mat.TriFits .right A B)
    (hn : A.nRows = B.nCols) (fA : A.Filled) (fB : B.Filled) (dA : A.NoLowRank)
    (dB : B.DenseLeaves) (hu : (1 + u) ^ (3 * A.nRows) < 2) (h : F.trsm fuel A B uplo .right = .ok X) :
    ∀ i < B.nRows, ∃ E : Nat → Nat → ℝ,
      (∀ l j, |E l j| ≤ 2 * ((1 + u) ^ (3 * A.nRows) - 1) / (2 - (1 + u) ^ (3 * A.nRows)) *
        |A.triEntry uplo (decide (uplo = .lower)) l j|) ∧
      ∀ j < B.nCols, ∑ l ∈ range A.nRows,
        X.entry i l * (A.triEntry uplo (decide (uplo = .lower)) l j + E l j) = B.entry i j := by
  intro i hi
  have g0 : (0 : ℝ) ≤ (1 + u) ^ (3 * A.nRows) - 1 := by
    have : (1 : ℝ) ≤ (1 + u) ^ (3 * A.nRows) := one_le_pow₀ (by linarith [hF.u0])
    linarith
  have key : ∀ j, ∃ E : Nat → ℝ,
      (∀ l, |E l| ≤ 2 * ((1 + u) ^ (3 * A.nRows) - 1) / (2 - (1 + u) ^ (3 * A.nRows)) *
        |A.triEntry uplo (decide (uplo = .lower)) l j|) ∧
      (j < B.nCols → ∑ l ∈ range A.nRows,
        X.entry i l * (A.triEntry uplo (decide (uplo = .lower)) l j + E l) = B.entry i j) := by
    intro j
    by_cases hj : j < B.nCols
    · have R := C76_no_lowrank hF fuel hA hB hD hT hn fA fB dA dB h i hi j hj
      simp only [Mat.sideProd, Side.pick_right, mul_comm (X.entry i _), mul_comm |X.entry i _|] at R
      obtain ⟨E, h1, h2⟩ := perturbed_row g0 (by linarith) R
      refine ⟨E, fun l => ?_, fun _ => ?_⟩
      · have e : (2 : ℝ) - (1 + u) ^ (3 * A.nRows) = 1 - ((1 + u) ^ (3 * A.nRows) - 1) := by ring
        rw [e]
        exact h1 l
      · simp only [mul_comm (X.entry i _)]
        exact h2
    · exact ⟨fun _ => 0, fun l => by
        rw [abs_zero]
        exact mul_nonneg (div_nonneg (by linarith) (by linarith)) (abs_nonneg _), fun h => absurd h hj⟩
  choose E h1 h2 using key
  exact ⟨fun l j => E j l, fun l j => h1 j l, fun j hj => h2 j hj⟩

/-- C76: for regular structures the solve returns, whatever the arithmetic, unless an upper
triangle has a zero on its diagonal. -/
theorem C76_returns (hF : F.Sound u) {b : Nat} (hb : 2 ≤ b) {A B : Mat ℝ} {uplo : Uplo} {side : Side}
    (hA : A.TriRegular b uplo) (hz : A.DiagNonzero uplo) (hB : B.WF) (hE : B.Even)
    (hs : B.SolveTarget) (hS : Mat.Solvable b uplo side A B) (hn : A.nRows = side.pick B.nRows B.nCols)
    (fA : A.Filled) (fB : B.Filled) {fuel : Nat} (hfuel : 6 * max A.depth B.depth + 2 ≤ fuel) :
    ∃ X, F.trsm fuel A B uplo side = .ok X ∧ X.WF ∧ B.SameShape X ∧ ∀ i < B.nRows, ∀ j < B.nCols,
      |Mat.sideProd side A.nRows (A.triEntry uplo (decide (uplo = .lower))) X i j - B.entry i j| ≤
        ((1 + u) ^ (A.nRows * (A.lag + 3)) - 1) *
        (Mat.sideProd side A.nRows (A.abs.triEntry uplo (decide (uplo = .lower))) X.abs i j +
          B.abs.entry i j) := by
  obtain ⟨X, h⟩ := Mat.fl_trsm_total (F := F) hb hA hz hB hE hs hS hn hfuel
  exact ⟨X, h, C76_solve hF fuel hA.wf hB hA.sub.diagSquare hS.triFits hn fA fB hs h⟩

/-- Rounding every operation of products, substitution and elimination with relative error
`u` gives an arithmetic as assumed above. -/
theorem C76_rounding {fl : ℝ → ℝ} (u0 : 0 ≤ u) (hfl : ∀ x, |fl x - x| ≤ u * |x|) :
    (FlLapack.ofRounding fl).Sound u := FlLapack.ofRounding_sound u0 hfl

theorem mixR_triRegular (uplo : Uplo) : mixR.TriRegular 2 uplo := by
  refine ⟨mixR_wf, mixR_regular.even, rfl, rfl, fun i hi => ?_, fun i hi k hk hik => ?_⟩
  · simp only [if_true]; exact rfl
  · exact mixR_regular.sub.2.2 i hi k hk

/-- A hierarchical matrix with low-rank blocks, a dense right-hand side, double precision. -/
example (b : Dense ℝ) (hr : b.rows = 4) (fuel : Nat) (h : 8 ≤ fuel) : ∃ x : Dense ℝ,
    (FlLapack.ofRounding nearest53).trsm fuel mixR (.dense b) .upper .left = .ok (.dense x) ∧
    ∀ i < 4, ∀ j < b.cols,
      |∑ l ∈ range 4, mixR.triEntry .upper false i l * x.val l j - b.val i j| ≤
        ((1 + (2 : ℝ) ^ (-53 : ℤ)) ^ 36 - 1) *
        (∑ l ∈ range 4, mixR.abs.triEntry .upper false i l * |x.val l j| + |b.val i j|) := by
  have hF := C76_rounding (by positivity) nearest53_error
  have hz : mixR.DiagNonzero .upper := by
    intro _ i hi
    have : i < 4 := hi
    have hi' : i = 0 ∨ i = 1 ∨ i = 2 ∨ i = 3 := by omega
    rcases hi' with rfl | rfl | rfl | rfl
    · show ((0 : ℕ) : ℝ) + (0 : ℕ) + 1 ≠ 0
      norm_num
    · show ((1 : ℕ) : ℝ) + (1 : ℕ) + 1 ≠ 0
      norm_num
    · show ((0 : ℕ) : ℝ) + (0 : ℕ) + 1 ≠ 0
      norm_num
    · show ((1 : ℕ) : ℝ) + (1 : ℕ) + 1 ≠ 0
      norm_num
  obtain ⟨X, hX⟩ := Mat.fl_trsm_total (F := FlLapack.ofRounding nearest53) (by omega : 2 ≤ 2)
    (mixR_triRegular .upper) hz (B := .dense b) trivial trivial trivial
    (side := .left) (by rintro ⟨h, -⟩; cases h) (show mixR.nRows = b.rows by rw [hr]; rfl) (fuel := fuel)
    (le_trans (show 6 * max mixR.depth 0 + 2 ≤ 8 by decide) h)
  obtain ⟨x, rfl, -, -, e⟩ := C76_solve_dense hF fuel mixR_wf (mixR_triRegular .upper).sub.diagSquare
    (side := .left) (show mixR.nRows = b.rows by rw [hr]; rfl) mixR_filled hX
  exact ⟨x, hX, fun i hi j hj => e i (by omega) j hj⟩

end Verif
