import Verif.Lemmas.FloatTrmm
import Verif.Props.FloatTri
import Verif.Props.Tri
import Verif.Props.TriTotal

/-
C78: triangular multiplication computed in floating-point arithmetic.
-/

namespace Verif
open Finset

variable {F : FlTrmm} {u : ℝ}

/-- C78.  With the same operands, multiplication returns in floating-point arithmetic if and
only if it does in exact arithmetic, whatever the two do with low-rank matrices, and fails
with the same error otherwise. -/
theorem C78_returns_iff (F : FlTrmm) (o : LrOps ℝ) (fuel : Nat) {A B : Mat ℝ} {side : Side} {uplo : Uplo}
    {trans unit : Bool} {α : ℝ} (hA : A.WF) (hB : B.WF) (hs : B.SolveTarget) :
    ((∃ B', F.trmm fuel A B side uplo trans unit α = .ok B') ↔
      ∃ B', Mat.trmm o fuel A B side uplo trans unit α = .ok B') ∧
    ∀ e, F.trmm fuel A B side uplo trans unit α = .error e ↔
      Mat.trmm o fuel A B side uplo trans unit α = .error e := by
  have := Mat.fit_trmm F (Mat.gemmBoth_flfit F.toFlBlas o fuel).1 (side := side) (uplo := uplo)
    (tr := trans) (unit := unit) (α := α) fuel hA.hasBlocks hB.hasBlocks hs
  have this : Both (fun _ _ => True) (Mat.trmm o fuel A B side uplo trans unit α)
    (F.trmm fuel A B side uplo trans unit α) := this
  rcases this with ⟨x, y, e1, e2, -⟩ | ⟨e, e1, e2⟩
  · rw [e1, e2]
    exact ⟨⟨fun _ => ⟨_, rfl⟩, fun _ => ⟨_, rfl⟩⟩, fun e => ⟨fun h => (nomatch h), fun h => (nomatch h)⟩⟩
  · rw [e1, e2]
    exact ⟨⟨fun ⟨_, h⟩ => (nomatch h), fun ⟨_, h⟩ => (nomatch h)⟩,
      fun e' => ⟨fun h => by cases h; rfl, fun h => by cases h; rfl⟩⟩

/-- The code checks that the operands fit. -/
theorem trmm_checks (fuel : Nat) {A B B' : Mat ℝ} {side : Side} {uplo : Uplo} {trans unit : Bool} {α : ℝ}
    (hA : A.WF) (hB : B.WF) (hD : A.DiagSquare) (hs : B.SolveTarget)
    (h : F.trmm fuel A B side uplo trans unit α = .ok B') :
    Mat.TriFits side A B ∧ A.nRows = side.pick B.nRows B.nCols := by
  rcases hs.cases with hd | ⟨l, rfl⟩
  · obtain ⟨X, hX⟩ := (C78_returns_iff F (exactOps ℝ) fuel hA hB hs).1.1 ⟨B', h⟩
    exact Mat.trmmWith_fits (Mat.gemmBoth_ok exactOps_fits fuel).1 fuel A B X hA hB hd.square hD hX
  · cases fuel with
    | zero => cases h
    | succ fuel =>
      simp only [FlTrmm.trmm, FlTrmm.trmmWith] at h
      cases A with
      | lowRank => cases h
      | empty => cases h
      | dense a =>
        simp only [FlTrmm.trmmOmm, except_bind_eq_ok, assertM_eq_ok, decide_eq_true_eq] at h
        obtain ⟨-, -, -, e, -⟩ := h
        exact ⟨trivial, e⟩
      | hier p q A =>
        simp only [FlTrmm.trmmOmm, Mat.trmmOmm, except_bind_eq_ok, assertM_eq_ok, decide_eq_true_eq] at h
        obtain ⟨-, -, -, e, -⟩ := h
        exact ⟨trivial, e⟩

/-- C78.  What `trmm` computes in floating-point arithmetic differs from the product of the
triangle (or its transpose) with the right-hand side by no more than the rounding errors of
as many operations as the order of the matrix times the cost of one product with its blocks,
relative to the absolute values of the terms.  The structure of the right-hand side is
kept. -/
theorem C78_product (hF : F.Sound u) (fuel : Nat) {A B B' : Mat ℝ} {side : Side} {uplo : Uplo}
    {trans unit : Bool} {α : ℝ} (hA : A.WF) (hB : B.WF) (hD : A.DiagSquare) (hs : B.SolveTarget)
    (fA : A.Filled) (fB : B.Filled) (h : F.trmm fuel A B side uplo trans unit α = .ok B') :
    A.nRows = side.pick B.nRows B.nCols ∧ B'.WF ∧ B.SameShape B' ∧ ∀ i < B.nRows, ∀ j < B.nCols,
      |B'.entry i j - α * Mat.sideProd side A.nRows
        (fun k l => if trans then A.triEntry uplo unit l k else A.triEntry uplo unit k l) B i j| ≤
        ((1 + u) ^ (A.nRows * (A.lag + 3)) - 1) *
        (|α| * Mat.sideProd side A.nRows
          (fun k l => if trans then A.abs.triEntry uplo unit l k else A.abs.triEntry uplo unit k l)
          B.abs i j) := by
  obtain ⟨f1, f2⟩ := trmm_checks fuel hA hB hD hs h
  exact ⟨f2, Mat.trmmWith_fl hF.u0 hF (Mat.gemmBoth_fl hF.toSound fuel).1 fuel hA hB hs hD f1 f2
    (Or.inl ⟨by cases side; exacts [fA.1, fA.2], Or.inl (by cases side; exacts [fB.2, fB.1])⟩) le_rfl h⟩

/-- A dense right-hand side may have any dimensions. -/
theorem C78_product_dense (hF : F.Sound u) (fuel : Nat) {A B' : Mat ℝ} {b : Dense ℝ} {side : Side}
    {uplo : Uplo} {trans unit : Bool} {α : ℝ} (hA : A.WF) (hD : A.DiagSquare) (fA : A.Filled)
    (h : F.trmm fuel A (.dense b) side uplo trans unit α = .ok B') :
    A.nRows = side.pick b.rows b.cols ∧ ∃ x : Dense ℝ, B' = .dense x ∧ x.rows = b.rows ∧ x.cols = b.cols ∧
      ∀ i < b.rows, ∀ j < b.cols,
      |x.val i j - α * Mat.sideProd side A.nRows
        (fun k l => if trans then A.triEntry uplo unit l k else A.triEntry uplo unit k l) (.dense b) i j| ≤
        ((1 + u) ^ (A.nRows * (A.lag + 3)) - 1) *
        (|α| * Mat.sideProd side A.nRows
          (fun k l => if trans then A.abs.triEntry uplo unit l k else A.abs.triEntry uplo unit k l)
          (.dense b.abs) i j) := by
  obtain ⟨f1, f2⟩ := trmm_checks fuel hA (B := .dense b) trivial hD trivial h
  obtain ⟨-, s, e⟩ := Mat.trmmWith_fl hF.u0 hF (Mat.gemmBoth_fl hF.toSound fuel).1 fuel hA
    (B := .dense b) trivial trivial hD f1 f2
    (Or.inl ⟨by cases side; exacts [fA.1, fA.2], Or.inr ⟨b, rfl⟩⟩) le_rfl h
  cases B' with
  | dense x => exact ⟨f2, x, rfl, s.1.symm, s.2.symm, e⟩
  | _ => exact s.elim

/-- C78.  Without low-rank blocks: `3 n` rounding errors for a matrix of order `n`, relative to
the entries of the matrices. -/
theorem C78_no_lowrank (hF : F.Sound u) (fuel : Nat) {A B B' : Mat ℝ} {side : Side} {uplo : Uplo}
    {trans unit : Bool} {α : ℝ} (hA : A.WF) (hB : B.WF) (hD : A.DiagSquare) (fA : A.Filled) (fB : B.Filled)
    (dA : A.NoLowRank) (dB : B.DenseLeaves) (h : F.trmm fuel A B side uplo trans unit α = .ok B') :
    ∀ i < B.nRows, ∀ j < B.nCols,
      |B'.entry i j - α * Mat.sideProd side A.nRows
        (fun k l => if trans then A.triEntry uplo unit l k else A.triEntry uplo unit k l) B i j| ≤
        ((1 + u) ^ (3 * A.nRows) - 1) * (|α| * side.pick
          (∑ l ∈ range A.nRows,
            |if trans then A.triEntry uplo unit l i else A.triEntry uplo unit i l| * |B.entry l j|)
          (∑ l ∈ range A.nRows,
            |B.entry i l| * |if trans then A.triEntry uplo unit j l else A.triEntry uplo unit l j|)) := by
  obtain ⟨hn, -, -, e⟩ := C78_product hF fuel hA hB hD (Mat.SolveTarget.leaves dB) fA fB h
  intro i hi j hj
  have E := e i hi j hj
  have sq := hD.dims hA
  rw [Mat.lag_plain dA, zero_add, mul_comm A.nRows 3] at E
  have T : ∀ x < A.nRows, ∀ y < A.nRows,
      (if trans then A.abs.triEntry uplo unit y x else A.abs.triEntry uplo unit x y) =
      |if trans then A.triEntry uplo unit y x else A.triEntry uplo unit x y| := by
    intro x hx y hy
    split
    · exact Mat.triEntry_abs hA dA _ _ (by omega) (by omega)
    · exact Mat.triEntry_abs hA dA _ _ (by omega) (by omega)
  have c : Mat.sideProd side A.nRows
      (fun k l => if trans then A.abs.triEntry uplo unit l k else A.abs.triEntry uplo unit k l) B.abs i j =
      side.pick
          (∑ l ∈ range A.nRows,
            |if trans then A.triEntry uplo unit l i else A.triEntry uplo unit i l| * |B.entry l j|)
          (∑ l ∈ range A.nRows,
            |B.entry i l| * |if trans then A.triEntry uplo unit j l else A.triEntry uplo unit l j|) := by
    cases side with
    | left =>
      have hn : A.nRows = B.nRows := hn
      refine Finset.sum_congr rfl (fun l hl => ?_)
      have hl := mem_range.1 hl
      dsimp only
      rw [T i (by omega) l hl, Mat.abs_entry hB dB (by omega) hj]
    | right =>
      have hn : A.nRows = B.nCols := hn
      refine Finset.sum_congr rfl (fun l hl => ?_)
      have hl := mem_range.1 hl
      dsimp only
      rw [T l hl j (by omega), Mat.abs_entry hB dB hi (by omega)]
  rw [← c]
  exact E

/-- C78.  With `b`-by-`b` subdivisions and fitting dimensions the product returns, with the
error bound of `C78_product`. -/
theorem C78_returns (hF : F.Sound u) {b : Nat} (hb : 2 ≤ b) {A B : Mat ℝ} {side : Side} {uplo : Uplo}
    {trans unit : Bool} {α : ℝ} (hA : A.TriRegular b uplo) (hB : B.Regular b) (hs : B.SolveTarget)
    (hBs : B.Square) (hn : A.nRows = side.pick B.nRows B.nCols)
    (ht : trans = true → (∃ a, A = .dense a) ∧ B.Leaf) (fA : A.Filled) (fB : B.Filled)
    {fuel : Nat} (hfuel : 6 * max A.depth B.depth + 1 ≤ fuel) :
    ∃ B', F.trmm fuel A B side uplo trans unit α = .ok B' ∧ B'.WF ∧ B.SameShape B' ∧
      ∀ i < B.nRows, ∀ j < B.nCols,
      |B'.entry i j - α * Mat.sideProd side A.nRows
        (fun k l => if trans then A.triEntry uplo unit l k else A.triEntry uplo unit k l) B i j| ≤
        ((1 + u) ^ (A.nRows * (A.lag + 3)) - 1) *
        (|α| * Mat.sideProd side A.nRows
          (fun k l => if trans then A.abs.triEntry uplo unit l k else A.abs.triEntry uplo unit k l)
          B.abs i j) := by
  have hBq : B.All LowRank.WF := by
    rcases hs.cases with hd | ⟨l, rfl⟩
    · exact hd.all _
    · exact hB.wf
  obtain ⟨X, hX, -⟩ := C28_trmm_returns exactOps_fits exactOps_total outerStable_wf hb
    (side := side) (uplo := uplo) (trans := trans) (unit := unit) (α := α) hA hB hBs hBq hn ht hfuel
  obtain ⟨B', h⟩ := (C78_returns_iff F (exactOps ℝ) fuel hA.wf hB.wf hs).1.2 ⟨X, hX⟩
  exact ⟨B', h, (C78_product hF fuel hA.wf hB.wf hA.sub.diagSquare hs fA fB h).2⟩

/-- Reference BLAS: `alpha b(l,j) t(i,l)` added for one `l` after the other, every operation
rounded by `fl`. -/
noncomputable def FlTrmm.ofRounding (fl : ℝ → ℝ) : FlTrmm where
  toFlBlas := FlBlas.ofRounding fl
  dtrmm side T α B i j := side.pick
    ((List.range B.rows).foldl (fun s l => fl (s + fl (fl (α * B.val l j) * T i l))) 0)
    ((List.range B.cols).foldl (fun s l => fl (s + fl (fl (α * T l j) * B.val i l))) 0)

/-- Any rounding with relative error `u` gives an arithmetic as assumed above. -/
theorem C78_rounding {fl : ℝ → ℝ} (u0 : 0 ≤ u) (hfl : ∀ x, |fl x - x| ≤ u * |x|) :
    (FlTrmm.ofRounding fl).Sound u := by
  have z : fl 0 = 0 := by
    have := hfl 0
    simpa using this
  have G := (C75_rounding u0 hfl).dgemm
  refine { toSound := C75_rounding u0 hfl, dtrmm_left := ?_, dtrmm_right := ?_ }
  · intro T α B i hi j hj
    have := G 0 0 B.rows α T B.val 0 (fun _ _ => 0) i j
    simp only [FlBlas.ofRounding, zero_mul, z, add_zero, abs_zero] at this
    exact this
  · intro T α B i hi j hj
    have := G 0 0 B.cols α B.val T 0 (fun _ _ => 0) i j
    simp only [FlBlas.ofRounding, zero_mul, z, add_zero, abs_zero] at this
    exact this

/-- A hierarchical matrix with low-rank blocks, a dense right-hand side, double precision. -/
example (b : Dense ℝ) (hr : b.rows = 4) (α : ℝ) (fuel : Nat) (h : 7 ≤ fuel) : ∃ x : Dense ℝ,
    (FlTrmm.ofRounding nearest53).trmm fuel mixR (.dense b) .left .upper false false α = .ok (.dense x) ∧
    ∀ i < 4, ∀ j < b.cols,
      |x.val i j - α * ∑ l ∈ range 4, mixR.triEntry .upper false i l * b.val l j| ≤
        ((1 + (2 : ℝ) ^ (-53 : ℤ)) ^ 36 - 1) *
        (|α| * ∑ l ∈ range 4, mixR.abs.triEntry .upper false i l * |b.val l j|) := by
  have hF := C78_rounding (by positivity) nearest53_error
  obtain ⟨X, hX, -⟩ := C28_trmm_returns exactOps_fits exactOps_total outerStable_wf
    (by omega : 2 ≤ 2) (mixR_triRegular .upper) (B := .dense b) (side := .left) (trans := false)
    (unit := false) (α := α) (Mat.regular_dense 2 b) trivial trivial
    (show mixR.nRows = b.rows by rw [hr]; rfl) (by simp) (fuel := fuel)
    (le_trans (show 6 * max mixR.depth 0 + 1 ≤ 7 by decide) h)
  obtain ⟨B', hB'⟩ := (C78_returns_iff (FlTrmm.ofRounding nearest53) (exactOps ℝ) fuel mixR_wf
    (B := .dense b) trivial trivial).1.2 ⟨X, hX⟩
  obtain ⟨-, x, rfl, -, -, e⟩ := C78_product_dense hF fuel mixR_wf
    (mixR_triRegular .upper).sub.diagSquare mixR_filled hB'
  exact ⟨x, hB', fun i hi j hj => e i (by omega) j hj⟩

end Verif
