import Verif.Lemmas.GemmTop
import Verif.Props.Construct

/-
C21, C23, C24: products and sums of structured matrices.
-/

namespace Verif
open Finset

variable {R : Type}

/-! ### an exact set of low-rank operations, for the examples -/

/-- Keeps everything: forms the sum as a dense matrix. -/
def exactOps (R : Type) [CommRing R] : LrOps R where
  add A B := do
    let a ← A.toDense
    let b ← B.toDense
    keepAll ⟨A.dim0, A.dim1, fun i j => a.val i j + b.val i j⟩
  ofRank D _ := keepAll D
  ofEps D _ := keepAll D
  ofHier M _ := do
    let d ← M.toDense
    keepAll d

theorem exactOps_fits [CommRing R] : (exactOps R).Fits False where
  add := by
    intro A B C hA _ hB _ _ _ h
    obtain ⟨a, ha, -⟩ := Mat.LowRank_toDense_ok A hA
    obtain ⟨b, hb, -⟩ := Mat.LowRank_toDense_ok B hB
    simp only [exactOps, ha, hb, except_bind_ok, keepAll] at h
    cases h
    exact ⟨⟨rfl, rfl, rfl, rfl, rfl⟩, rfl, rfl, rfl⟩
  ofRank := by
    intro D r C h
    cases h
    exact ⟨⟨rfl, rfl, rfl, rfl, rfl⟩, rfl, rfl, rfl⟩
  ofEps := by
    intro D r C h
    cases h
    exact ⟨⟨rfl, rfl, rfl, rfl, rfl⟩, rfl, rfl, rfl⟩
  ofHier := by
    intro M r C hM h
    obtain ⟨a, ha, -⟩ := Mat.toDense_ok M hM
    simp only [exactOps, ha, except_bind_ok, keepAll] at h
    cases h
    exact ⟨⟨rfl, rfl, rfl, rfl, rfl⟩, rfl⟩

theorem exactOps_exact [CommRing R] : (exactOps R).Exact False where
  add := by
    intro A B C hA _ hB _ h0 h1 h i hi j hj
    obtain ⟨a, ha, -, -, ea⟩ := Mat.LowRank_toDense_ok A hA
    obtain ⟨b, hb, -, -, eb⟩ := Mat.LowRank_toDense_ok B hB
    simp only [exactOps, ha, hb, except_bind_ok] at h
    rw [keepAll_exact _ _ h i hi j hj, ← ea, ← eb]
  ofRank := fun D r C h => keepAll_exact _ _ h
  ofEps := fun D r C h => keepAll_exact _ _ h
  ofHier := by
    intro M r C hM h h0 h1 i hi j hj
    obtain ⟨a, ha, a0, a1, ea⟩ := Mat.toDense_ok M hM
    simp only [exactOps, ha, except_bind_ok] at h
    rw [keepAll_exact _ _ h i (by rw [a0]; exact hi) j (by rw [a1]; exact hj), ea i hi j hj]

/-! ### C21 -/

/-- C21.  If `gemm` returns, the target keeps its structure and represents
`alpha * op(A) * op(B) + beta * C` at every entry of a dense block, and at every
entry if the low-rank operations lose nothing.

Partial: the flags must avoid two branches that ignore them (`TransSafe`, see
`C21_lowrank_times_hier_transposed_wrong` and `C21_hier_times_lowrank_transposed_wrong`),
and if the low-rank addition in use needs square middle factors (`sq`, naive
addition) all low-rank blocks of the factors must have the same rank. -/
theorem C21_gemm_partial [CommRing R] [DecidableEq R] {o : LrOps R} {sq : Prop} (hf : o.Fits sq)
    (fuel : Nat) {A B C C' : Mat R} {α β : R} {ta tb : Bool} (hA : A.WF) (hB : B.WF) (hC : C.WF)
    (hCs : C.Square) (ht : Mat.TransSafe ta tb A B) (hr : Mat.RankSafe sq A B)
    (h : Mat.gemm o fuel A B C α β ta tb = .ok C') :
    C'.WF ∧ C'.Square ∧ C.SameShape C' ∧ C'.nRows = C.nRows ∧ C'.nCols = C.nCols ∧
    ∀ i < C.nRows, ∀ j < C.nCols, (C.denseAt i j ∨ o.Exact sq) →
      C'.EntryIs i j (α * ∑ l ∈ range (if ta then A.nRows else A.nCols),
        (if ta then A.entry l i else A.entry i l) * (if tb then B.entry j l else B.entry l j) +
        β * C.entry i j) := by
  have P := ((Mat.gemmBoth_ok hf fuel).1 A B C α β ta tb C' hA hB hC hCs ht hr h).2
  have dd := P.shape.dims hC
  refine ⟨P.wf, P.sqr, P.shape, dd.1, dd.2, fun i hi j hj hP => ?_⟩
  rw [Mat.entryIs_iff _ P.wf]
  refine ⟨by rw [dd.1]; exact hi, by rw [dd.2]; exact hj, ?_⟩
  exact (P.ent i hi j hj hP).symm

/-- C21: a successful product had fitting dimensions. -/
theorem C21_gemm_dims [CommRing R] [DecidableEq R] (o : LrOps R) (fuel : Nat) {A B C C' : Mat R}
    {α β : R} {ta tb : Bool} (h : Mat.gemm o fuel A B C α β ta tb = .ok C') :
    (if ta then A.nCols else A.nRows) = C.nRows ∧
    (if ta then A.nRows else A.nCols) = (if tb then B.nCols else B.nRows) ∧
    (if tb then B.nRows else B.nCols) = C.nCols := by
  cases fuel with
  | zero => cases h
  | succ n =>
    simp only [Mat.gemm, Mat.gemmBoth, except_bind_eq_ok, assertM_eq_ok, decide_eq_true_eq] at h
    obtain ⟨-, e1, -, e2, -, e3, -⟩ := h
    exact ⟨e1, e2, e3⟩

/-- C21 without transposition: no condition on the structure of the operands. -/
theorem C21_gemm_untransposed [CommRing R] [DecidableEq R] {o : LrOps R} (hf : o.Fits False)
    (fuel : Nat) {A B C C' : Mat R} {α β : R} (hA : A.WF) (hB : B.WF) (hC : C.WF)
    (hCs : C.Square) (h : Mat.gemm o fuel A B C α β false false = .ok C') :
    C'.WF ∧ C.SameShape C' ∧
    ∀ i < C.nRows, ∀ j < C.nCols, (C.denseAt i j ∨ o.Exact False) →
      C'.EntryIs i j (α * ∑ l ∈ range A.nCols, A.entry i l * B.entry l j + β * C.entry i j) := by
  have := C21_gemm_partial hf fuel hA hB hC hCs (Mat.TransSafe_ff A B) (fun h => h.elim) h
  exact ⟨this.1, this.2.2.1, this.2.2.2.2.2⟩

/-! Two products the code gets wrong although it returns. -/

/-- 1-by-1 dense block. -/
def dense1 (x : ℤ) : Mat ℤ := .dense ⟨1, 1, fun _ _ => x⟩

/-- Low-rank representation of the 2-by-2 matrix with a single 1 at (0,1). -/
def unit01 : LowRank ℤ where
  dim0 := 2
  dim1 := 2
  rank := 1
  eps := 0
  U := ⟨2, 1, fun i _ => if i = 0 then 1 else 0⟩
  S := ⟨1, 1, fun _ _ => 1⟩
  V := ⟨1, 2, fun _ j => if j = 1 then 1 else 0⟩

/-- C21 fails for a transposed low-rank factor times a block column: the code
returns the product with the untransposed factor.  Here `op(A) * B` is `(0,1)`
and the result is `(2,0)`. -/
theorem C21_lowrank_times_hier_transposed_wrong :
    ∃ (A B C C' : Mat ℤ), A.WF ∧ A.Square ∧ B.WF ∧ C.WF ∧ C.Square ∧ C.AllDense ∧
      Mat.gemm (exactOps ℤ) 7 A B C 1 0 true false = .ok C' ∧
      C'.entry 0 0 = 2 ∧ Mat.prodEntry true false A B 0 0 = 0 := by
  obtain ⟨C', hC', h2⟩ := okAnd_spec (x := Mat.gemm (exactOps ℤ) 7 (.lowRank unit01)
    (.hier 2 1 (fun i _ => dense1 (i + 1))) (.hier 2 1 (fun _ _ => dense1 0)) 1 0 true false)
    (P := fun C' => C'.entry 0 0 == 2) (by decide +kernel)
  refine ⟨.lowRank unit01, _, _, C', ⟨rfl, rfl, rfl, rfl, rfl⟩, rfl, ?_, ?_, ?_, ?_, hC', by simpa using h2,
    by decide⟩
  · exact ⟨by omega, by omega, fun i _ j _ => ⟨trivial, rfl, rfl⟩⟩
  · exact ⟨by omega, by omega, fun i _ j _ => ⟨trivial, rfl, rfl⟩⟩
  · exact fun i _ j _ => trivial
  · intro i _ j _
    exact trivial

/-- C21 fails for a transposed block matrix times a low-rank factor. -/
theorem C21_hier_times_lowrank_transposed_wrong :
    ∃ (A B C C' : Mat ℤ), A.WF ∧ B.WF ∧ B.Square ∧ C.WF ∧ C.Square ∧ C.AllDense ∧
      Mat.gemm (exactOps ℤ) 7 A B C 1 0 true false = .ok C' ∧
      C'.entry 1 1 = 3 ∧ Mat.prodEntry true false A B 1 1 = 2 := by
  obtain ⟨C', hC', h2⟩ := okAnd_spec (x := Mat.gemm (exactOps ℤ) 7
    (.hier 2 2 (fun i j => dense1 (2 * i + j + 1))) (.lowRank unit01)
    (.hier 2 2 (fun _ _ => dense1 0)) 1 0 true false)
    (P := fun C' => C'.entry 1 1 == 3) (by decide +kernel)
  refine ⟨_, .lowRank unit01, _, C', ?_, ⟨rfl, rfl, rfl, rfl, rfl⟩, rfl, ?_, ?_, ?_, hC', by simpa using h2,
    by decide⟩
  · exact ⟨by omega, by omega, fun i _ j _ => ⟨trivial, rfl, rfl⟩⟩
  · exact ⟨by omega, by omega, fun i _ j _ => ⟨trivial, rfl, rfl⟩⟩
  · exact fun i _ j _ => trivial
  · intro i _ j _
    exact trivial

/-- A low-rank matrix with `U = S = I`, `V` the matrix with a 1 at (0,1). -/
def unit01' : LowRank ℤ where
  dim0 := 2
  dim1 := 2
  rank := 2
  eps := 0
  U := ⟨2, 2, fun i j => if i = j then 1 else 0⟩
  S := ⟨2, 2, fun i j => if i = j then 1 else 0⟩
  V := ⟨2, 2, fun i j => if i = 0 ∧ j = 1 then 1 else 0⟩

/-- C21 fails for a block matrix times a transposed low-rank factor. -/
theorem C21_hier_times_lowrank_right_transposed_wrong :
    ∃ (A B C C' : Mat ℤ), A.WF ∧ B.WF ∧ B.Square ∧ C.WF ∧ C.Square ∧ C.AllDense ∧
      Mat.gemm (exactOps ℤ) 7 A B C 1 0 false true = .ok C' ∧
      C'.entry 1 1 = 3 ∧ Mat.prodEntry false true A B 1 1 = 0 := by
  obtain ⟨C', hC', h2⟩ := okAnd_spec (x := Mat.gemm (exactOps ℤ) 7
    (.hier 2 2 (fun i j => dense1 (2 * i + j + 1))) (.lowRank unit01')
    (.hier 2 2 (fun _ _ => dense1 0)) 1 0 false true)
    (P := fun C' => C'.entry 1 1 == 3) (by decide +kernel)
  refine ⟨_, .lowRank unit01', _, C', ?_, ⟨rfl, rfl, rfl, rfl, rfl⟩, rfl, ?_, ?_, ?_, hC', by simpa using h2,
    by decide⟩
  · exact ⟨by omega, by omega, fun i _ j _ => ⟨trivial, rfl, rfl⟩⟩
  · exact ⟨by omega, by omega, fun i _ j _ => ⟨trivial, rfl, rfl⟩⟩
  · exact fun i _ j _ => trivial
  · intro i _ j _
    exact trivial

section Examples

/-- Dense, low-rank and nested blocks. -/
def mixed : Mat ℤ := .hier 2 2 (fun i j =>
  if i = j then .hier 2 2 (fun a b => dense1 (a + 2 * b)) else .lowRank unit01)

theorem mixed_wf : mixed.WF := by
  refine ⟨by omega, by omega, fun i hi j hj => ?_⟩
  have hi' : i = 0 ∨ i = 1 := by omega
  have hj' : j = 0 ∨ j = 1 := by omega
  rcases hi' with rfl | rfl <;> rcases hj' with rfl | rfl <;>
    first
    | exact ⟨⟨by omega, by omega, fun i _ j _ => ⟨trivial, rfl, rfl⟩⟩, rfl, rfl⟩
    | exact ⟨⟨rfl, rfl, rfl, rfl, rfl⟩, rfl, rfl⟩

theorem mixed_square : mixed.Square := by
  intro i _ j _
  by_cases h : i = j
  · simp only [h, if_true]
    exact fun _ _ _ _ => trivial
  · simp only [h, if_false]
    rfl

/-- C21: the hypotheses hold and the product exists for matrices with all kinds of
blocks. -/
example : ∃ C', Mat.gemm (exactOps ℤ) 10 mixed mixed mixed 2 3 false false = .ok C' ∧
    C'.EntryIs 0 2 (2 * ∑ l ∈ range 4, mixed.entry 0 l * mixed.entry l 2 + 3 * mixed.entry 0 2) := by
  obtain ⟨C', hC', -⟩ := okAnd_spec (x := Mat.gemm (exactOps ℤ) 10 mixed mixed mixed 2 3 false false)
    (P := fun _ => true) (by decide +kernel)
  refine ⟨C', hC', ?_⟩
  exact (C21_gemm_untransposed exactOps_fits 10 mixed_wf mixed_wf mixed_wf mixed_square hC').2.2 0
    (by decide) 2 (by decide) (Or.inr exactOps_exact)

/-- C21: transposed products of nested dense matrices are covered. -/
example : Mat.TransSafe true true (Mat.hier 2 2 (fun _ _ => .hier 2 2 (fun _ _ => dense1 1)))
    (Mat.hier 2 2 (fun _ _ => .hier 2 2 (fun _ _ => dense1 1))) :=
  fun _ _ _ _ _ _ _ _ _ _ _ _ _ _ _ _ _ _ => trivial

end Examples

/-! ### C23 -/

/-- C23.  `gemm` returning a new matrix: dimensions and every entry, whatever the
low-rank operations do. -/
theorem C23_gemm_new_partial [CommRing R] [DecidableEq R] {o : LrOps R} {sq : Prop} (hf : o.Fits sq)
    (fuel : Nat) {A B D : Mat R} {α : R} {ta tb : Bool} (hA : A.WF) (hB : B.WF)
    (ht : Mat.TransSafe ta tb A B) (hr : Mat.RankSafe sq A B)
    (h : Mat.gemmNew o fuel A B α ta tb = .ok D) :
    D.WF ∧ D.AllDense ∧ D.nRows = (if ta then A.nCols else A.nRows) ∧
    D.nCols = (if tb then B.nRows else B.nCols) ∧
    ∀ i < D.nRows, ∀ j < D.nCols,
      D.EntryIs i j (α * ∑ l ∈ range (if ta then A.nRows else A.nCols),
        (if ta then A.entry l i else A.entry i l) * (if tb then B.entry j l else B.entry l j)) := by
  have P := (Mat.gemmBoth_ok hf fuel).2 A B α ta tb D hA hB ht hr h
  refine ⟨P.wf, fun i hi j hj => P.leaves.denseAt hi hj P.wf, P.rows, P.cols, fun i hi j hj => ?_⟩
  rw [Mat.entryIs_iff _ P.wf]
  exact ⟨hi, hj, (P.ent i hi j hj).symm⟩

/-! ### C24 -/

/-- C24.  `A += B`. -/
theorem C24_add_assign [CommRing R] {o : LrOps R} {sq : Prop} (hf : o.Fits sq) {A B A' : Mat R}
    (hA : A.WF) (hAs : A.Square) (hB : B.WF) (hBs : sq → B.Square) (hc : A.Conform B)
    (h : A.addAssign o B = .ok A') :
    A.nRows = B.nRows ∧ A.nCols = B.nCols ∧ A'.WF ∧ A'.Square ∧ A.SameShape A' ∧
    ∀ i < A.nRows, ∀ j < A.nCols, (A.denseAt i j ∨ o.Exact sq) →
      A'.EntryIs i j (A.entry i j + B.entry i j) := by
  obtain ⟨h1, h2, h3, h4, h5⟩ := Mat.addAssign_ok hf hA hAs hB hBs hc h
  have dd := h4.dims hA
  refine ⟨h1.1, h1.2, h3, h2, h4, fun i hi j hj hP => ?_⟩
  rw [Mat.entryIs_iff _ h3]
  exact ⟨by rw [dd.1]; exact hi, by rw [dd.2]; exact hj, (h5 i hi j hj hP).symm⟩

/-- C24: `A + B` and `A - B` of dense matrices of equal dimensions. -/
theorem C24_dense_add_sub [CommRing R] (A B : Dense R) (h0 : A.rows = B.rows) (h1 : A.cols = B.cols) :
    (∃ C, A.add B = .ok C ∧ C.rows = A.rows ∧ C.cols = A.cols ∧
      ∀ i < A.rows, ∀ j < A.cols, C.val i j = A.val i j + B.val i j) ∧
    (∃ C, A.subtract B = .ok C ∧ C.rows = A.rows ∧ C.cols = A.cols ∧
      ∀ i < A.rows, ∀ j < A.cols, C.val i j = A.val i j - B.val i j) := by
  refine ⟨⟨⟨A.rows, A.cols, fun i j => A.val i j + B.val i j⟩, ?_, rfl, rfl, fun _ _ _ _ => rfl⟩,
    ⟨⟨A.rows, A.cols, fun i j => A.val i j - B.val i j⟩, ?_, rfl, rfl, fun _ _ _ _ => rfl⟩⟩
  · simp [Dense.add, h0, h1, assertM]
  · simp [Dense.subtract, h0, h1, assertM]

/-- C24: the hypotheses hold for nested matrices with low-rank blocks. -/
example : ∃ A', mixed.addAssign (exactOps ℤ) mixed = .ok A' ∧
    A'.EntryIs 3 1 (mixed.entry 3 1 + mixed.entry 3 1) := by
  obtain ⟨A', hA', -⟩ := okAnd_spec (x := mixed.addAssign (exactOps ℤ) mixed)
    (P := fun _ => true) (by decide +kernel)
  refine ⟨A', hA', ?_⟩
  refine (C24_add_assign exactOps_fits mixed_wf mixed_square mixed_wf (fun h => h.elim) ?_ hA').2.2.2.2.2
    3 (by decide) 1 (by decide) (Or.inr exactOps_exact)
  refine ⟨rfl, rfl, fun i _ j _ => ?_⟩
  by_cases h : i = j
  · simp only [h, if_true]
    exact ⟨rfl, rfl, fun _ _ _ _ => ⟨rfl, rfl⟩⟩
  · simp only [h, if_false]
    trivial

/-- C24: a low-rank matrix added to a nested one. -/
example : ∃ A', mixed.addAssign (exactOps ℤ) (.lowRank ⟨4, 4, 1, 0, ⟨4, 1, fun i _ => i⟩,
    ⟨1, 1, fun _ _ => 1⟩, ⟨1, 4, fun _ j => j⟩⟩) = .ok A' := by
  obtain ⟨A', hA', -⟩ := okAnd_spec (x := mixed.addAssign (exactOps ℤ) (.lowRank ⟨4, 4, 1, 0,
    ⟨4, 1, fun i _ => i⟩, ⟨1, 1, fun _ _ => 1⟩, ⟨1, 4, fun _ j => j⟩⟩))
    (P := fun _ => true) (by decide +kernel)
  exact ⟨A', hA'⟩

end Verif
