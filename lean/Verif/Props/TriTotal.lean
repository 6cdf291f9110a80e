import Verif.Lemmas.TrmmTotal
import Verif.Lemmas.GetrfTotal
import Verif.Lemmas.Doolittle
import Verif.Props.Tri

/-
C28-C31: triangular multiplication, triangular solves and LU factorization return.
-/

namespace Verif
open Finset

variable {R : Type}

/-! ### conditions on low-rank blocks -/

theorem outerStable_false : Mat.OuterStable (R := R) (fun _ => False) := fun _ _ _ h => h.elim

theorem outerStable_wf [CommRing R] : Mat.OuterStable (R := R) LowRank.WF :=
  fun _ _ _ h h0 h1 => Mat.setOuter_wf h h0 h1

theorem outerStable_tolerance [CommRing R] : Mat.OuterStable (R := R) LowRank.WithTolerance := by
  rintro side l X ⟨w, s, e, d0, d1, r⟩ h0 h1
  refine ⟨Mat.setOuter_wf w h0 h1, ?_⟩
  cases side <;> exact ⟨s, e, d0, d1, r⟩

theorem LrOps.total_false [CommRing R] (o : LrOps R) (sq : Prop) : o.Total sq (fun _ => False) :=
  ⟨fun _ _ h => h, fun _ _ _ _ _ _ _ _ h => h.elim, fun _ _ h => h.elim, fun _ _ h => h.elim,
    fun _ _ h => h.elim⟩

theorem Lapack.ops_total_false [CommRing R] [DecidableEq R] {L : Lapack R} (hL : L.Ranks) {mode : LraMode}
    (hm : mode ≠ .naive) (fuel : Nat) : (L.ops mode fuel).Total False LowRank.WithTolerance := by
  have := Lapack.ops_total hL hm fuel
  rwa [eq_false hm] at this

theorem exactOps_total [CommRing R] : (exactOps R).Total False LowRank.WF where
  scale := fun c β h => ⟨h.urows, h.ucols, h.srows, h.vrows, h.vcols⟩
  add := by
    intro A B hA _ hB _ _ _ _
    obtain ⟨a, ha, -⟩ := Mat.LowRank_toDense_ok A hA
    obtain ⟨b, hb, -⟩ := Mat.LowRank_toDense_ok B hB
    simp only [exactOps, ha, hb, except_bind_ok]
    exact ⟨_, rfl, ⟨rfl, rfl, rfl, rfl, rfl⟩⟩
  ofRank := fun c D _ _ _ _ _ => ⟨_, rfl⟩
  ofEps := fun c D _ _ _ _ _ => ⟨_, rfl, ⟨rfl, rfl, rfl, rfl, rfl⟩⟩
  ofHier := by
    intro c M _ _ _ hM h0 h1
    obtain ⟨a, ha, a0, a1, -⟩ := Mat.toDense_ok M hM
    simp only [exactOps, ha, except_bind_ok]
    exact ⟨_, rfl, a0.trans h0, a1.trans h1⟩

theorem Mat.Regular.rhs [CommRing R] {b : Nat} {Q : LowRank R → Prop} {B : Mat R} (h : B.Regular b) (hs : B.Square)
    (hq : B.All Q) : B.Target Q := ⟨h.wf, h.sub.noEmpty, hs, h.even, hq⟩

/-! ### C28 -/

/-- C28: `trmm` returns, and the result is as in `C28_trmm`.  `A` has `b`-by-`b`
subdivisions in the selected triangle, `B` has `b`-by-`b` subdivisions; the
low-rank operations are total on blocks satisfying `Q`, and `B` has such blocks
only.  A transposed triangle must be dense and its operand not subdivided (the
code does not implement other cases). -/
theorem C28_trmm_returns [CommRing R] [DecidableEq R] {o : LrOps R} {Q : LowRank R → Prop}
    (hf : o.Fits False) (hT : o.Total False Q) (hQ : Mat.OuterStable Q) {b : Nat} (hb : 2 ≤ b)
    {A B : Mat R} {side : Side} {uplo : Uplo} {trans unit : Bool} {α : R} (hA : A.TriRegular b uplo)
    (hB : B.Regular b) (hBs : B.Square) (hBq : B.All Q) (hn : A.nRows = side.pick B.nRows B.nCols)
    (ht : trans = true → (∃ a, A = .dense a) ∧ B.Leaf)
    {fuel : Nat} (hfuel : 6 * max A.depth B.depth + 1 ≤ fuel) :
    ∃ B', Mat.trmm o fuel A B side uplo trans unit α = .ok B' ∧ B.SameShape B' ∧
      ∀ i < B.nRows, ∀ j < B.nCols, (B.denseAt i j ∨ o.Exact False) →
        B'.EntryIs i j (α * Mat.sideProd side A.nRows
          (fun k l => if trans then A.triEntry uplo unit l k else A.triEntry uplo unit k l) B i j) := by
  obtain ⟨B', h, -⟩ := Mat.trmmWith_total hQ (Mat.gemmTot hf hT hb (d := max A.depth B.depth) hfuel)
    (Mat.gemmBoth_ok hf fuel).1 (side := side) (uplo := uplo) (trans := trans) (unit := unit) (α := α) fuel A B
    hA (le_max_left _ _) (hB.rhs hBs hBq) (le_max_right _ _) hB.sub hn ht (by omega)
  have P := C28_trmm hf fuel hA.wf hB.wf hBs hA.sub.diagSquare h
  exact ⟨B', h, P.2.2.2.2.1, P.2.2.2.2.2⟩

/-- C28 for the library's low-rank operations, operand without low-rank blocks: in
every addition mode, whatever the external routines return. -/
theorem C28_trmm_library_returns [CommRing R] [DecidableEq R] (L : Lapack R) (mode : LraMode) (lfuel : Nat)
    {b : Nat} (hb : 2 ≤ b) {A B : Mat R} {side : Side} {uplo : Uplo} {trans unit : Bool} {α : R}
    (hA : A.TriRegular b uplo) (hB : B.Regular b) (hBd : B.DenseLeaves)
    (hn : A.nRows = side.pick B.nRows B.nCols) (ht : trans = true → (∃ a, A = .dense a) ∧ B.Leaf)
    {fuel : Nat} (hfuel : 6 * max A.depth B.depth + 1 ≤ fuel) :
    ∃ B', Mat.trmm (L.ops mode lfuel) fuel A B side uplo trans unit α = .ok B' ∧ B.SameShape B' ∧
      ∀ i < B.nRows, ∀ j < B.nCols,
        B'.EntryIs i j (α * Mat.sideProd side A.nRows
          (fun k l => if trans then A.triEntry uplo unit l k else A.triEntry uplo unit k l) B i j) := by
  obtain ⟨B', h1, h2, h3⟩ := C28_trmm_returns (L.ops_fits mode lfuel) (LrOps.total_false _ _) outerStable_false hb
    (side := side) (α := α) (unit := unit) hA hB hBd.square (hBd.all _) hn ht hfuel
  exact ⟨B', h1, h2, fun i hi j hj => h3 i hi j hj (Or.inl (hBd.denseAt hi hj hB.wf))⟩

/-- C28 for the library's rounded and fast rounded addition, operand with low-rank
blocks with a tolerance. -/
theorem C28_trmm_tolerance_returns [CommRing R] [DecidableEq R] {L : Lapack R} (hL : L.Ranks)
    {mode : LraMode} (hm : mode ≠ .naive) (lfuel : Nat) {b : Nat} (hb : 2 ≤ b)
    {A B : Mat R} {side : Side} {uplo : Uplo} {trans unit : Bool} {α : R} (hA : A.TriRegular b uplo)
    (hB : B.Regular b) (hBs : B.Square) (hBq : B.All LowRank.WithTolerance)
    (hn : A.nRows = side.pick B.nRows B.nCols) (ht : trans = true → (∃ a, A = .dense a) ∧ B.Leaf)
    {fuel : Nat} (hfuel : 6 * max A.depth B.depth + 1 ≤ fuel) :
    ∃ B', Mat.trmm (L.ops mode lfuel) fuel A B side uplo trans unit α = .ok B' ∧ B.SameShape B' ∧
      ∀ i < B.nRows, ∀ j < B.nCols, B.denseAt i j →
        B'.EntryIs i j (α * Mat.sideProd side A.nRows
          (fun k l => if trans then A.triEntry uplo unit l k else A.triEntry uplo unit k l) B i j) := by
  obtain ⟨B', h1, h2, h3⟩ := C28_trmm_returns (L.ops_fits mode lfuel) (Lapack.ops_total_false hL hm lfuel)
    outerStable_tolerance hb (side := side) (α := α) (unit := unit) hA hB hBs hBq hn ht hfuel
  exact ⟨B', h1, h2, fun i hi j hj hd => h3 i hi j hj (Or.inl hd)⟩

/-! ### C29 -/

theorem Mat.Solvable.noEmpty [CommRing R] {b : Nat} {uplo : Uplo} {side : Side} {A B : Mat R}
    (h : Mat.Solvable b uplo side A B) : B.NoEmpty := by
  cases B with
  | dense => trivial
  | lowRank => trivial
  | empty => cases A <;> exact h.elim
  | hier r s B =>
    cases A <;> try exact h.elim
    exact fun i hi j hj => (h.2.2.2 i hi j hj).1.sub.noEmpty

/-- C29: `trsm` returns, and the result is the solution as in `C29_trsm`.  An
upper triangle must not have a zero on its diagonal; `Solvable` lists the block
structures of right-hand sides the code implements. -/
theorem C29_trsm_returns [Field R] [DecidableEq R] {o : LrOps R} {Q : LowRank R → Prop}
    (hf : o.Fits False) (hT : o.Total False Q) (hQ : Mat.OuterStable Q) {b : Nat} (hb : 2 ≤ b)
    {A B : Mat R} {side : Side} {uplo : Uplo} (hA : A.TriRegular b uplo) (hz : A.DiagNonzero uplo)
    (hB : B.WF) (hE : B.Even) (hBs : B.Square) (hBq : B.All Q) (hS : Mat.Solvable b uplo side A B)
    (hn : A.nRows = side.pick B.nRows B.nCols)
    {fuel : Nat} (hfuel : 6 * max A.depth B.depth + 2 ≤ fuel) :
    ∃ X, Mat.trsm o fuel A B uplo side = .ok X ∧ X.All Q ∧ X.WF ∧ X.Square ∧ B.SameShape X ∧
      ∀ i < B.nRows, ∀ j < B.nCols, (B.denseAt i j ∨ o.Exact False) →
        Mat.sideProd side A.nRows (A.triEntry uplo (decide (uplo = .lower))) X i j = B.entry i j := by
  have hl : Mat.lrCost B ≤ 1 := by cases B <;> simp [Mat.lrCost]
  obtain ⟨X, h, q⟩ := Mat.trsmWith_total hQ
    (Mat.gemmTot hf hT hb (d := max A.depth B.depth) (n := fuel) (by omega))
    (Mat.gemmBoth_ok hf fuel).1 (side := side) (uplo := uplo) fuel A B
    hA hz (le_max_left _ _) ⟨hB, hS.noEmpty, hBs, hE, hBq⟩ (le_max_right _ _) hS hn (by omega)
  have P := C29_trsm hf fuel hA.wf hB hBs hA.sub.diagSquare hS.triFits hn h
  exact ⟨X, h, q, P.1, P.2.1, P.2.2.1, P.2.2.2.2.2⟩

/-- C29 for the library's low-rank operations, right-hand side without low-rank
blocks: in every addition mode, whatever the external routines return. -/
theorem C29_trsm_library_returns [Field R] [DecidableEq R] (L : Lapack R) (mode : LraMode) (lfuel : Nat)
    {b : Nat} (hb : 2 ≤ b) {A B : Mat R} {side : Side} {uplo : Uplo} (hA : A.TriRegular b uplo)
    (hz : A.DiagNonzero uplo) (hB : B.WF) (hE : B.Even) (hBd : B.DenseLeaves)
    (hS : Mat.Solvable b uplo side A B) (hn : A.nRows = side.pick B.nRows B.nCols)
    {fuel : Nat} (hfuel : 6 * max A.depth B.depth + 2 ≤ fuel) :
    ∃ X, Mat.trsm (L.ops mode lfuel) fuel A B uplo side = .ok X ∧ B.SameShape X ∧
      ∀ i < B.nRows, ∀ j < B.nCols,
        Mat.sideProd side A.nRows (A.triEntry uplo (decide (uplo = .lower))) X i j = B.entry i j := by
  obtain ⟨X, h, -, -, -, h2, h3⟩ := C29_trsm_returns (L.ops_fits mode lfuel) (LrOps.total_false _ _)
    outerStable_false hb hA hz hB hE hBd.square (hBd.all _) hS hn hfuel
  exact ⟨X, h, h2, fun i hi j hj => h3 i hi j hj (Or.inl (hBd.denseAt hi hj hB))⟩

/-- C29 for the library's rounded and fast rounded addition, right-hand side with
low-rank blocks with a tolerance. -/
theorem C29_trsm_tolerance_returns [Field R] [DecidableEq R] {L : Lapack R} (hL : L.Ranks)
    {mode : LraMode} (hm : mode ≠ .naive) (lfuel : Nat) {b : Nat} (hb : 2 ≤ b)
    {A B : Mat R} {side : Side} {uplo : Uplo} (hA : A.TriRegular b uplo) (hz : A.DiagNonzero uplo)
    (hB : B.WF) (hE : B.Even) (hBs : B.Square) (hBq : B.All LowRank.WithTolerance)
    (hS : Mat.Solvable b uplo side A B) (hn : A.nRows = side.pick B.nRows B.nCols)
    {fuel : Nat} (hfuel : 6 * max A.depth B.depth + 2 ≤ fuel) :
    ∃ X, Mat.trsm (L.ops mode lfuel) fuel A B uplo side = .ok X ∧ B.SameShape X ∧
      ∀ i < B.nRows, ∀ j < B.nCols, B.denseAt i j →
        Mat.sideProd side A.nRows (A.triEntry uplo (decide (uplo = .lower))) X i j = B.entry i j := by
  obtain ⟨X, h, -, -, -, h2, h3⟩ := C29_trsm_returns (L.ops_fits mode lfuel) (Lapack.ops_total_false hL hm lfuel)
    outerStable_tolerance hb hA hz hB hE hBs hBq hS hn hfuel
  exact ⟨X, h, h2, fun i hi j hj hd => h3 i hi j hj (Or.inl hd)⟩

/-! ### C30 -/

section
variable [Field R] [LinearOrder R] [IsStrictOrderedRing R] [DecidableEq R]

theorem getrf_total {o : LrOps R} {Q : LowRank R → Prop}
    (hf : o.Fits False) (hT : o.Total False Q) (hQ : Mat.OuterStable Q)
    {lu : Dense R → Dense R × Bool} (hlu : LuContract lu) (hnp : LuNoPivot lu) {b : Nat} (hb : 2 ≤ b)
    {A : Mat R} (hA : A.Regular b) (hs : A.Square) (hq : A.All Q) (hS : A.LuSolvable b)
    (hex : A.AllDense ∨ o.Exact False) (hdom : A.ColDominant)
    {fuel d : Nat} (hd : A.depth ≤ d) (hfuel : 6 * d + 2 ≤ fuel) :
    ∃ L U, Mat.getrf lu o fuel A = .ok (L, U, false) ∧ L.TriRegular b .lower ∧ U.TriRegular b .upper ∧
      L.depth ≤ A.depth ∧ U.depth ≤ A.depth ∧ U.DiagNonzero .upper ∧ Mat.LuPost (o.Exact False) false A L U := by
  have e := hS.luFits.diagSquare.dims hA.wf
  obtain ⟨L, U, h, h1, h2, h3, h4⟩ := Mat.getrfWith_total hQ hlu hnp
    (Mat.gemmTot hf hT hb (d := d) (n := fuel) (by omega)) (Mat.gemmBoth_ok hf fuel).1
    (fs := fuel) (by omega) fuel A hA hs hq hS hd (by omega) hex (hdom.colDom e)
  have P := Mat.getrf_ok hlu hf fuel hA.wf hs hS.luFits h
  exact ⟨L, U, h, h1, h2, h3, h4, P.pivots e hex (fun l hl => (hdom.colDom e).pivots hl), P⟩

/-- C30: `getrf` of a matrix with strictly diagonally dominant columns returns
without row interchanges, and the unit lower triangular factor times the upper
triangular factor is the matrix.  `lu` is the external factorization of dense
matrices with partial pivoting. -/
theorem C30_getrf_returns {o : LrOps R} {Q : LowRank R → Prop}
    (hf : o.Fits False) (hT : o.Total False Q) (hQ : Mat.OuterStable Q)
    {lu : Dense R → Dense R × Bool} (hlu : LuContract lu) (hnp : LuNoPivot lu) {b : Nat} (hb : 2 ≤ b)
    {A : Mat R} (hA : A.Regular b) (hs : A.Square) (hq : A.All Q) (hS : A.LuSolvable b)
    (hex : A.AllDense ∨ o.Exact False) (hdom : A.ColDominant)
    {fuel : Nat} (hfuel : 6 * A.depth + 2 ≤ fuel) :
    ∃ L U, Mat.getrf lu o fuel A = .ok (L, U, false) ∧
      (∀ i < A.nRows, L.entry i i = 1) ∧ (∀ i < A.nRows, U.entry i i ≠ 0) ∧
      (∀ i < A.nRows, ∀ j < A.nRows, i < j → L.entry i j = 0) ∧
      (∀ i < A.nRows, ∀ j < A.nRows, j < i → U.entry i j = 0) ∧
      ∀ i < A.nRows, ∀ j < A.nRows, ∑ l ∈ range A.nRows, L.entry i l * U.entry l j = A.entry i j := by
  obtain ⟨L, U, h, -, -, -, -, hz, P⟩ := getrf_total hf hT hQ hlu hnp hb hA hs hq hS hex hdom le_rfl hfuel
  have e := hS.luFits.diagSquare.dims hA.wf
  obtain ⟨-, -, -, -, h5, -, h7, h8, h9, h10⟩ := C30_getrf hlu hf fuel hA.wf hs hS.luFits h
  exact ⟨L, U, h, h7, fun i hi => hz rfl i (by rw [h5]; exact hi), h8, h9, fun i hi j hj =>
    h10 rfl i hi j hj (hex.imp (fun h => h i hi j (by rw [← e]; exact hj)) id)⟩

/-- C30 for the library's low-rank operations and matrices without low-rank
blocks: in every addition mode, whatever the external low-rank routines return. -/
theorem C30_getrf_library_returns (K : Lapack R) (mode : LraMode) (lfuel : Nat)
    {lu : Dense R → Dense R × Bool} (hlu : LuContract lu) (hnp : LuNoPivot lu) {b : Nat} (hb : 2 ≤ b)
    {A : Mat R} (hA : A.Regular b) (hAd : A.DenseLeaves) (hS : A.LuSolvable b) (hdom : A.ColDominant)
    {fuel : Nat} (hfuel : 6 * A.depth + 2 ≤ fuel) :
    ∃ L U, Mat.getrf lu (K.ops mode lfuel) fuel A = .ok (L, U, false) ∧
      (∀ i < A.nRows, L.entry i i = 1) ∧ (∀ i < A.nRows, U.entry i i ≠ 0) ∧
      (∀ i < A.nRows, ∀ j < A.nRows, i < j → L.entry i j = 0) ∧
      (∀ i < A.nRows, ∀ j < A.nRows, j < i → U.entry i j = 0) ∧
      ∀ i < A.nRows, ∀ j < A.nRows, ∑ l ∈ range A.nRows, L.entry i l * U.entry l j = A.entry i j :=
  C30_getrf_returns (K.ops_fits mode lfuel) (LrOps.total_false _ _) outerStable_false hlu hnp hb hA hAd.square
    (hAd.all _) hS (Or.inl (fun _ hi _ hj => hAd.denseAt hi hj hA.wf)) hdom hfuel

/-! ### C31 -/

omit [LinearOrder R] [IsStrictOrderedRing R] [DecidableEq R] [Field R] in
theorem Mat.Solvable.lower {b : Nat} {A B : Mat R} (h : Mat.Solvable b .upper .left A B) :
    Mat.Solvable b .lower .left A B := by
  induction A generalizing B with
  | dense a => cases B <;> first | exact h.elim | trivial
  | lowRank a => exact h.elim
  | empty => exact h.elim
  | hier p q A ih =>
    cases B with
    | dense => exact fun h => nomatch h.2
    | lowRank => exact fun h => nomatch h.2
    | empty => exact h.elim
    | hier r s B =>
      obtain ⟨-, -, h3, h⟩ := h
      exact ⟨fun h => (nomatch h.2), fun h => (nomatch h.1), h3, fun i hi j hj =>
        ⟨(h i hi j hj).1, ih _ _ (h i hi j hj).2⟩⟩

/-- C31: for a matrix with strictly diagonally dominant columns, factorization and
both solves return, and the result solves the original system. -/
theorem C31_solve_returns {o : LrOps R} {Q : LowRank R → Prop}
    (hf : o.Fits False) (hT : o.Total False Q) (hQ : Mat.OuterStable Q)
    {lu : Dense R → Dense R × Bool} (hlu : LuContract lu) (hnp : LuNoPivot lu) {b : Nat} (hb : 2 ≤ b)
    {A B : Mat R} (hA : A.Regular b) (hs : A.Square) (hq : A.All Q) (hS : A.LuSolvable b)
    (hdom : A.ColDominant) (hB : B.WF) (hE : B.Even) (hBs : B.Square) (hBq : B.All Q)
    (hSB : Mat.Solvable b .upper .left A B) (hn : A.nRows = B.nRows)
    (hex : (A.AllDense ∧ B.AllDense) ∨ o.Exact False)
    {fuel : Nat} (hfuel : 6 * max A.depth B.depth + 2 ≤ fuel) :
    ∃ L U Y X, Mat.getrf lu o fuel A = .ok (L, U, false) ∧
      Mat.trsm o fuel L B .lower .left = .ok Y ∧ Mat.trsm o fuel U Y .upper .left = .ok X ∧
      B.SameShape X ∧ X.nRows = A.nCols ∧ X.nCols = B.nCols ∧
      ∀ i < B.nRows, ∀ j < B.nCols, ∑ l ∈ range A.nCols, A.entry i l * X.entry l j = B.entry i j := by
  obtain ⟨L, U, h1, hL, hU, dL, dU, hz, P⟩ := getrf_total hf hT hQ hlu hnp hb hA hs hq hS (hex.imp And.left id)
    hdom (le_max_left A.depth B.depth) hfuel
  obtain ⟨Y, h2, yq, yw, ys, ysh, -⟩ := C29_trsm_returns hf hT hQ hb hL (fun h => (nomatch h)) hB hE hBs hBq
    (P.ld.solvable hSB.lower) (by rw [P.lrows]; exact hn) (fuel := fuel) (by omega)
  obtain ⟨X, h3, -⟩ := C29_trsm_returns hf hT hQ hb hU hz yw (ysh.even hB hE) ys yq
    ((P.ud.solvable hSB).shape ysh yw) (by rw [P.urows, hn]; exact (ysh.dims hB).1.symm) (fuel := fuel)
    (by rw [ysh.depth]; omega)
  exact ⟨L, U, Y, X, h1, h2, h3, C31_factor_solve hlu hf fuel hA.wf hs hS.luFits hB hBs hSB.triFits hn hex
    h1 h2 h3⟩

/-- C31 for the library's low-rank operations and matrices without low-rank
blocks. -/
theorem C31_solve_library_returns (K : Lapack R) (mode : LraMode) (lfuel : Nat)
    {lu : Dense R → Dense R × Bool} (hlu : LuContract lu) (hnp : LuNoPivot lu) {b : Nat} (hb : 2 ≤ b)
    {A B : Mat R} (hA : A.Regular b) (hAd : A.DenseLeaves) (hS : A.LuSolvable b) (hdom : A.ColDominant)
    (hB : B.WF) (hE : B.Even) (hBd : B.DenseLeaves) (hSB : Mat.Solvable b .upper .left A B) (hn : A.nRows = B.nRows)
    {fuel : Nat} (hfuel : 6 * max A.depth B.depth + 2 ≤ fuel) :
    ∃ L U Y X, Mat.getrf lu (K.ops mode lfuel) fuel A = .ok (L, U, false) ∧
      Mat.trsm (K.ops mode lfuel) fuel L B .lower .left = .ok Y ∧
      Mat.trsm (K.ops mode lfuel) fuel U Y .upper .left = .ok X ∧
      B.SameShape X ∧ X.nRows = A.nCols ∧ X.nCols = B.nCols ∧
      ∀ i < B.nRows, ∀ j < B.nCols, ∑ l ∈ range A.nCols, A.entry i l * X.entry l j = B.entry i j :=
  C31_solve_returns (K.ops_fits mode lfuel) (LrOps.total_false _ _) outerStable_false hlu hnp hb hA hAd.square
    (hAd.all _) hS hdom hB hE hBd.square (hBd.all _) hSB hn
    (Or.inl ⟨fun _ hi _ hj => hAd.denseAt hi hj hA.wf, fun _ hi _ hj => hBd.denseAt hi hj hB⟩) hfuel

end

/-! ### concrete cases -/

/-- Regular matrices with a square diagonal are regular as triangular matrices. -/
theorem Mat.Regular.tri [CommRing R] {b : Nat} {A : Mat R} (h : A.Regular b) (hd : A.DiagSquare)
    (uplo : Uplo) : A.TriRegular b uplo := by
  refine ⟨h.wf, h.even, ?_⟩
  have hs := h.sub
  clear h
  induction A with
  | dense a => exact hd
  | lowRank a => exact hd.elim
  | empty => exact hd.elim
  | hier p q A ih =>
    obtain ⟨h1, h2, h3⟩ := hs
    exact ⟨h1, h2, fun i hi => ih i i (hd.2 i hi) (h3 i hi i (by omega)), fun i hi k hk _ => h3 i hi k hk⟩

/-- A 4-by-4 matrix in 2-by-2 blocks: a nested diagonal block, low-rank
off-diagonal blocks, diagonally dominant columns. -/
def domA : Mat ℚ := .hier 2 2 (fun i j =>
  if i = 0 ∧ j = 0 then .hier 2 2 (fun a b => .dense ⟨1, 1, fun _ _ => if a = b then 9 else 2⟩)
  else if i = j then .dense ⟨2, 2, fun a b => if a = b then 8 else b⟩
  else .lowRank ⟨2, 2, 1, 0, ⟨2, 1, fun a _ => a + 1⟩, ⟨1, 1, fun _ _ => 1⟩, ⟨1, 2, fun _ b => 1 + b⟩⟩)

theorem domA_regular : domA.Regular 2 := by
  refine ⟨⟨by omega, by omega, fun i hi j hj => ?_⟩, fun i hi j hj => ?_, rfl, rfl, fun i hi j hj => ?_⟩ <;>
    rcases lt_two_cases hi with rfl | rfl <;> rcases lt_two_cases hj with rfl | rfl
  · exact ⟨⟨by omega, by omega, fun _ _ _ _ => ⟨trivial, rfl, rfl⟩⟩, rfl, rfl⟩
  · exact ⟨⟨rfl, rfl, rfl, rfl, rfl⟩, rfl, rfl⟩
  · exact ⟨⟨rfl, rfl, rfl, rfl, rfl⟩, rfl, rfl⟩
  · exact ⟨trivial, rfl, rfl⟩
  · refine ⟨fun a ha b hb => ?_, by decide +kernel, by decide +kernel⟩
    rcases lt_two_cases ha with rfl | rfl <;> rcases lt_two_cases hb with rfl | rfl <;>
      exact ⟨trivial, by decide +kernel, by decide +kernel⟩
  · exact ⟨trivial, by decide +kernel, by decide +kernel⟩
  · exact ⟨trivial, by decide +kernel, by decide +kernel⟩
  · exact ⟨trivial, by decide +kernel, by decide +kernel⟩
  · exact ⟨rfl, rfl, fun _ _ _ _ => trivial⟩
  · trivial
  · trivial
  · trivial

theorem domA_square : domA.Square := by
  intro i hi j hj
  rcases lt_two_cases hi with rfl | rfl <;> rcases lt_two_cases hj with rfl | rfl
  · exact fun _ _ _ _ => trivial
  · exact rfl
  · exact rfl
  · trivial

theorem domA_all : domA.All LowRank.WF := by
  intro i hi j hj
  rcases lt_two_cases hi with rfl | rfl <;> rcases lt_two_cases hj with rfl | rfl
  · exact fun _ _ _ _ => trivial
  · exact ⟨rfl, rfl, rfl, rfl, rfl⟩
  · exact ⟨rfl, rfl, rfl, rfl, rfl⟩
  · trivial

theorem domA_lu : domA.LuSolvable 2 := by
  refine ⟨rfl, fun i hi => ?_, fun i hi k hk hik => ?_⟩
  · rcases lt_two_cases hi with rfl | rfl
    · refine ⟨rfl, fun _ _ => rfl, fun i hi k hk hik => ⟨trivial, trivial⟩⟩
    · exact rfl
  · have h0 : i = 0 := by omega
    have h1 : k = 1 := by omega
    subst h0 h1
    exact ⟨fun h => (nomatch h.1), fun h => (nomatch h.2)⟩

theorem domA_dominant : domA.ColDominant := by
  show ∀ j < domA.nCols, ∑ i ∈ (range domA.nRows).erase j, |domA.entry i j| < |domA.entry j j|
  decide +kernel

def domB : Mat ℚ := .hier 2 1 (fun i _ => .dense ⟨2, 3, fun a b => 2 * i + a + 2 * b⟩)

theorem domB_wf : domB.WF :=
  ⟨by omega, by omega, fun _ _ _ _ => ⟨trivial, rfl, rfl⟩⟩

theorem domB_even : domB.Even := by
  intro i hi j hj
  have h : j = 0 := by omega
  subst h
  rcases lt_two_cases hi with rfl | rfl <;> exact ⟨trivial, by decide +kernel, by decide +kernel⟩

theorem domB_solvable : Mat.Solvable 2 .upper .left domA domB := by
  refine ⟨fun h => (nomatch h.1), fun _ => rfl, rfl, fun i hi j hj => ⟨⟨trivial, trivial, trivial⟩, ?_⟩⟩
  rcases lt_two_cases hi with rfl | rfl
  · exact fun h => (nomatch h.1)
  · trivial

/-- C28: nested triangle times nested operand with low-rank blocks, every side,
triangle, diagonal and scalar. -/
example (side : Side) (uplo : Uplo) (unit : Bool) (α : ℚ) : ∃ B',
    Mat.trmm (exactOps ℚ) 13 domA domA side uplo false unit α = .ok B' ∧ domA.SameShape B' ∧
    ∀ i < 4, ∀ j < 4, B'.EntryIs i j (α * Mat.sideProd side 4 (domA.triEntry uplo unit) domA i j) := by
  have e0 : domA.nRows = 4 := by decide +kernel
  have e1 : domA.nCols = 4 := by decide +kernel
  obtain ⟨B', h, hs, he⟩ := C28_trmm_returns exactOps_fits exactOps_total outerStable_wf (by omega : 2 ≤ 2)
    (side := side) (uplo := uplo) (trans := false) (unit := unit) (α := α)
    (domA_regular.tri domA_lu.luFits.diagSquare uplo) domA_regular domA_square domA_all
    (by cases side <;> decide +kernel) nofun (fuel := 13) (by decide +kernel)
  refine ⟨B', h, hs, fun i hi j hj => ?_⟩
  have := he i (by rw [e0]; exact hi) j (by rw [e1]; exact hj) (Or.inr exactOps_exact)
  rw [e0] at this
  exact this

theorem domA_solvable : Mat.Solvable 2 .upper .right domA domA := by
  refine ⟨fun h => (nomatch h.1), fun h => (nomatch h.2), rfl, fun i hi j hj => ?_⟩
  have h := domA_regular
  have hw := h.wf.2.2 i hi j hj
  refine ⟨⟨hw.1, (h.even i hi j hj).1, h.sub.2.2 i hi j hj⟩, ?_⟩
  rcases lt_two_cases hi with rfl | rfl <;> rcases lt_two_cases hj with rfl | rfl
  · exact ⟨fun h => (nomatch h.1), fun h => (nomatch h.2), rfl, fun i hi j hj =>
      ⟨⟨trivial, trivial, trivial⟩, trivial⟩⟩
  · trivial
  · exact fun h => (nomatch h.1)
  · trivial

/-- C29: nested upper triangle, nested right-hand side from the right. -/
example : ∃ X, Mat.trsm (exactOps ℚ) 14 domA domA .upper .right = .ok X ∧
    ∀ i < 4, ∀ j < 4, ∑ l ∈ range 4, X.entry i l * domA.triEntry .upper false l j = domA.entry i j := by
  have e0 : domA.nRows = 4 := by decide +kernel
  have e1 : domA.nCols = 4 := by decide +kernel
  obtain ⟨X, h, -, -, -, -, he⟩ := C29_trsm_returns exactOps_fits exactOps_total outerStable_wf (by omega : 2 ≤ 2)
    (side := .right) (uplo := .upper) (domA_regular.tri domA_lu.luFits.diagSquare .upper)
    (fun _ => by
      show ∀ i < domA.nRows, domA.entry i i ≠ 0
      decide +kernel) domA_regular.wf domA_regular.even domA_square domA_all
    domA_solvable rfl (fuel := 14) (by decide +kernel)
  rw [e0, e1] at he
  exact ⟨X, h, fun i hi j hj => he i hi j hj (Or.inr exactOps_exact)⟩

/-- C30, C31: nested matrix with low-rank blocks, right-hand side in two blocks. -/
example : ∃ L U Y X, Mat.getrf doolittle (exactOps ℚ) 14 domA = .ok (L, U, false) ∧
    Mat.trsm (exactOps ℚ) 14 L domB .lower .left = .ok Y ∧ Mat.trsm (exactOps ℚ) 14 U Y .upper .left = .ok X ∧
    ∀ i < 4, ∀ j < 3, ∑ l ∈ range 4, domA.entry i l * X.entry l j = domB.entry i j := by
  have e0 : domB.nRows = 4 := by decide +kernel
  have e1 : domB.nCols = 3 := by decide +kernel
  have e2 : domA.nCols = 4 := by decide +kernel
  obtain ⟨L, U, Y, X, h1, h2, h3, -, -, -, h⟩ := C31_solve_returns exactOps_fits exactOps_total outerStable_wf
    doolittle_contract doolittle_noPivot (by omega : 2 ≤ 2) domA_regular domA_square domA_all domA_lu domA_dominant
    domB_wf domB_even (fun _ _ _ _ => trivial) (fun _ _ _ _ => trivial) domB_solvable (by decide +kernel)
    (Or.inr exactOps_exact) (fuel := 14) (by decide +kernel)
  rw [e0, e1, e2] at h
  exact ⟨L, U, Y, X, h1, h2, h3, h⟩

/-- `domA` with dense blocks throughout. -/
def domD : Mat ℚ := .hier 2 2 (fun i j => .dense ⟨2, 2, fun a b => if i = j ∧ a = b then 9 else i + b⟩)

theorem domD_regular : domD.Regular 2 := by
  refine ⟨⟨by omega, by omega, fun _ _ _ _ => ⟨trivial, rfl, rfl⟩⟩, fun i hi j hj => ?_, rfl, rfl,
    fun _ _ _ _ => trivial⟩
  rcases lt_two_cases hi with rfl | rfl <;> rcases lt_two_cases hj with rfl | rfl <;>
    exact ⟨trivial, by decide +kernel, by decide +kernel⟩

theorem domD_lu : domD.LuSolvable 2 :=
  ⟨rfl, fun _ _ => rfl, fun _ _ _ _ _ => ⟨trivial, trivial⟩⟩

/-- C30, C31 with the library's operations in any mode and any external low-rank
routines. -/
example (K : Lapack ℚ) (mode : LraMode) (lfuel : Nat) : ∃ L U Y X,
    Mat.getrf doolittle (K.ops mode lfuel) 8 domD = .ok (L, U, false) ∧
    Mat.trsm (K.ops mode lfuel) 8 L domB .lower .left = .ok Y ∧
    Mat.trsm (K.ops mode lfuel) 8 U Y .upper .left = .ok X ∧
    ∀ i < 4, ∀ j < 3, ∑ l ∈ range 4, domD.entry i l * X.entry l j = domB.entry i j := by
  have e0 : domB.nRows = 4 := by decide +kernel
  have e1 : domB.nCols = 3 := by decide +kernel
  have e2 : domD.nCols = 4 := by decide +kernel
  obtain ⟨L, U, Y, X, h1, h2, h3, -, -, -, h⟩ := C31_solve_library_returns K mode lfuel
    doolittle_contract doolittle_noPivot (by omega : 2 ≤ 2) domD_regular (fun _ _ _ _ => trivial) domD_lu
    (by
      show ∀ j < domD.nCols, ∑ i ∈ (range domD.nRows).erase j, |domD.entry i j| < |domD.entry j j|
      decide +kernel)
    domB_wf domB_even (fun _ _ _ _ => trivial)
    ⟨fun h => (nomatch h.1), fun _ => rfl, rfl, fun _ _ _ _ => ⟨⟨trivial, trivial, trivial⟩, trivial⟩⟩
    (by decide +kernel) (fuel := 8) (by decide +kernel)
  rw [e0, e1, e2] at h
  exact ⟨L, U, Y, X, h1, h2, h3, h⟩

/-- C28 with rounded addition, low-rank blocks with a tolerance. -/
example (fuel : Nat) (h : 13 ≤ fuel) : ∃ B', Mat.trmm (rankedLapack.ops .rounded 20) fuel mixed mixedEps
    .left .lower false true 2 = .ok B' := by
  obtain ⟨B', hB', -⟩ := C28_trmm_tolerance_returns rankedLapack_ranks (mode := .rounded) nofun 20
    (by omega : 2 ≤ 2) (side := .left) (uplo := .lower) (trans := false) (unit := true) (α := 2)
    (mixed_regular.tri (by
      refine ⟨rfl, fun i hi => ?_⟩
      rcases lt_two_cases hi with rfl | rfl <;> exact ⟨rfl, fun _ _ => rfl⟩) .lower)
    (mixedEps_shape.regular mixedEps_wf mixed_regular) (by
      intro i hi j hj
      rcases lt_two_cases hi with rfl | rfl <;> rcases lt_two_cases hj with rfl | rfl <;>
        first | exact fun _ _ _ _ => trivial | exact rfl) (by
      intro i hi j hj
      rcases lt_two_cases hi with rfl | rfl <;> rcases lt_two_cases hj with rfl | rfl <;>
        first
        | exact fun _ _ _ _ => trivial
        | exact ⟨⟨rfl, rfl, rfl, rfl, rfl⟩, rfl, by decide, by decide, by decide, by decide⟩)
    (by decide +kernel) nofun (fuel := fuel) (by
      have : 6 * max mixed.depth mixedEps.depth + 1 = 13 := by decide +kernel
      omega)
  exact ⟨B', hB'⟩

end Verif
