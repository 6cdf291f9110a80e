import Verif.Lemmas.Lu
import Verif.Props.GemmTotal

/-
C28-C31: triangular multiplication, triangular solves, LU factorization.
-/

namespace Verif
open Finset

variable {R : Type}

/-! ### C28 -/

/-- C28.  If `trmm` returns, `B` keeps its structure and represents
`alpha * op(tri(A)) * B` or `alpha * B * op(tri(A))` at every entry of a dense
block, and at every entry if the low-rank operations lose nothing.  `A` has a
square diagonal; `WF` and `Square` say that the factors of low-rank blocks and the
dimensions of the blocks fit together.  Nothing else is required: that the two
matrices fit is checked by the code. -/
theorem C28_trmm [CommRing R] [DecidableEq R] {o : LrOps R} (hf : o.Fits False) (fuel : Nat)
    {A B B' : Mat R} {side : Side} {uplo : Uplo} {trans unit : Bool} {α : R} (hA : A.WF) (hB : B.WF)
    (hBs : B.Square) (hD : A.DiagSquare)
    (h : Mat.trmm o fuel A B side uplo trans unit α = .ok B') :
    A.nRows = A.nCols ∧ A.nRows = side.pick B.nRows B.nCols ∧ B'.WF ∧ B'.Square ∧ B.SameShape B' ∧
    ∀ i < B.nRows, ∀ j < B.nCols, (B.denseAt i j ∨ o.Exact False) →
      B'.EntryIs i j (α * Mat.sideProd side A.nRows
        (fun k l => if trans then A.triEntry uplo unit l k else A.triEntry uplo unit k l) B i j) := by
  obtain ⟨f1, f2⟩ := Mat.trmmWith_fits (Mat.gemmBoth_ok hf fuel).1 fuel A B B' hA hB hBs hD h
  have P := Mat.trmmWith_ok (Mat.gemmBoth_ok hf fuel).1 fuel A B B' hA hB hBs hD f1 f2 h
  have dd := P.shape.dims hB
  refine ⟨hD.dims hA, f2, P.wf, P.sqr, P.shape, fun i hi j hj hP => ?_⟩
  rw [Mat.entryIs_iff _ P.wf]
  exact ⟨by rw [dd.1]; exact hi, by rw [dd.2]; exact hj, (P.ent i hi j hj hP).symm⟩

/-- C28 with the library's low-rank operations: dense right-hand sides (however
nested) are multiplied exactly, whatever the external routines do. -/
theorem C28_trmm_library [CommRing R] [DecidableEq R] (L : Lapack R) (mode : LraMode) (lfuel fuel : Nat)
    {A B B' : Mat R} {side : Side} {uplo : Uplo} {trans unit : Bool} {α : R} (hA : A.WF) (hB : B.WF)
    (hBs : B.Square) (hD : A.DiagSquare)
    (h : Mat.trmm (L.ops mode lfuel) fuel A B side uplo trans unit α = .ok B') :
    ∀ i < B.nRows, ∀ j < B.nCols, B.denseAt i j →
      B'.EntryIs i j (α * Mat.sideProd side A.nRows
        (fun k l => if trans then A.triEntry uplo unit l k else A.triEntry uplo unit k l) B i j) :=
  fun i hi j hj hd => (C28_trmm (L.ops_fits mode lfuel) fuel hA hB hBs hD h).2.2.2.2.2 i hi j hj (Or.inl hd)

/-- C28: a low-rank operand needs no assumption on the low-rank operations, only
its outer factor is multiplied. -/
theorem C28_trmm_lowrank [CommRing R] [DecidableEq R] {o : LrOps R} (hf : o.Fits False) (fuel : Nat)
    {A B' : Mat R} {b : LowRank R} {side : Side} {uplo : Uplo} {trans unit : Bool} {α : R} (hA : A.WF)
    (hb : b.WF) (hbs : b.Square) (hD : A.DiagSquare)
    (h : Mat.trmm o fuel A (.lowRank b) side uplo trans unit α = .ok B') :
    ∃ b', B' = .lowRank b' ∧ b'.WF ∧ b'.rank = b.rank ∧ b'.dim0 = b.dim0 ∧ b'.dim1 = b.dim1 ∧
    ∀ i < b.dim0, ∀ j < b.dim1, b'.entry i j = α * Mat.sideProd side A.nRows
        (fun k l => if trans then A.triEntry uplo unit l k else A.triEntry uplo unit k l)
        (.lowRank b) i j := by
  obtain ⟨f1, f2⟩ := Mat.trmmWith_fits (Mat.gemmBoth_ok hf fuel).1 fuel A (.lowRank b) B' hA hb hbs hD h
  cases fuel with
  | zero => cases h
  | succ fuel =>
    simp only [Mat.trmm, Mat.trmmWith] at h
    cases A with
    | lowRank => cases h
    | empty => cases h
    | dense a =>
      simp only [Mat.trmmOmm, except_bind_eq_ok] at h
      obtain ⟨-, -, -, -, d, hd, h⟩ := h
      cases h
      have T := Mat.Dense_trmm_ok hd
      refine ⟨_, rfl, Mat.setOuter_wf hb T.2.2.1 T.2.2.2.1, by cases side <;> rfl, by cases side <;> rfl,
        by cases side <;> rfl, ?_⟩
      exact Mat.setOuter_trmm hb (fun x _ y _ => T.2.2.2.2 x y)
    | hier p q A =>
      have hA0 := hA
      simp only [Mat.WF] at hA0
      simp only [Mat.trmmOmm, except_bind_eq_ok] at h
      obtain ⟨_, hpq, _, _, BH, hBH, BH', hBH', X, hX, d, hd, h⟩ := h
      have key := Mat.trmmWith_ok (Mat.gemmBoth_ok hf (fuel + 1)).1 (side := side) (uplo := uplo)
        (trans := trans) (unit := unit) (α := α) (fuel + 1) (.hier p q A) (.dense (b.outer side)) X hA
        trivial trivial hD (Mat.TriFits_dense _ _ _) (by
          rw [f2]
          cases side
          · exact hb.urows.symm
          · exact hb.vcols.symm) (by
          simp only [Mat.trmmWith, Mat.trmmOmm, except_bind_eq_ok]
          refine ⟨(), hpq, (), ?_, BH, hBH, BH', hBH', hX⟩
          rw [assertM_eq_ok, decide_eq_true_eq, f2]
          cases side
          · exact hb.urows.symm
          · exact hb.vcols.symm)
      cases h
      obtain rfl := Mat.asDense_ok hd
      have sh := key.shape
      refine ⟨_, rfl, Mat.setOuter_wf hb sh.1.symm sh.2.symm, by cases side <;> rfl, by cases side <;> rfl,
        by cases side <;> rfl, ?_⟩
      exact Mat.setOuter_trmm hb (fun x hx y hy => key.ent x hx y hy (Or.inl trivial))

/-! ### C29 -/

/-- C29.  If `trsm` returns `X`, it has the structure of `B` and
`tri(A) * X = B` (or `X * tri(A) = B`) at every entry of a dense block of `B`, and
at every entry if the low-rank operations lose nothing; lower triangles have a
unit diagonal.  The code does not check that the operands fit, hence the last two
hypotheses. -/
theorem C29_trsm [Field R] [DecidableEq R] {o : LrOps R} (hf : o.Fits False) (fuel : Nat)
    {A B X : Mat R} {side : Side} {uplo : Uplo} (hA : A.WF) (hB : B.WF) (hBs : B.Square)
    (hD : A.DiagSquare) (hT : Mat.TriFits side A B) (hn : A.nRows = side.pick B.nRows B.nCols)
    (h : Mat.trsm o fuel A B uplo side = .ok X) :
    X.WF ∧ X.Square ∧ B.SameShape X ∧ X.nRows = B.nRows ∧ X.nCols = B.nCols ∧
    ∀ i < B.nRows, ∀ j < B.nCols, (B.denseAt i j ∨ o.Exact False) →
      Mat.sideProd side A.nRows (A.triEntry uplo (decide (uplo = .lower))) X i j = B.entry i j := by
  have P := Mat.trsmWith_ok (Mat.gemmBoth_ok hf fuel).1 fuel A B X hA hB hBs hD hT hn h
  have dd := P.shape.dims hB
  exact ⟨P.wf, P.sqr, P.shape, dd.1, dd.2, P.ent⟩

/-- C29 with the library's low-rank operations, for dense right-hand sides. -/
theorem C29_trsm_library [Field R] [DecidableEq R] (L : Lapack R) (mode : LraMode) (lfuel fuel : Nat)
    {A B X : Mat R} {side : Side} {uplo : Uplo} (hA : A.WF) (hB : B.WF) (hBs : B.Square)
    (hD : A.DiagSquare) (hT : Mat.TriFits side A B) (hn : A.nRows = side.pick B.nRows B.nCols)
    (h : Mat.trsm (L.ops mode lfuel) fuel A B uplo side = .ok X) :
    ∀ i < B.nRows, ∀ j < B.nCols, B.denseAt i j →
      Mat.sideProd side A.nRows (A.triEntry uplo (decide (uplo = .lower))) X i j = B.entry i j :=
  fun i hi j hj hd =>
    (C29_trsm (L.ops_fits mode lfuel) fuel hA hB hBs hD hT hn h).2.2.2.2.2 i hi j hj (Or.inl hd)

/-- C29: `trsm` undoes `trmm` (up to the scalar, on structures of dense blocks):
solving with the triangle of `A` recovers a matrix `Y` that multiplied with the
triangle gives `alpha * tri(A) * B`. -/
theorem C29_trsm_after_trmm [Field R] [DecidableEq R] {o : LrOps R} (hf : o.Fits False) (fuel fuel' : Nat)
    {A B M Y : Mat R} {side : Side} {uplo : Uplo} {α : R} (hA : A.WF) (hB : B.WF) (hBs : B.Square)
    (hD : A.DiagSquare)
    (h1 : Mat.trmm o fuel A B side uplo false (decide (uplo = .lower)) α = .ok M)
    (h2 : Mat.trsm o fuel' A M uplo side = .ok Y) :
    ∀ i < B.nRows, ∀ j < B.nCols, (B.denseAt i j ∨ o.Exact False) →
      Mat.sideProd side A.nRows (A.triEntry uplo (decide (uplo = .lower))) Y i j =
        α * Mat.sideProd side A.nRows (A.triEntry uplo (decide (uplo = .lower))) B i j := by
  intro i hi j hj hP
  obtain ⟨f1, f2⟩ := Mat.trmmWith_fits (Mat.gemmBoth_ok hf fuel).1 fuel A B M hA hB hBs hD h1
  have P := Mat.trmmWith_ok (Mat.gemmBoth_ok hf fuel).1 fuel A B M hA hB hBs hD f1 f2 h1
  have dd := P.shape.dims hB
  have S := C29_trsm hf fuel' hA P.wf P.sqr hD (f1.shape P.shape) (by rw [dd.1, dd.2]; exact f2) h2
  rw [S.2.2.2.2.2 i (by rw [dd.1]; exact hi) j (by rw [dd.2]; exact hj)
    (by rwa [P.shape.denseAt hB hi hj]), P.ent i hi j hj hP]
  rfl

/-- C29 does not cover solving with a lower block triangle from the right, nor
with a dense triangle and a block right-hand side: these calls never return. -/
theorem C29_unsupported [Field R] [DecidableEq R] (o : LrOps R) (fuel p q r s : Nat)
    (A B : Nat → Nat → Mat R) (a : Dense R) (uplo : Uplo) (side : Side) :
    (∀ X, Mat.trsm o fuel (.hier p q A) (.hier r s B) .lower .right ≠ .ok X) ∧
    (∀ X, Mat.trsm o fuel (.dense a) (.hier r s B) uplo side ≠ .ok X) := by
  constructor <;> intro X h <;> cases fuel <;> cases h

/-! ### C30 -/

/-- C30.  If `getrf` returns and no dense diagonal block needed a row interchange
(`flag`), then `L` is unit lower triangular, `U` upper triangular and their product
is `A`, at every entry of a dense block of `A`, and at every entry if the low-rank
operations lose nothing.  `lu` is the external factorization of dense matrices,
of which `LuContract` is assumed. -/
theorem C30_getrf [Field R] [DecidableEq R] {lu : Dense R → Dense R × Bool} (hlu : LuContract lu)
    {o : LrOps R} (hf : o.Fits False) (fuel : Nat) {A L U : Mat R} {flag : Bool} (hA : A.WF)
    (hs : A.Square) (hF : A.LuFits) (h : Mat.getrf lu o fuel A = .ok (L, U, flag)) :
    L.WF ∧ U.WF ∧ L.nRows = A.nRows ∧ L.nCols = A.nRows ∧ U.nRows = A.nRows ∧ U.nCols = A.nRows ∧
    (∀ i < A.nRows, L.entry i i = 1) ∧
    (∀ i < A.nRows, ∀ j < A.nRows, i < j → L.entry i j = 0) ∧
    (∀ i < A.nRows, ∀ j < A.nRows, j < i → U.entry i j = 0) ∧
    (flag = false → ∀ i < A.nRows, ∀ j < A.nRows, (A.denseAt i j ∨ o.Exact False) →
      ∑ l ∈ range A.nRows, L.entry i l * U.entry l j = A.entry i j) := by
  have P := Mat.getrf_ok hlu hf fuel hA hs hF h
  have e := hF.diagSquare.dims hA
  refine ⟨P.lwf, P.uwf, P.lrows, P.lcols.trans e.symm, P.urows, P.ucols.trans e.symm, ?_, ?_, ?_, ?_⟩
  · intro i hi
    rw [P.low i hi i (by rw [← e]; exact hi)]
    simp [Mat.triEntry]
  · intro i hi j hj hij
    rw [P.low i hi j (by rw [← e]; exact hj)]
    simp only [Mat.triEntry]
    rw [if_neg (by omega), if_neg (by omega)]
  · intro i hi j hj hij
    rw [P.up i hi j (by rw [← e]; exact hj)]
    simp only [Mat.triEntry]
    rw [if_neg (by omega), if_neg (by omega)]
  · intro hfl i hi j hj hP
    have := P.ent hfl i hi j (by rw [← e]; exact hj) hP
    rw [Mat.prodEntry_ff, P.lcols, ← e] at this
    exact this

/-- C30 is false without the condition on interchanges: `getrf` ignores the
interchanges made by the external routine.  For the matrix `[[0,1],[1,0]]`, for
which a factorization with interchange (of the rows) succeeds, the product of the
factors is not the matrix, whatever the external routine returns: no unit lower
times upper triangular product is this matrix. -/
theorem C30_interchange_ignored (lu : Dense ℚ → Dense ℚ × Bool) (o : LrOps ℚ) (fuel : Nat)
    {L U : Mat ℚ} {flag : Bool}
    (h : Mat.getrf lu o fuel (.dense ⟨2, 2, fun i j => if i = j then 0 else 1⟩) = .ok (L, U, flag)) :
    ¬ ∀ i < 2, ∀ j < 2, ∑ l ∈ range 2, L.entry i l * U.entry l j = (if i = j then (0 : ℚ) else 1) := by
  cases fuel with
  | zero => cases h
  | succ fuel =>
    simp only [Mat.getrf, Mat.getrfWith, Mat.getrfDense, except_bind_eq_ok] at h
    obtain ⟨-, -, h⟩ := h
    cases h
    intro H
    have h00 := H 0 (by omega) 0 (by omega)
    have h10 := H 1 (by omega) 0 (by omega)
    simp [Finset.sum_range_succ, Mat.entry] at h00 h10
    rw [h00] at h10
    simp at h10

/-! ### C31 -/

/-- C31.  Factorize, solve with the lower factor, then with the upper factor: the
result solves the original system `A * X = B`. -/
theorem C31_factor_solve [Field R] [DecidableEq R] {lu : Dense R → Dense R × Bool} (hlu : LuContract lu)
    {o : LrOps R} (hf : o.Fits False) (fuel : Nat) {A B L U Y X : Mat R} (hA : A.WF) (hs : A.Square)
    (hF : A.LuFits) (hB : B.WF) (hBs : B.Square) (hT : Mat.TriFits .left A B) (hn : A.nRows = B.nRows)
    (hex : (A.AllDense ∧ B.AllDense) ∨ o.Exact False)
    (h1 : Mat.getrf lu o fuel A = .ok (L, U, false))
    (h2 : Mat.trsm o fuel L B .lower .left = .ok Y)
    (h3 : Mat.trsm o fuel U Y .upper .left = .ok X) :
    B.SameShape X ∧ X.nRows = A.nCols ∧ X.nCols = B.nCols ∧
    ∀ i < B.nRows, ∀ j < B.nCols, ∑ l ∈ range A.nCols, A.entry i l * X.entry l j = B.entry i j := by
  have P := Mat.getrf_ok hlu hf fuel hA hs hF h1
  have hD := hF.diagSquare
  have e := hD.dims hA
  have Q := C29_trsm hf fuel P.lwf hB hBs (P.ld.diagSquare hD) (P.ld.triFits hT)
    (by rw [P.lrows]; exact hn) h2
  obtain ⟨yw, ys, ysh, y0, y1, ye⟩ := Q
  have Q' := C29_trsm hf fuel P.uwf yw ys (P.ud.diagSquare hD) ((P.ud.triFits hT).shape ysh)
    (by rw [P.urows, hn]; exact y0.symm) h3
  obtain ⟨xw, xs, xsh, x0, x1, xe⟩ := Q'
  refine ⟨ysh.trans xsh, by rw [x0, y0, ← hn, e], x1.trans y1, fun i hi j hj => ?_⟩
  have hiA : i < A.nRows := by rw [hn]; exact hi
  have hBd : ∀ k < B.nRows, B.denseAt k j ∨ o.Exact False := fun k hk =>
    hex.imp (fun h => h.2 k hk j hj) id
  have hYd : ∀ k < B.nRows, Y.denseAt k j ∨ o.Exact False := fun k hk => by
    rw [ysh.denseAt hB hk hj]; exact hBd k hk
  have hAd : ∀ l < A.nCols, A.denseAt i l ∨ o.Exact False := fun l hl =>
    hex.imp (fun h => h.1 i hiA l hl) id
  have ex : ∀ m < A.nRows, ∑ l ∈ range A.nCols, U.entry m l * X.entry l j = Y.entry m j := by
    intro m hm
    have := xe m (by rw [y0, ← hn]; exact hm) j (by rw [y1]; exact hj) (hYd m (by rw [← hn]; exact hm))
    rw [← this, P.urows]
    show _ = ∑ l ∈ range A.nRows, U.triEntry .upper false m l * X.entry l j
    rw [e]
    exact Finset.sum_congr rfl (fun l hl => by rw [P.up m hm l (mem_range.1 hl)])
  have ey : ∑ m ∈ range A.nRows, L.entry i m * Y.entry m j = B.entry i j := by
    rw [← ye i hi j hj (hBd i hi), P.lrows]
    refine Finset.sum_congr rfl (fun m hm => ?_)
    rw [P.low i hiA m (by rw [← e]; exact mem_range.1 hm)]
    rfl
  calc ∑ l ∈ range A.nCols, A.entry i l * X.entry l j
      = ∑ l ∈ range A.nCols, (∑ m ∈ range A.nRows, L.entry i m * U.entry m l) * X.entry l j := by
        refine Finset.sum_congr rfl (fun l hl => ?_)
        have hl := mem_range.1 hl
        have := P.ent rfl i hiA l hl (hAd l hl)
        rw [← this, Mat.prodEntry_ff, P.lcols, e]
    _ = ∑ m ∈ range A.nRows, L.entry i m * ∑ l ∈ range A.nCols, U.entry m l * X.entry l j := by
        simp only [Finset.sum_mul, Finset.mul_sum]
        rw [Finset.sum_comm]
        exact Finset.sum_congr rfl (fun m _ => Finset.sum_congr rfl (fun l _ => by ring))
    _ = ∑ m ∈ range A.nRows, L.entry i m * Y.entry m j :=
        Finset.sum_congr rfl (fun m hm => by rw [ex m (mem_range.1 hm)])
    _ = B.entry i j := ey

/-- C31 with the library's low-rank operations: dense leaves suffice. -/
theorem C31_factor_solve_library [Field R] [DecidableEq R] {lu : Dense R → Dense R × Bool}
    (hlu : LuContract lu) (K : Lapack R) (mode : LraMode) (lfuel fuel : Nat) {A B L U Y X : Mat R}
    (hA : A.WF) (hs : A.Square) (hF : A.LuFits) (hB : B.WF) (hBs : B.Square)
    (hT : Mat.TriFits .left A B) (hn : A.nRows = B.nRows) (hAd : A.AllDense) (hBd : B.AllDense)
    (h1 : Mat.getrf lu (K.ops mode lfuel) fuel A = .ok (L, U, false))
    (h2 : Mat.trsm (K.ops mode lfuel) fuel L B .lower .left = .ok Y)
    (h3 : Mat.trsm (K.ops mode lfuel) fuel U Y .upper .left = .ok X) :
    ∀ i < B.nRows, ∀ j < B.nCols, ∑ l ∈ range A.nCols, A.entry i l * X.entry l j = B.entry i j :=
  (C31_factor_solve hlu (K.ops_fits mode lfuel) fuel hA hs hF hB hBs hT hn (Or.inl ⟨hAd, hBd⟩) h1 h2 h3).2.2.2

/-! ### concrete cases -/

/-- A 3-by-3 matrix in 2-by-2 blocks: a nested diagonal block, low-rank
off-diagonal blocks. -/
def triA : Mat ℚ := .hier 2 2 (fun i j =>
  if i = 0 ∧ j = 0 then .hier 2 2 (fun a b => .dense ⟨1, 1, fun _ _ => if a = b then 2 else 1⟩)
  else if i = 0 then .lowRank ⟨2, 1, 1, 0, ⟨2, 1, fun a _ => a + 1⟩, ⟨1, 1, fun _ _ => 1⟩, ⟨1, 1, fun _ _ => 3⟩⟩
  else if j = 0 then .lowRank ⟨1, 2, 1, 0, ⟨1, 1, fun _ _ => 2⟩, ⟨1, 1, fun _ _ => 1⟩, ⟨1, 2, fun _ b => b + 1⟩⟩
  else .dense ⟨1, 1, fun _ _ => 5⟩)

def triB : Mat ℚ := .dense ⟨3, 2, fun i j => i + 2 * j + 1⟩

theorem lt_two_cases {i : Nat} (h : i < 2) : i = 0 ∨ i = 1 := by omega

theorem triA_wf : triA.WF := by
  refine ⟨by omega, by omega, fun i hi j hj => ?_⟩
  rcases lt_two_cases hi with rfl | rfl <;> rcases lt_two_cases hj with rfl | rfl
  · exact ⟨⟨by omega, by omega, fun _ _ _ _ => ⟨trivial, rfl, rfl⟩⟩, rfl, rfl⟩
  · exact ⟨⟨rfl, rfl, rfl, rfl, rfl⟩, rfl, rfl⟩
  · exact ⟨⟨rfl, rfl, rfl, rfl, rfl⟩, rfl, rfl⟩
  · exact ⟨trivial, rfl, rfl⟩

theorem triA_square : triA.Square := by
  intro i hi j hj
  rcases lt_two_cases hi with rfl | rfl <;> rcases lt_two_cases hj with rfl | rfl
  · exact fun _ _ _ _ => trivial
  · exact rfl
  · exact rfl
  · trivial

theorem triA_luFits : triA.LuFits := by
  refine ⟨rfl, fun i hi => ?_, fun i hi k hk hik => ?_⟩
  · rcases lt_two_cases hi with rfl | rfl
    · exact ⟨rfl, fun _ _ => rfl, fun _ _ _ _ _ => ⟨trivial, trivial⟩⟩
    · exact rfl
  · have h0 : i = 0 := by omega
    have h1 : k = 1 := by omega
    subst h0 h1
    exact ⟨trivial, trivial⟩

/-- Without interchange for matrices with at most one row, giving up otherwise. -/
def plainLu (R : Type) (D : Dense R) : Dense R × Bool := (D, decide (1 < D.rows))

theorem plainLu_contract [Field R] : LuContract (plainLu R) := by
  intro D hD hfl i hi j hj
  simp only [plainLu, decide_eq_false_iff_not] at hfl ⊢
  have h0 : i = 0 := by omega
  have h1 : j = 0 := by omega
  have h2 : D.rows = 1 := by omega
  subst h0 h1
  rw [h2]
  simp

/-- C28: all four sides and triangles, on a nested matrix with low-rank blocks. -/
example : ∃ B', Mat.trmm (exactOps ℚ) 9 triA triA .right .lower false true 3 = .ok B' ∧
    B'.EntryIs 2 0 (3 * ∑ l ∈ range 3, triA.entry 2 l * triA.triEntry .lower true l 0) := by
  obtain ⟨B', hB', -⟩ := okAnd_spec (x := Mat.trmm (exactOps ℚ) 9 triA triA .right .lower false true 3)
    (P := fun _ => true) (by decide +kernel)
  exact ⟨B', hB', (C28_trmm exactOps_fits 9 triA_wf triA_wf triA_square triA_luFits.diagSquare hB').2.2.2.2.2
    2 (by decide +kernel) 0 (by decide +kernel) (Or.inr exactOps_exact)⟩

/-- C28: transposed dense triangle, low-rank operand. -/
example : ∃ B', Mat.trmm (exactOps ℚ) 9 (.dense ⟨2, 2, fun i j => i + 2 * j + 1⟩)
    (.lowRank ⟨2, 1, 1, 0, ⟨2, 1, fun a _ => a + 1⟩, ⟨1, 1, fun _ _ => 1⟩, ⟨1, 1, fun _ _ => 3⟩⟩)
    .left .upper true false 1 = .ok B' := by
  obtain ⟨B', hB', -⟩ := okAnd_spec (x := Mat.trmm (exactOps ℚ) 9 (.dense ⟨2, 2, fun i j => i + 2 * j + 1⟩)
    (.lowRank ⟨2, 1, 1, 0, ⟨2, 1, fun a _ => a + 1⟩, ⟨1, 1, fun _ _ => 1⟩, ⟨1, 1, fun _ _ => 3⟩⟩)
    .left .upper true false 1) (P := fun _ => true) (by decide +kernel)
  exact ⟨B', hB'⟩

/-- C29: solving with a nested triangle. -/
example : ∃ X, Mat.trsm (exactOps ℚ) 9 triA triB .upper .left = .ok X ∧
    ∑ l ∈ range 3, triA.triEntry .upper false 1 l * X.entry l 1 = 4 := by
  obtain ⟨X, hX, -⟩ := okAnd_spec (x := Mat.trsm (exactOps ℚ) 9 triA triB .upper .left)
    (P := fun _ => true) (by decide +kernel)
  refine ⟨X, hX, ?_⟩
  have := (C29_trsm exactOps_fits 9 triA_wf (B := triB) trivial trivial triA_luFits.diagSquare
    (Mat.TriFits_dense _ _ _) (by decide +kernel) hX).2.2.2.2.2 1 (by decide +kernel) 1 (by decide +kernel)
    (Or.inl trivial)
  have e : triB.entry 1 1 = 4 := by decide +kernel
  rw [e] at this
  exact this

/-- C29: block right-hand sides, from the right. -/
example : ∃ X, Mat.trsm (exactOps ℚ) 9 triA triA .upper .right = .ok X := by
  obtain ⟨X, hX, -⟩ := okAnd_spec (x := Mat.trsm (exactOps ℚ) 9 triA triA .upper .right)
    (P := fun _ => true) (by decide +kernel)
  exact ⟨X, hX⟩

/-- C30, C31: the factorization and both solves return on a nested matrix with
low-rank blocks. -/
example : ∃ L U Y X, Mat.getrf (plainLu ℚ) (exactOps ℚ) 9 triA = .ok (L, U, false) ∧
    Mat.trsm (exactOps ℚ) 9 L triB .lower .left = .ok Y ∧
    Mat.trsm (exactOps ℚ) 9 U Y .upper .left = .ok X ∧
    (∀ i < 3, ∀ j < 2, ∑ l ∈ range 3, triA.entry i l * X.entry l j = triB.entry i j) ∧
    ∑ l ∈ range 3, L.entry 2 l * U.entry l 1 = 4 := by
  obtain ⟨⟨X, L, U, Y⟩, h, -⟩ := okAnd_spec (x := (do
      let r ← Mat.getrf (plainLu ℚ) (exactOps ℚ) 9 triA
      assertM (!r.2.2)
      let Y ← Mat.trsm (exactOps ℚ) 9 r.1 triB .lower .left
      let X ← Mat.trsm (exactOps ℚ) 9 r.2.1 Y .upper .left
      Except.ok (X, r.1, r.2.1, Y))) (P := fun _ => true) (by decide +kernel)
  simp only [except_bind_eq_ok, assertM_eq_ok] at h
  obtain ⟨⟨L, U, fl⟩, h1, -, hfl, Y, h2, X, h3, h⟩ := h
  cases h
  have hfl : fl = false := by cases fl <;> simp at hfl ⊢
  subst hfl
  refine ⟨L, U, Y, X, h1, h2, h3, ?_, ?_⟩
  · exact (C31_factor_solve plainLu_contract exactOps_fits 9 triA_wf triA_square triA_luFits
      (B := triB) trivial trivial (Mat.TriFits_dense _ _ _) (by decide +kernel) (Or.inr exactOps_exact)
      h1 h2 h3).2.2.2
  · have := (C30_getrf plainLu_contract exactOps_fits 9 triA_wf triA_square triA_luFits h1).2.2.2.2.2.2.2.2.2
      rfl 2 (by decide +kernel) 1 (by decide +kernel) (Or.inr exactOps_exact)
    have e : triA.entry 2 1 = 4 := by decide +kernel
    rw [e] at this
    exact this

end Verif
