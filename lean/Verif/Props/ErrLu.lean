import Verif.Lemmas.ErrLu
import Verif.Lemmas.Refine
import Verif.Props.Tri

/-
C70: truncation errors of products, triangular solves and LU factorizations add
up and are not amplified.
-/

namespace Verif
open Finset

variable {K : Type} [Field K] [LinearOrder K] [IsStrictOrderedRing K]

theorem checked_spec {α : Type} {x : Except Err α} {p : α → Prop} [DecidablePred p] {r : α} :
    (do let c ← x; if p c then Except.ok c else .error .abort) = .ok r ↔ x = .ok r ∧ p r := by
  rw [except_bind_eq_ok]
  constructor
  · rintro ⟨c, hc, h⟩
    split at h
    · cases h; exact ⟨hc, by assumption⟩
    · cases h
  · rintro ⟨h, hp⟩
    exact ⟨r, h, if_pos hp⟩

section
omit [IsStrictOrderedRing K]

theorem LrOps.checked_leq (o : LrOps K) (τ : K) : (o.checked τ).Leq o where
  add _ _ _ h := (checked_spec.1 h).1
  ofRank _ _ _ h := (checked_spec.1 h).1
  ofEps _ _ _ h := (checked_spec.1 h).1
  ofHier _ _ _ h := (checked_spec.1 h).1

theorem LrOps.checked_fits {o : LrOps K} (hf : o.Fits False) (τ : K) : (o.checked τ).Fits False where
  add A B C h1 h2 h3 h4 h5 h6 h := hf.add A B C h1 h2 h3 h4 h5 h6 (checked_spec.1 h).1
  ofRank D r C h := hf.ofRank D r C (checked_spec.1 h).1
  ofEps D e C h := hf.ofEps D e C (checked_spec.1 h).1
  ofHier M r C hM h := hf.ofHier M r C hM (checked_spec.1 h).1

theorem LrOps.checked_within (o : LrOps K) (τ : K) : (o.checked τ).Within τ where
  add _ _ _ _ _ _ _ _ h := (checked_spec.1 h).2
  ofRank _ _ _ h := (checked_spec.1 h).2
  ofEps _ _ _ h := (checked_spec.1 h).2
  ofHier _ _ _ _ h _ _ := (checked_spec.1 h).2

end

/-! ### C70 -/

/-- C70, products.  If no low-rank operation of `gemm(A, B, C, alpha, beta)` changes
an entry by more than `τ`, no entry of the result is further than `2 n τ` from
`alpha * op(A) * op(B) + beta * C`, where `n` is the inner dimension: errors add up
over the blocks of the sum and are neither multiplied by entries of the operands
nor by the depth of the recursion.  No leaf of the operands is empty. -/
theorem C70_gemm {o : LrOps K} (hf : o.Fits False) {τ : K} (hτ : 0 ≤ τ) (fuel : Nat)
    {A B C C' : Mat K} {α β : K} {ta tb : Bool} (hA : A.WF) (hB : B.WF) (hC : C.WF) (hCs : C.Square)
    (ht : Mat.TransSafe ta tb A B) (hAf : A.Filled) (hBf : B.Filled)
    (h : Mat.gemm (o.checked τ) fuel A B C α β ta tb = .ok C') :
    Mat.gemm o fuel A B C α β ta tb = .ok C' ∧ C.SameShape C' ∧
    ∀ i < C.nRows, ∀ j < C.nCols,
      |C'.entry i j - (α * ∑ l ∈ range (if ta then A.nRows else A.nCols),
        (if ta then A.entry l i else A.entry i l) * (if tb then B.entry j l else B.entry l j) +
        β * C.entry i j)| ≤ 2 * ((if ta then A.nRows else A.nCols : ℕ) : K) * τ := by
  refine ⟨(Mat.gemmBoth_leq (o.checked_leq τ) le_rfl).1 _ _ _ _ _ _ _ _ h,
    (C21_gemm_partial (LrOps.checked_fits hf τ) fuel hA hB hC hCs ht (fun h => h.elim) h).2.2.1, ?_⟩
  exact Mat.gemmBoth_err (LrOps.checked_fits hf τ) hτ (o.checked_within τ) fuel A B C α β ta tb C' hA hB hC
    hCs ht (Mat.Wide.innr (by cases ta; exacts [hAf.1, hAf.2]) (by cases tb; exacts [hBf.2, hBf.1])) h

/-- C70, triangular solves.  If no low-rank operation of `trsm` changes an entry by
more than `τ`, the result `X` satisfies the equations up to `2 n τ` in every entry,
where `n` is the size of the triangle. -/
theorem C70_trsm {o : LrOps K} (hf : o.Fits False) {τ : K} (hτ : 0 ≤ τ) (fuel : Nat)
    {A B X : Mat K} {uplo : Uplo} {side : Side} (hA : A.WF) (hB : B.WF) (hBs : B.Square)
    (hD : A.DiagSquare) (hT : Mat.TriFits side A B) (hn : A.nRows = side.pick B.nRows B.nCols)
    (hAf : A.Filled) (hBf : B.Filled) (h : Mat.trsm (o.checked τ) fuel A B uplo side = .ok X) :
    Mat.trsm o fuel A B uplo side = .ok X ∧ B.SameShape X ∧
    ∀ i < B.nRows, ∀ j < B.nCols,
      |side.pick (∑ l ∈ range A.nRows, A.triEntry uplo (decide (uplo = .lower)) i l * X.entry l j)
          (∑ l ∈ range A.nRows, X.entry i l * A.triEntry uplo (decide (uplo = .lower)) l j) -
        B.entry i j| ≤ 2 * (A.nRows : K) * τ := by
  refine ⟨Mat.trsm_leq (o.checked_leq τ) le_rfl _ _ _ _ _ h,
    (C29_trsm (LrOps.checked_fits hf τ) fuel hA hB hBs hD hT hn h).2.2.1, ?_⟩
  have := Mat.trsm_err (LrOps.checked_fits hf τ) hτ (o.checked_within τ) fuel hA hB hBs hD hT hn hAf hBf h
  cases side <;> exact this

/-- C70, factorizations.  If no low-rank operation of `getrf(A)` changes an entry
by more than `τ` and no pivoting took place, no entry of `L * U` is further than
`2 n τ` from the entry of `A`, for an `n`-by-`n` matrix. -/
theorem C70_getrf {lu : Dense K → Dense K × Bool} (hlu : LuContract lu) {o : LrOps K} (hf : o.Fits False)
    {τ : K} (hτ : 0 ≤ τ) (fuel : Nat) {A L U : Mat K} (hA : A.WF) (hs : A.Square) (hF : A.LuFits)
    (hAf : A.Filled) (h : Mat.getrf lu (o.checked τ) fuel A = .ok (L, U, false)) :
    Mat.getrf lu o fuel A = .ok (L, U, false) ∧
    ∀ i < A.nRows, ∀ j < A.nCols,
      |∑ l ∈ range A.nCols, L.entry i l * U.entry l j - A.entry i j| ≤ 2 * (A.nRows : K) * τ := by
  refine ⟨Mat.getrf_leq lu (o.checked_leq τ) le_rfl _ _ h, ?_⟩
  have P := Mat.getrf_ok hlu (LrOps.checked_fits hf τ) fuel hA hs hF h
  have E := (Mat.getrf_err hlu (LrOps.checked_fits hf τ) hτ (o.checked_within τ) fuel hA hs hF hAf h).ent rfl
  intro i hi j hj
  have := E i hi j hj
  rwa [Mat.prodEntry_ff, P.lcols] at this

/-- C70, solving.  Factorize, solve with the lower factor, then with the upper one,
for a right-hand side with dense leaves: if no low-rank operation of the factorization
changes an entry by more than `τ`, the result solves exactly a system whose matrix
differs from `A` by at most `2 n τ` in every entry.  In particular the residual
`A * X - B` is at most `2 n τ` times the sum of the moduli of the entries of a
column of `X`. -/
theorem C70_solve {lu : Dense K → Dense K × Bool} (hlu : LuContract lu)
    {o : LrOps K} (hf : o.Fits False) {τ : K} (hτ : 0 ≤ τ) (fuel : Nat) {A B L U Y X : Mat K} (hA : A.WF)
    (hs : A.Square) (hF : A.LuFits) (hAf : A.Filled) (hB : B.WF) (hBs : B.Square) (hBd : B.AllDense)
    (hT : Mat.TriFits .left A B) (hn : A.nRows = B.nRows)
    (h1 : Mat.getrf lu (o.checked τ) fuel A = .ok (L, U, false))
    (h2 : Mat.trsm o fuel L B .lower .left = .ok Y)
    (h3 : Mat.trsm o fuel U Y .upper .left = .ok X) :
    X.nRows = A.nCols ∧ X.nCols = B.nCols ∧
    (∃ E : Nat → Nat → K, (∀ i < A.nRows, ∀ j < A.nCols, |E i j| ≤ 2 * (A.nRows : K) * τ) ∧
      ∀ i < B.nRows, ∀ j < B.nCols,
        ∑ l ∈ range A.nCols, (A.entry i l + E i l) * X.entry l j = B.entry i j) ∧
    ∀ i < B.nRows, ∀ j < B.nCols, |∑ l ∈ range A.nCols, A.entry i l * X.entry l j - B.entry i j| ≤
      2 * (A.nRows : K) * τ * ∑ l ∈ range A.nCols, |X.entry l j| := by
  obtain ⟨h1', H⟩ := C70_getrf hlu hf hτ fuel hA hs hF hAf h1
  have P := Mat.getrf_ok hlu hf fuel hA hs hF h1'
  have hD := hF.diagSquare
  have e := hD.dims hA
  obtain ⟨yw, ys, ysh, y0, y1, ye⟩ := C29_trsm hf fuel P.lwf hB hBs (P.ld.diagSquare hD) (P.ld.triFits hT)
    (by rw [P.lrows]; exact hn) h2
  obtain ⟨xw, xs, xsh, x0, x1, xe⟩ := C29_trsm hf fuel P.uwf yw ys (P.ud.diagSquare hD)
    ((P.ud.triFits hT).shape ysh) (by rw [P.urows, hn]; exact y0.symm) h3
  have solve : ∀ i < B.nRows, ∀ j < B.nCols, ∑ l ∈ range A.nCols,
      (∑ m ∈ range A.nCols, L.entry i m * U.entry m l) * X.entry l j = B.entry i j := by
    intro i hi j hj
    have hiA : i < A.nRows := by rw [hn]; exact hi
    have ex : ∀ m < A.nRows, ∑ l ∈ range A.nCols, U.entry m l * X.entry l j = Y.entry m j := by
      intro m hm
      have := xe m (by rw [y0, ← hn]; exact hm) j (by rw [y1]; exact hj) (Or.inl (by
        rw [ysh.denseAt hB (by rw [← hn]; exact hm) hj]; exact hBd m (by rw [← hn]; exact hm) j hj))
      rw [← this, P.urows]
      show _ = ∑ l ∈ range A.nRows, U.triEntry .upper false m l * X.entry l j
      rw [e]
      exact Finset.sum_congr rfl (fun l hl => by rw [P.up m hm l (mem_range.1 hl)])
    have ey : ∑ m ∈ range A.nRows, L.entry i m * Y.entry m j = B.entry i j := by
      rw [← ye i hi j hj (Or.inl (hBd i hi j hj)), P.lrows]
      refine Finset.sum_congr rfl (fun m hm => ?_)
      rw [P.low i hiA m (by rw [← e]; exact mem_range.1 hm)]
      rfl
    rw [← ey, ← e]
    simp only [Finset.sum_mul]
    rw [Finset.sum_comm]
    refine Finset.sum_congr rfl (fun m hm => ?_)
    rw [← ex m (mem_range.1 hm), Finset.mul_sum, e]
    exact Finset.sum_congr rfl (fun l _ => by ring)
  refine ⟨by rw [x0, y0, ← hn, e], x1.trans y1, ⟨fun i l => ∑ m ∈ range A.nCols, L.entry i m * U.entry m l -
    A.entry i l, H, fun i hi j hj => ?_⟩, fun i hi j hj => ?_⟩
  · rw [← solve i hi j hj]
    exact Finset.sum_congr rfl (fun l _ => by ring)
  · rw [← solve i hi j hj, ← Finset.sum_sub_distrib]
    refine (Finset.abs_sum_le_sum_abs _ _).trans ?_
    rw [Finset.mul_sum]
    refine Finset.sum_le_sum (fun l hl => ?_)
    rw [← sub_mul, abs_mul, abs_sub_comm]
    exact mul_le_mul_of_nonneg_right (H i (by rw [hn]; exact hi) l (mem_range.1 hl)) (abs_nonneg _)

/-- C70 with the low-rank operations of the library, whichever addition is
selected. -/
theorem C70_solve_library {lu : Dense K → Dense K × Bool} (hlu : LuContract lu) (M : Lapack K)
    (mode : LraMode) (lfuel fuel : Nat) {τ : K} (hτ : 0 ≤ τ) {A B L U Y X : Mat K} (hA : A.WF)
    (hs : A.Square) (hF : A.LuFits) (hAf : A.Filled) (hB : B.WF) (hBs : B.Square) (hBd : B.AllDense)
    (hT : Mat.TriFits .left A B) (hn : A.nRows = B.nRows)
    (h1 : Mat.getrf lu ((M.ops mode lfuel).checked τ) fuel A = .ok (L, U, false))
    (h2 : Mat.trsm (M.ops mode lfuel) fuel L B .lower .left = .ok Y)
    (h3 : Mat.trsm (M.ops mode lfuel) fuel U Y .upper .left = .ok X) :
    Mat.getrf lu (M.ops mode lfuel) fuel A = .ok (L, U, false) ∧
    ∀ i < B.nRows, ∀ j < B.nCols, |∑ l ∈ range A.nCols, A.entry i l * X.entry l j - B.entry i j| ≤
      2 * (A.nRows : K) * τ * ∑ l ∈ range A.nCols, |X.entry l j| :=
  ⟨(C70_getrf hlu (M.ops_fits mode lfuel) hτ fuel hA hs hF hAf h1).1,
    (C70_solve hlu (M.ops_fits mode lfuel) hτ fuel hA hs hF hAf hB hBs hBd hT hn h1 h2 h3).2.2.2⟩

/-- The budget for the depth of the recursion is not observable: two runs that
return with different budgets return the same. -/
theorem C70_budget [CommRing R] [DecidableEq R] (o : LrOps R) {fuel fuel' : Nat} {A B C X X' : Mat R}
    {α β : R} {ta tb : Bool} (h : Mat.gemm o fuel A B C α β ta tb = .ok X)
    (h' : Mat.gemm o fuel' A B C α β ta tb = .ok X') : X = X' := by
  rcases Nat.le_total fuel fuel' with hl | hl
  · have := (Mat.gemmBoth_leq (LrOps.Leq.refl o) hl).1 _ _ _ _ _ _ _ _ h
    exact Except.ok.inj (this.symm.trans h')
  · have := (Mat.gemmBoth_leq (LrOps.Leq.refl o) hl).1 _ _ _ _ _ _ _ _ h'
    exact Except.ok.inj (h.symm.trans this)

/-- The same for triangular solves and factorizations. -/
theorem C70_budget_lu [Field R] [DecidableEq R] (lu : Dense R → Dense R × Bool) (o : LrOps R)
    {fuel fuel' : Nat} :
    (∀ {A B X X' : Mat R} {uplo : Uplo} {side : Side}, Mat.trsm o fuel A B uplo side = .ok X →
      Mat.trsm o fuel' A B uplo side = .ok X' → X = X') ∧
    ∀ {A : Mat R} {r r' : Mat R × Mat R × Bool}, Mat.getrf lu o fuel A = .ok r →
      Mat.getrf lu o fuel' A = .ok r' → r = r' := by
  refine ⟨fun h h' => ?_, fun h h' => ?_⟩
  · rcases Nat.le_total fuel fuel' with hl | hl
    · exact Except.ok.inj ((Mat.trsm_leq (LrOps.Leq.refl o) hl _ _ _ _ _ h).symm.trans h')
    · exact Except.ok.inj (h.symm.trans (Mat.trsm_leq (LrOps.Leq.refl o) hl _ _ _ _ _ h'))
  · rcases Nat.le_total fuel fuel' with hl | hl
    · exact Except.ok.inj ((Mat.getrf_leq lu (LrOps.Leq.refl o) hl _ _ h).symm.trans h')
    · exact Except.ok.inj (h.symm.trans (Mat.getrf_leq lu (LrOps.Leq.refl o) hl _ _ h'))

/-! ### a concrete case -/

/-- Additions that round every entry of the sum down to a multiple of `1/2`. -/
def halfOps : LrOps ℚ where
  add A B := do
    let a ← A.toDense
    let b ← B.toDense
    keepAll ⟨A.dim0, A.dim1, fun i j => ((2 * (a.val i j + b.val i j)).floor : ℚ) / 2⟩
  ofRank D _ := keepAll D
  ofEps D _ := keepAll D
  ofHier M _ := do
    let d ← M.toDense
    keepAll d

theorem halfOps_fits : halfOps.Fits False where
  add := by
    intro A B C hA _ hB _ _ _ h
    obtain ⟨a, ha, -⟩ := Mat.LowRank_toDense_ok A hA
    obtain ⟨b, hb, -⟩ := Mat.LowRank_toDense_ok B hB
    simp only [halfOps, ha, hb, except_bind_ok, keepAll] at h
    cases h
    exact ⟨⟨rfl, rfl, rfl, rfl, rfl⟩, rfl, rfl, rfl⟩
  ofRank := exactOps_fits.ofRank
  ofEps := exactOps_fits.ofEps
  ofHier := exactOps_fits.ofHier

/-- Three by three blocks of one entry each, two of them low-rank. -/
def errA : Mat ℚ := .hier 3 3 (fun i j =>
  if i = j then .dense ⟨1, 1, fun _ _ => 4⟩
  else if i = 0 ∨ j = 0 then .dense ⟨1, 1, fun _ _ => 1⟩
  else .lowRank ⟨1, 1, 1, 0, ⟨1, 1, fun _ _ => 1⟩, ⟨1, 1, fun _ _ => 1⟩, ⟨1, 1, fun _ _ => 1⟩⟩)

def errB : Mat ℚ := .dense ⟨3, 1, fun i _ => i + 1⟩

theorem errA_wf : errA.WF := by
  refine ⟨by omega, by omega, fun i hi j hj => ?_⟩
  interval_cases i <;> interval_cases j <;> first
    | exact ⟨trivial, rfl, rfl⟩
    | exact ⟨⟨rfl, rfl, rfl, rfl, rfl⟩, rfl, rfl⟩

theorem errA_square : errA.Square := by
  intro i hi j hj
  interval_cases i <;> interval_cases j <;> trivial

theorem errA_luFits : errA.LuFits := by
  refine ⟨rfl, fun i hi => ?_, fun i hi k hk hik => ?_⟩
  · interval_cases i <;> exact rfl
  · interval_cases i <;> interval_cases k <;> exact ⟨trivial, trivial⟩

theorem errA_filled : errA.Filled := by
  refine ⟨fun i hi j hj => ?_, fun i hi j hj => ?_⟩ <;>
    interval_cases i <;> interval_cases j <;> exact Nat.one_pos

/-- The factorization and both solves return, one entry is changed by the rounding
(the product is not `A`), and the bound applies. -/
example : ∃ L U Y X, Mat.getrf (plainLu ℚ) (halfOps.checked (1/2)) 9 errA = .ok (L, U, false) ∧
    Mat.trsm halfOps 9 L errB .lower .left = .ok Y ∧
    Mat.trsm halfOps 9 U Y .upper .left = .ok X ∧
    ∑ l ∈ range 3, L.entry 1 l * U.entry l 2 ≠ errA.entry 1 2 ∧
    ∀ i < 3, ∀ j < 1, |∑ l ∈ range 3, errA.entry i l * X.entry l j - errB.entry i j| ≤
      3 * ∑ l ∈ range 3, |X.entry l j| := by
  obtain ⟨⟨X, L, U, Y⟩, h, hne⟩ := okAnd_spec (x := (do
      let r ← Mat.getrf (plainLu ℚ) (halfOps.checked (1/2)) 9 errA
      assertM (!r.2.2)
      let Y ← Mat.trsm halfOps 9 r.1 errB .lower .left
      let X ← Mat.trsm halfOps 9 r.2.1 Y .upper .left
      Except.ok (X, r.1, r.2.1, Y)))
    (P := fun r => decide (r.2.1.entry 1 0 * r.2.2.1.entry 0 2 + r.2.1.entry 1 1 * r.2.2.1.entry 1 2 +
      r.2.1.entry 1 2 * r.2.2.1.entry 2 2 ≠ errA.entry 1 2)) (by decide +kernel)
  simp only [except_bind_eq_ok, assertM_eq_ok] at h
  obtain ⟨⟨L, U, fl⟩, h1, -, hfl, Y, h2, X, h3, h⟩ := h
  cases h
  have hfl : fl = false := by cases fl <;> simp at hfl ⊢
  subst hfl
  refine ⟨L, U, Y, X, h1, h2, h3, ?_, ?_⟩
  · simp only [Finset.sum_range_succ, Finset.sum_range_zero, zero_add]
    exact of_decide_eq_true hne
  · have := (C70_solve plainLu_contract halfOps_fits (by norm_num) 9 errA_wf errA_square errA_luFits
      errA_filled (B := errB) trivial trivial (fun _ _ _ _ => trivial) (Mat.TriFits_dense _ _ _)
      (by decide +kernel) h1 h2 h3).2.2.2
    have e : errA.nRows = 3 := by decide +kernel
    have e' : errA.nCols = 3 := by decide +kernel
    rw [e, e'] at this
    intro i hi j hj
    refine (this i hi j hj).trans (le_of_eq ?_)
    norm_num

/-- A product of matrices with low-rank blocks, added to one. -/
example : ∃ C', Mat.gemm halfOps 9 errA errA errA (1/3) 1 false false = .ok C' ∧
    ∀ i < 3, ∀ j < 3, |C'.entry i j - (1/3 * ∑ l ∈ range 3, errA.entry i l * errA.entry l j +
      1 * errA.entry i j)| ≤ 3 := by
  obtain ⟨C', h, -⟩ := okAnd_spec (x := Mat.gemm (halfOps.checked (1/2)) 9 errA errA errA (1/3) 1 false false)
    (P := fun _ => true) (by decide +kernel)
  have := C70_gemm halfOps_fits (by norm_num) 9 errA_wf errA_wf errA_wf errA_square (Mat.TransSafe_ff _ _)
    errA_filled errA_filled h
  refine ⟨C', this.1, fun i hi j hj => (this.2.2 i hi j hj).trans (le_of_eq ?_)⟩
  have e : (if false = true then errA.nRows else errA.nCols) = 3 := by decide +kernel
  rw [e]
  norm_num

/-- A solve from the right with a right-hand side that has low-rank blocks. -/
example : ∃ X, Mat.trsm halfOps 9 errA errA .upper .right = .ok X ∧
    ∀ i < 3, ∀ j < 3, |∑ l ∈ range 3, X.entry i l * errA.triEntry .upper false l j - errA.entry i j| ≤ 3 := by
  obtain ⟨X, h, -⟩ := okAnd_spec (x := Mat.trsm (halfOps.checked (1/2)) 9 errA errA .upper .right)
    (P := fun _ => true) (by decide +kernel)
  have := C70_trsm halfOps_fits (by norm_num) 9 errA_wf errA_wf errA_square errA_luFits.diagSquare
    ⟨rfl, fun i hi j hj => by interval_cases i <;> interval_cases j <;> trivial⟩ (by decide +kernel)
    errA_filled errA_filled h
  have e : errA.nRows = 3 := by decide +kernel
  refine ⟨X, this.1, fun i hi j hj => ?_⟩
  have t := this.2.2 i hi j hj
  rw [e] at t
  refine le_trans t (le_of_eq ?_)
  norm_num

end Verif
