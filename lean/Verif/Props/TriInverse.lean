import Verif.Props.TriTotal

/-
C29: triangular solves have one solution only, so solving undoes multiplying.
-/

namespace Verif
open Finset

variable {R : Type}

/-- A lower triangle without zeros on the diagonal is injective. -/
theorem lower_inj [Field R] {n : Nat} {T : Nat → Nat → R} (h0 : ∀ i < n, ∀ l < n, i < l → T i l = 0)
    (hd : ∀ i < n, T i i ≠ 0) {f : Nat → R} (h : ∀ i < n, ∑ l ∈ range n, T i l * f l = 0) :
    ∀ i < n, f i = 0 := by
  intro i
  induction i using Nat.strong_induction_on with
  | _ i ih =>
    intro hi
    have := h i hi
    rw [sum_eq_single_of_mem i (mem_range.2 hi) (fun l hl hne => by
      rcases Nat.lt_or_gt_of_ne hne with h1 | h1
      · rw [ih l h1 (mem_range.1 hl), mul_zero]
      · rw [h0 i hi l (mem_range.1 hl) h1, zero_mul])] at this
    exact (mul_eq_zero.1 this).resolve_left (hd i hi)

/-- So is an upper triangle. -/
theorem upper_inj [Field R] {n : Nat} {T : Nat → Nat → R} (h0 : ∀ i < n, ∀ l < n, l < i → T i l = 0)
    (hd : ∀ i < n, T i i ≠ 0) {f : Nat → R} (h : ∀ i < n, ∑ l ∈ range n, T i l * f l = 0) :
    ∀ i < n, f i = 0 := by
  have key : ∀ d, ∀ i < n, n - i = d → f i = 0 := by
    intro d
    induction d using Nat.strong_induction_on with
    | _ d ih =>
      intro i hi e
      have := h i hi
      rw [sum_eq_single_of_mem i (mem_range.2 hi) (fun l hl hne => by
        have hl := mem_range.1 hl
        rcases Nat.lt_or_gt_of_ne hne with h1 | h1
        · rw [h0 i hi l hl h1, zero_mul]
        · rw [ih (n - l) (by omega) l hl rfl, mul_zero])] at this
      exact (mul_eq_zero.1 this).resolve_left (hd i hi)
  exact fun i hi => key _ i hi rfl

/-- The triangles used by `trsm`: the lower one has a unit diagonal, the upper one
the diagonal of `A`. -/
theorem triEntry_inj [Field R] {A : Mat R} {uplo : Uplo} (hz : A.DiagNonzero uplo) {f : Nat → R}
    (tr : Bool) (h : ∀ i < A.nRows, ∑ l ∈ range A.nRows,
      (if tr then A.triEntry uplo (decide (uplo = .lower)) l i
        else A.triEntry uplo (decide (uplo = .lower)) i l) * f l = 0) : ∀ i < A.nRows, f i = 0 := by
  have hd : ∀ i < A.nRows, A.triEntry uplo (decide (uplo = .lower)) i i ≠ 0 := by
    intro i hi
    cases uplo
    · simpa [Mat.triEntry] using hz rfl i hi
    · simp [Mat.triEntry]
  cases uplo <;> cases tr
  · exact upper_inj (fun i _ l _ hl => by simp [Mat.triEntry, Nat.ne_of_gt hl, Nat.not_lt_of_gt hl]) hd h
  · exact lower_inj (T := fun i l => A.triEntry .upper false l i)
      (fun i _ l _ hl => by simp [Mat.triEntry, Nat.ne_of_gt hl, Nat.not_lt_of_gt hl]) hd h
  · exact lower_inj (fun i _ l _ hl => by simp [Mat.triEntry, Nat.ne_of_lt hl, Nat.not_lt_of_gt hl]) hd h
  · exact upper_inj (T := fun i l => A.triEntry .lower true l i)
      (fun i _ l _ hl => by simp [Mat.triEntry, Nat.ne_of_lt hl, Nat.not_lt_of_gt hl]) hd h

/-- C29: a triangular system has one solution only: two matrices with the same
product with the triangle of `A` have the same entries.  (The upper triangle must
not have a zero on its diagonal.) -/
theorem C29_unique [Field R] {A X Y : Mat R} {side : Side} {uplo : Uplo} {m n : Nat}
    (hz : A.DiagNonzero uplo) (hn : A.nRows = side.pick m n)
    (h : ∀ i < m, ∀ j < n,
      Mat.sideProd side A.nRows (A.triEntry uplo (decide (uplo = .lower))) X i j =
        Mat.sideProd side A.nRows (A.triEntry uplo (decide (uplo = .lower))) Y i j) :
    ∀ i < m, ∀ j < n, X.entry i j = Y.entry i j := by
  intro i hi j hj
  rw [← sub_eq_zero]
  cases side with
  | left =>
    refine triEntry_inj hz (f := fun l => X.entry l j - Y.entry l j) false (fun k hk => ?_) i (by rw [hn]; exact hi)
    have := h k (by rw [hn] at hk; exact hk) j hj
    simp only [Mat.sideProd] at this
    simp only [mul_sub, sum_sub_distrib, sub_eq_zero]
    exact this
  | right =>
    refine triEntry_inj hz (f := fun l => X.entry i l - Y.entry i l) true (fun k hk => ?_) j (by rw [hn]; exact hj)
    have := h i hi k (by rw [hn] at hk; exact hk)
    simp only [Mat.sideProd] at this
    simp only [mul_sub, sum_sub_distrib, sub_eq_zero, if_true]
    simpa only [mul_comm] using this

theorem sideProd_scale [CommRing R] (side : Side) (n : Nat) (T : Nat → Nat → R) (X Y : Mat R) (α : R)
    {p q : Nat} (hn : n = side.pick p q) (h : ∀ i < p, ∀ j < q, Y.entry i j = α * X.entry i j) :
    ∀ i < p, ∀ j < q, Mat.sideProd side n T Y i j = α * Mat.sideProd side n T X i j := by
  intro i hi j hj
  cases side with
  | left =>
    simp only [Mat.sideProd, mul_sum]
    refine sum_congr rfl fun l hl => ?_
    rw [h l (by have := mem_range.1 hl; rw [hn] at this; exact this) j hj]; ring
  | right =>
    simp only [Mat.sideProd, mul_sum]
    refine sum_congr rfl fun l hl => ?_
    rw [h i hi l (by have := mem_range.1 hl; rw [hn] at this; exact this)]; ring

/-- C29: `trsm` inverts `trmm`: multiplying `B` by the triangle of `A` and `alpha`
and solving with the same triangle gives `alpha * B`, entry by entry.  Either the
low-rank operations lose nothing or all entries of `B` are in dense blocks. -/
theorem C29_trsm_inverts_trmm [Field R] [DecidableEq R] {o : LrOps R} (hf : o.Fits False)
    (fuel fuel' : Nat) {A B M Y : Mat R} {side : Side} {uplo : Uplo} {α : R} (hA : A.WF) (hB : B.WF)
    (hBs : B.Square) (hD : A.DiagSquare) (hz : A.DiagNonzero uplo)
    (he : o.Exact False ∨ ∀ i < B.nRows, ∀ j < B.nCols, B.denseAt i j)
    (h1 : Mat.trmm o fuel A B side uplo false (decide (uplo = .lower)) α = .ok M)
    (h2 : Mat.trsm o fuel' A M uplo side = .ok Y) :
    ∀ i < B.nRows, ∀ j < B.nCols, Y.EntryIs i j (α * B.entry i j) := by
  have he' : ∀ i < B.nRows, ∀ j < B.nCols, B.denseAt i j ∨ o.Exact False := fun i hi j hj =>
    he.elim Or.inr fun h => Or.inl (h i hi j hj)
  obtain ⟨f1, f2⟩ := Mat.trmmWith_fits (Mat.gemmBoth_ok hf fuel).1 fuel A B M hA hB hBs hD h1
  have P := Mat.trmmWith_ok (Mat.gemmBoth_ok hf fuel).1 fuel A B M hA hB hBs hD f1 f2 h1
  have dd := P.shape.dims hB
  have S := C29_trsm hf fuel' hA P.wf P.sqr hD (f1.shape P.shape) (by rw [dd.1, dd.2]; exact f2) h2
  have K := C29_trsm_after_trmm hf fuel fuel' hA hB hBs hD h1 h2
  have U : ∀ i < B.nRows, ∀ j < B.nCols, Y.entry i j = ((⟨B.nRows, B.nCols, fun i j => α * B.entry i j⟩ : Dense R)).val i j := by
    refine C29_unique (Y := .dense ⟨B.nRows, B.nCols, fun i j => α * B.entry i j⟩) hz f2 fun i hi j hj => ?_
    rw [K i hi j hj (he' i hi j hj)]
    exact (sideProd_scale side A.nRows _ B _ α f2 (fun i _ j _ => rfl) i hi j hj).symm
  intro i hi j hj
  rw [Mat.entryIs_iff _ S.1]
  exact ⟨by rw [S.2.2.2.1, dd.1]; exact hi, by rw [S.2.2.2.2.1, dd.2]; exact hj, (U i hi j hj).symm⟩

/-- C29: and `trmm` inverts `trsm`. -/
theorem C29_trmm_inverts_trsm [Field R] [DecidableEq R] {o : LrOps R} (hf : o.Fits False)
    (fuel fuel' : Nat) {A B X M : Mat R} {side : Side} {uplo : Uplo} {α : R} (hA : A.WF) (hB : B.WF)
    (hBs : B.Square) (hD : A.DiagSquare) (hT : Mat.TriFits side A B)
    (hn : A.nRows = side.pick B.nRows B.nCols)
    (h1 : Mat.trsm o fuel A B uplo side = .ok X)
    (h2 : Mat.trmm o fuel' A X side uplo false (decide (uplo = .lower)) α = .ok M) :
    ∀ i < B.nRows, ∀ j < B.nCols, (B.denseAt i j ∨ o.Exact False) →
      M.EntryIs i j (α * B.entry i j) := by
  intro i hi j hj hP
  have S := C29_trsm hf fuel hA hB hBs hD hT hn h1
  have P := C28_trmm hf fuel' hA S.1 S.2.1 hD h2
  have := P.2.2.2.2.2 i (by rw [S.2.2.2.1]; exact hi) j (by rw [S.2.2.2.2.1]; exact hj)
    (by rwa [S.2.2.1.denseAt hB hi hj])
  simp only [Bool.false_eq_true, if_false] at this
  rwa [← S.2.2.2.2.2 i hi j hj hP]

/-- C29: the solution computed by `trsm` is the only one: whatever matrix solves
the triangular system has the entries of the result. -/
theorem C29_trsm_only [Field R] [DecidableEq R] {o : LrOps R} (hf : o.Fits False) (fuel : Nat)
    {A B X : Mat R} {side : Side} {uplo : Uplo} (hA : A.WF) (hB : B.WF) (hBs : B.Square)
    (hD : A.DiagSquare) (hT : Mat.TriFits side A B) (hn : A.nRows = side.pick B.nRows B.nCols)
    (hz : A.DiagNonzero uplo) (he : o.Exact False ∨ ∀ i < B.nRows, ∀ j < B.nCols, B.denseAt i j)
    (h : Mat.trsm o fuel A B uplo side = .ok X) (Z : Mat R)
    (hZ : ∀ i < B.nRows, ∀ j < B.nCols,
      Mat.sideProd side A.nRows (A.triEntry uplo (decide (uplo = .lower))) Z i j = B.entry i j) :
    ∀ i < B.nRows, ∀ j < B.nCols, X.EntryIs i j (Z.entry i j) := by
  have S := C29_trsm hf fuel hA hB hBs hD hT hn h
  have U := C29_unique (X := X) (Y := Z) hz hn fun i hi j hj => by
    rw [S.2.2.2.2.2 i hi j hj (he.elim Or.inr fun h => Or.inl (h i hi j hj)), hZ i hi j hj]
  intro i hi j hj
  rw [Mat.entryIs_iff _ S.1]
  exact ⟨by rw [S.2.2.2.1]; exact hi, by rw [S.2.2.2.2.1]; exact hj, (U i hi j hj).symm⟩

/-- C29: a nested matrix with low-rank blocks, multiplied and solved from the right. -/
example : ∃ M Y, Mat.trmm (exactOps ℚ) 13 domA domA .right .upper false false 5 = .ok M ∧
    Mat.trsm (exactOps ℚ) 14 domA M .upper .right = .ok Y ∧
    ∀ i < 4, ∀ j < 4, Y.EntryIs i j (5 * domA.entry i j) := by
  have e0 : domA.nRows = 4 := by decide +kernel
  have e1 : domA.nCols = 4 := by decide +kernel
  obtain ⟨M, h1, h2⟩ := okAnd_spec
    (x := Mat.trmm (exactOps ℚ) 13 domA domA .right .upper false false 5)
    (P := fun M => okAnd (Mat.trsm (exactOps ℚ) 14 domA M .upper .right) (fun _ => true))
    (by decide +kernel)
  obtain ⟨Y, h2, -⟩ := okAnd_spec h2
  have := C29_trsm_inverts_trmm exactOps_fits 13 14 domA_regular.wf domA_regular.wf domA_square
    domA_lu.luFits.diagSquare (fun _ => by
      show ∀ i < domA.nRows, domA.entry i i ≠ 0
      decide +kernel) (Or.inl exactOps_exact) h1 h2
  rw [e0, e1] at this
  exact ⟨M, Y, h1, h2, this⟩

end Verif
