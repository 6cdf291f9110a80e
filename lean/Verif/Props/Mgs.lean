import Verif.Lemmas.MgsLoop
import Verif.Lemmas.MgsDense
import Verif.Props.Qr
import Verif.Props.Gemm
import Mathlib.Tactic.IntervalCases

/-!
C34: Gram-Schmidt QR of block matrices and of dense matrices.
-/

set_option linter.unusedSectionVars false

namespace Verif
open Finset

variable {R : Type} [CommRing R] [DecidableEq R]

namespace Mat

section
variable {L : Lapack R} {o : LrOps R} {ex : Prop} {p n : Nat} {A Q Rb Q' R' : Nat → Nat → Mat R}

theorem MgsPost.qdims (hI : MgsInput ex p n A Q Rb) (P : MgsPost ex p n A Q Rb Q' R') {i j : Nat} (hi : i < p) (hj : j < n) :
    (Q' i j).nRows = (A i 0).nRows ∧ (Q' i j).nCols = (A 0 j).nCols := by
  have d := (P.q i hi j hj).2.dims (hI.q i hi j hj).1.wf
  rw [d.1, d.2, (hI.q i hi j hj).2.1, (hI.q i hi j hj).2.2]
  exact (hI.awf.2.2 i hi j hj).2

theorem MgsPost.rdims (hI : MgsInput ex p n A Q Rb) (P : MgsPost ex p n A Q Rb Q' R') {i j : Nat} (hi : i < n) (hj : j < n) :
    (R' i j).nRows = (A 0 i).nCols ∧ (R' i j).nCols = (A 0 j).nCols := by
  have d := (P.r i hi j hj).2.dims (hI.r i hi j hj).1.wf
  rw [d.1, d.2]
  exact (hI.r i hi j hj).2

/-- **C34**, factorization: the input is `Q` times the upper triangle of `R`, for any
numbers of blocks, any kinds of blocks and nested diagonal blocks.  (What `R` holds below its
diagonal does not matter; see `C34_lower` for what it is.) -/
theorem C34_factor (hL : L.Qr) (hf : o.Fits False) (hex : ex → o.Exact False) {gfuel fuel qp qn rr rc : Nat}
    (hI : MgsInput ex p n A Q Rb) (h : mgsHier L o gfuel fuel p n A qp qn Q rr rc Rb = .ok (Q', R')) :
    ∀ x < (Mat.hier p n A).nRows, ∀ y < (Mat.hier p n A).nCols,
      (Mat.hier p n A).entry x y =
        ∑ c ∈ range (y + 1), (Mat.hier p n Q').entry x c * (Mat.hier n n R').entry c y := by
  obtain ⟨-, -, -, -, hm⟩ := mgsHier_spec hL hf hex gfuel fuel _ _ _ _ _ _ _ _ _ _ h
  have P := hm hI
  obtain ⟨hp, hn, hw⟩ := hI.awf
  intro x hx y hy
  rw [nRows_hier] at hx
  rw [nCols_hier] at hy
  obtain ⟨i, hi, u, hu, rfl⟩ := exists_block _ _ x hx
  obtain ⟨j, hj, v, hv, rfl⟩ := exists_block _ _ y hy
  rw [entry_block hi hj hu hv]
  refine Eq.trans ?_ (row_fac (q := fun l c => (Q' i l).entry u c) (w := fun j => (A 0 j).nCols) (fun l hl c hc =>
    entry_at (h := fun i => (A i 0).nRows) (w := fun j => (A 0 j).nCols) (fun a ha => (P.qdims hI ha hn).1)
      (fun b hb => (P.qdims hI hp hb).2) hi hl hu hc) (fun a ha => (P.rdims hI ha hn).1)
    (fun b hb => (P.rdims hI hn hb).2) hj hv).symm
  exact P.fac i hi j hj u (by rw [(hw i hi j hj).2.1]; exact hu) v (by rw [(hw i hi j hj).2.2]; exact hv)

/-- **C34**, triangular: an entry of `R` below the diagonal is zero or was not changed. -/
theorem C34_lower (hL : L.Qr) (hf : o.Fits False) (hex : ex → o.Exact False) {gfuel fuel qp qn rr rc : Nat}
    (hI : MgsInput ex p n A Q Rb) (h : mgsHier L o gfuel fuel p n A qp qn Q rr rc Rb = .ok (Q', R')) :
    ∀ c < (Mat.hier p n A).nCols, ∀ y < c,
      (Mat.hier n n R').entry c y = 0 ∨ (Mat.hier n n R').entry c y = (Mat.hier n n Rb).entry c y := by
  obtain ⟨-, -, -, -, hm⟩ := mgsHier_spec hL hf hex gfuel fuel _ _ _ _ _ _ _ _ _ _ h
  have P := hm hI
  obtain ⟨hp, hn, hw⟩ := hI.awf
  intro c hc y hy
  rw [nCols_hier] at hc
  exact low_grid (w := fun j => (A 0 j).nCols) (fun a ha => (hI.r a ha 0 hn).2.1) (fun b hb => (hI.r 0 hn b hb).2.2)
    (fun a ha => (P.rdims hI ha hn).1) (fun b hb => (P.rdims hI hn hb).2) P.lower P.diag hc hy

/-- **C34**: if `R` is zero below its diagonal on entry, it is so on exit, and the product
`Q*R` is the input. -/
theorem C34_q_times_r (hL : L.Qr) (hf : o.Fits False) (hex : ex → o.Exact False) {gfuel fuel qp qn rr rc : Nat}
    (hI : MgsInput ex p n A Q Rb) (h : mgsHier L o gfuel fuel p n A qp qn Q rr rc Rb = .ok (Q', R'))
    (h0 : ∀ c < (Mat.hier p n A).nCols, ∀ y < c, (Mat.hier n n Rb).entry c y = 0) :
    (∀ c < (Mat.hier p n A).nCols, ∀ y < c, (Mat.hier n n R').entry c y = 0) ∧
    ∀ x < (Mat.hier p n A).nRows, ∀ y < (Mat.hier p n A).nCols,
      ∑ c ∈ range (Mat.hier p n A).nCols, (Mat.hier p n Q').entry x c * (Mat.hier n n R').entry c y =
        (Mat.hier p n A).entry x y := by
  have low : ∀ c < (Mat.hier p n A).nCols, ∀ y < c, (Mat.hier n n R').entry c y = 0 := fun c hc y hy =>
    (C34_lower hL hf hex hI h c hc y hy).elim id (fun e => e.trans (h0 c hc y hy))
  refine ⟨low, fun x hx y hy => ?_⟩
  rw [C34_factor hL hf hex hI h x hx y hy, sum_upper hy (fun c hc hyc => by rw [low c hc y hyc, mul_zero])]

/-- **C34**, sizes: `Q` keeps the block structure it had, and so does `R`; all blocks are
consistent.  The numbers of blocks must agree. -/
theorem C34_sizes (hL : L.Qr) (hf : o.Fits False) (hex : ex → o.Exact False) {gfuel fuel qp qn rr rc : Nat}
    (hI : MgsInput ex p n A Q Rb) (h : mgsHier L o gfuel fuel p n A qp qn Q rr rc Rb = .ok (Q', R')) :
    (qp = p ∧ qn = n ∧ rr = n ∧ rc = n) ∧
    (Mat.hier p n Q').WF ∧ (Mat.hier p n Q').SameShape (Mat.hier p n Q) ∧
    (Mat.hier n n R').WF ∧ (Mat.hier n n R').SameShape (Mat.hier n n Rb) := by
  obtain ⟨e1, e2, e3, e4, hm⟩ := mgsHier_spec hL hf hex gfuel fuel _ _ _ _ _ _ _ _ _ _ h
  have P := hm hI
  obtain ⟨hp, hn, hw⟩ := hI.awf
  refine ⟨⟨e1, e2, e3, e4⟩, ⟨hp, hn, fun i hi j hj => ⟨(P.q i hi j hj).1.wf, ?_, ?_⟩⟩,
    ⟨rfl, rfl, fun i hi j hj => (P.q i hi j hj).2.symm⟩, ⟨hn, hn, fun i hi j hj => ⟨(P.r i hi j hj).1.wf, ?_, ?_⟩⟩,
    ⟨rfl, rfl, fun i hi j hj => (P.r i hi j hj).2.symm⟩⟩
  · rw [(P.qdims hI hi hj).1, (P.qdims hI hi hn).1]
  · rw [(P.qdims hI hi hj).2, (P.qdims hI hp hj).2]
  · rw [(P.rdims hI hi hj).1, (P.rdims hI hi hn).1]
  · rw [(P.rdims hI hi hj).2, (P.rdims hI hn hj).2]

end

/-! ### a concrete case -/

/-- Two block columns; the first consists of a nested and a low-rank block. -/
def mgsA : Nat → Nat → Mat ℤ := fun i j =>
  if j = 1 then .dense ⟨2, 2, fun a b => 5 + i - 2 * a + b * a⟩
  else if i = 0 then .hier 2 2 (fun a b => .dense ⟨1, 1, fun _ _ => 1 + a + 3 * b⟩)
  else .lowRank ⟨2, 2, 1, 0, ⟨2, 1, fun a _ => a + 1⟩, ⟨1, 1, fun _ _ => 2⟩, ⟨1, 2, fun _ b => 3 * b + 1⟩⟩

/-- `R` with a nested first diagonal block. -/
def mgsR : Nat → Nat → Mat ℤ := fun i j =>
  if i = 0 ∧ j = 0 then .hier 2 2 (fun _ _ => .dense (Dense.zero 1 1)) else .dense (Dense.zero 2 2)

/-- The factorization `A = A * I`. -/
def copyQr : Lapack ℤ where
  qr A _ := (A.val, fun i j => if i = j then 1 else 0)
  rq A _ := (A.val, A.val)
  svd A := (A.val, fun _ => 0, A.val)
  truncRank _ _ := 0
  geqp3 A _ := (0, A.val, A.val)
  random _ _ _ := fun _ _ => 0

theorem copyQr_qr : copyQr.Qr where
  factor := by
    intro A _ i _ j hj
    simp only [copyQr]
    rw [Finset.sum_eq_single j]
    · simp
    · intro b _ hb
      simp [hb]
    · intro h
      exact absurd (Finset.mem_range.2 hj) h
  upper := by
    intro A _ i _ j hji
    exact if_neg (by omega)

theorem mgsA_even {i j : Nat} (hi : i < 2) (hj : j < 2) :
    (mgsA i j).EvenBlock True ∧ (mgsA i j).nRows = 2 ∧ (mgsA i j).nCols = 2 := by
  interval_cases i <;> interval_cases j
  · refine ⟨⟨⟨by decide, by decide, fun a _ b _ => ⟨trivial, rfl, rfl⟩⟩, fun a _ b _ => trivial, Or.inr trivial,
      fun a ha b hb => ?_⟩, rfl, rfl⟩
    refine ⟨trivial, ?_, ?_⟩ <;> interval_cases a <;> interval_cases b <;> decide
  · exact ⟨EvenBlock.dense _, rfl, rfl⟩
  · exact ⟨⟨⟨rfl, rfl, rfl, rfl, rfl⟩, rfl, Or.inr trivial, trivial⟩, rfl, rfl⟩
  · exact ⟨EvenBlock.dense _, rfl, rfl⟩

theorem mgsR_even {i j : Nat} (hi : i < 2) (hj : j < 2) :
    (mgsR i j).EvenBlock True ∧ (mgsR i j).nRows = 2 ∧ (mgsR i j).nCols = 2 := by
  interval_cases i <;> interval_cases j
  · refine ⟨⟨⟨by decide, by decide, fun a _ b _ => ⟨trivial, rfl, rfl⟩⟩, fun a _ b _ => trivial, Or.inr trivial,
      fun a ha b hb => ?_⟩, rfl, rfl⟩
    refine ⟨trivial, ?_, ?_⟩ <;> interval_cases a <;> interval_cases b <;> decide
  · exact ⟨EvenBlock.dense _, rfl, rfl⟩
  · exact ⟨EvenBlock.dense _, rfl, rfl⟩
  · exact ⟨EvenBlock.dense _, rfl, rfl⟩

/-- The hypotheses of the theorems above hold for these arguments, and the call
succeeds. -/
example : copyQr.Qr ∧ (exactOps ℤ).Fits False ∧ (True → (exactOps ℤ).Exact False) ∧
    MgsInput True 2 2 mgsA mgsA mgsR ∧
    (∀ c < (Mat.hier 2 2 mgsA).nCols, ∀ y < c, (Mat.hier 2 2 mgsR).entry c y = 0) ∧
    ∃ Q' R', mgsHier copyQr (exactOps ℤ) 5 5 2 2 mgsA 2 2 mgsA 2 2 mgsR = .ok (Q', R') ∧
      (Mat.hier 2 2 Q').entry 3 1 = -104 := by
  refine ⟨copyQr_qr, exactOps_fits, fun _ => exactOps_exact, ⟨⟨by decide, by decide, fun i hi j hj => ?_⟩,
    fun i hi j hj => (mgsA_even hi hj).1, fun i hi j hj => ⟨(mgsA_even hi hj).1, rfl, rfl⟩, fun i hi j hj => ?_,
    fun _ _ _ _ _ => SameShape.refl _⟩, fun c hc y hy => ?_, ?_⟩
  · rw [(mgsA_even hi hj).2.1, (mgsA_even hi hj).2.2, (mgsA_even hi (j := 0) (by omega)).2.1,
      (mgsA_even (i := 0) (by omega) hj).2.2]
    exact ⟨(mgsA_even hi hj).1.wf, rfl, rfl⟩
  · rw [(mgsR_even hi hj).2.1, (mgsR_even hi hj).2.2, (mgsA_even (i := 0) (by omega) hi).2.2,
      (mgsA_even (i := 0) (by omega) hj).2.2]
    exact ⟨(mgsR_even hi hj).1, rfl, rfl⟩
  · have hc : c < 4 := hc
    interval_cases c <;> interval_cases y <;> decide
  · obtain ⟨x, h1, h2⟩ := okAnd_spec (x := mgsHier copyQr (exactOps ℤ) 5 5 2 2 mgsA 2 2 mgsA 2 2 mgsR)
      (P := fun x => decide ((Mat.hier 2 2 x.1).entry 3 1 = -104)) (by decide +kernel)
    exact ⟨x.1, x.2, h1, of_decide_eq_true h2⟩

end Mat

/-! ### dense matrices -/

/-- **C34**, dense matrices: `mgs_qr` yields orthonormal columns in `Q` and a triangle in
`R` with positive diagonal whose product is the input; below the diagonal `R` is
not written. -/
theorem C34_dense {A Q Rm : Dense ℝ} {x : Dense ℝ × Dense ℝ} (h : Dense.mgsQr A Q Rm = .ok x) :
    (x.1.rows = A.rows ∧ x.1.cols = A.cols ∧ x.2.rows = A.cols ∧ x.2.cols = A.cols) ∧
    OrthoCols A.rows A.cols x.1.val ∧
    (∀ i < A.rows, ∀ j < A.cols, A.val i j = ∑ l ∈ range (j + 1), x.1.val i l * x.2.val l j) ∧
    (∀ i < A.cols, 0 < x.2.val i i) ∧ ∀ i j, j < i → x.2.val i j = Rm.val i j := by
  obtain ⟨d, P⟩ := Dense.mgsQr_post h
  exact ⟨d, P.orth, P.done, P.pos, P.low⟩

/-- **C34**, dense matrices: `mgs_qr` succeeds on every matrix with linearly independent
columns. -/
theorem C34_dense_returns {A Q Rm : Dense ℝ} (hq : Q.rows = A.rows ∧ Q.cols = A.cols)
    (hr : Rm.rows = A.cols ∧ Rm.cols = A.cols)
    (hA : ∀ c : Nat → ℝ, (∀ i < A.rows, ∑ k ∈ range A.cols, A.val i k * c k = 0) → ∀ k < A.cols, c k = 0) :
    ∃ x, Dense.mgsQr A Q Rm = .ok x :=
  Dense.mgsQr_total hq hr hA

/-- The identity has linearly independent columns. -/
example : ∃ x, Dense.mgsQr (Dense.ident 3 2) (Dense.zero 3 2) (Dense.zero 2 2) = .ok x := by
  refine C34_dense_returns ⟨rfl, rfl⟩ ⟨rfl, rfl⟩ (fun c h k hk => ?_)
  have hk : k < 2 := hk
  have := h k (show k < 3 by omega)
  simp only [Dense.ident] at this
  rw [Finset.sum_eq_single k] at this
  · simpa using this
  · intro b _ hb
    simp [Ne.symm hb]
  · intro h
    exact absurd (Finset.mem_range.2 hk) h

end Verif
