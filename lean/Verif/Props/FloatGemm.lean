import Verif.Lemmas.FloatReturns
import Verif.Props.GemmTotal
import Mathlib.Data.Int.Log
import Mathlib.Algebra.Order.Round

/-
C75: products computed in floating-point arithmetic.
-/

namespace Verif
open Finset

variable {F : FlBlas} {u : ℝ}

namespace Mat

theorem lag_of_leaves {A B : Mat ℝ} (hA : A.DenseLeaves) (hB : B.DenseLeaves) :
    A.lag + B.lag + 3 = 3 := by rw [lag_leaves hA, lag_leaves hB]

theorem Nonneg.entry {A : Mat ℝ} (hA : A.WF) (h : A.Nonneg) {i j : Nat} (hi : i < A.nRows)
    (hj : j < A.nCols) : A.abs.entry i j = A.entry i j ∧ 0 ≤ A.entry i j := by
  induction A generalizing i j with
  | dense d => exact ⟨abs_of_nonneg (h i hi j hj), h i hi j hj⟩
  | lowRank l =>
    obtain ⟨hU, hS, hV⟩ := h
    obtain ⟨w1, w2, w3, w4, w5⟩ := hA
    have hi' : i < l.U.rows := by rw [w1]; exact hi
    have hj' : j < l.V.cols := by rw [w5]; exact hj
    have key : ∀ b ∈ range l.S.cols, ∀ a ∈ range l.S.rows,
        0 ≤ l.U.val i a ∧ 0 ≤ l.S.val a b ∧ 0 ≤ l.V.val b j := by
      intro b hb a ha
      rw [mem_range] at hb ha
      exact ⟨hU i hi' a (by omega), hS a ha b hb, hV b (by omega) j hj'⟩
    have hv : ∀ b ∈ range l.S.cols, 0 ≤ l.V.val b j := fun b hb =>
      hV b (by rw [w4]; simpa using hb) j hj'
    constructor
    · simp only [Mat.entry, Mat.abs, LowRank.entry, LowRank.abs, Dense.abs]
      refine Finset.sum_congr rfl (fun b hb => ?_)
      rw [abs_of_nonneg (hv b hb)]
      congr 1
      refine Finset.sum_congr rfl (fun a ha => ?_)
      obtain ⟨k1, k2, k3⟩ := key b hb a ha
      rw [abs_of_nonneg k1, abs_of_nonneg k2]
    · refine Finset.sum_nonneg (fun b hb => mul_nonneg (Finset.sum_nonneg (fun a ha => ?_)) (hv b hb))
      exact mul_nonneg (key b hb a ha).1 (key b hb a ha).2.1
  | empty m n => exact ⟨rfl, le_rfl⟩
  | hier br bc blk ih =>
    have hA' := hA
    simp only [WF] at hA'
    rw [nRows_hier] at hi
    rw [nCols_hier] at hj
    obtain ⟨p, hp, r, hr, rfl⟩ := exists_block _ _ _ hi
    obtain ⟨q, hq, s, hs, rfl⟩ := exists_block _ _ _ hj
    have e := entry_block (blk := fun i j => (blk i j).abs) (r := r) (s := s) hp hq
      (by simpa using hr) (by simpa using hs)
    simp only [nRows_abs, nCols_abs] at e
    simp only [abs]
    rw [e, entry_block hp hq hr hs]
    exact ih p q (hA'.2.2 p hp q hq).1 (h p hp q hq) (by rw [(hA'.2.2 p hp q hq).2.1]; exact hr)
      (by rw [(hA'.2.2 p hp q hq).2.2]; exact hs)

end Mat

/-- C75.  A product into a target with dense leaves, every BLAS call and every scaling
rounding with unit roundoff `u`: each entry of the result differs from
`alpha op(A) op(B) + beta C` by at most `(1+u)^(k (3 + extra)) - 1` times the same
expression with absolute values, `k` being the inner dimension and `extra` what low-rank
blocks of `A` and `B` add. -/
theorem C75_product (hF : F.Sound u) (fuel : Nat) {A B C C' : Mat ℝ} {α β : ℝ} {ta tb : Bool}
    (hA : A.WF) (hB : B.WF) (hC : C.WF) (hd : C.DenseLeaves) (ht : Mat.TransSafe ta tb A B)
    (fA : A.Filled) (fB : B.Filled) (h : F.gemm fuel A B C α β ta tb = .ok C') :
    C'.WF ∧ C.SameShape C' ∧ ∀ i < C.nRows, ∀ j < C.nCols,
      |C'.entry i j - (α * ∑ l ∈ range (if ta then A.nRows else A.nCols),
          (if ta then A.entry l i else A.entry i l) * (if tb then B.entry j l else B.entry l j) +
          β * C.entry i j)| ≤
        ((1 + u) ^ ((if ta then A.nRows else A.nCols) * (A.lag + B.lag + 3)) - 1) *
        (|α| * ∑ l ∈ range (if ta then A.nRows else A.nCols),
          (if ta then A.abs.entry l i else A.abs.entry i l) *
          (if tb then B.abs.entry j l else B.abs.entry l j) + |β| * |C.entry i j|) := by
  have hi : Mat.Innr ta tb A B := Mat.Wide.innr (by cases ta; exacts [fA.1, fA.2])
    (by cases tb; exacts [fB.2, fB.1])
  obtain ⟨d, P⟩ := (Mat.gemmBoth_fl hF fuel).1 _ A B C α β ta tb C' hA hB hC hd ht hi le_rfl h
  refine ⟨P.wf, P.shape, fun i hi j hj => ?_⟩
  have := (P.ent i hi j hj).1
  simp only [Mat.prodEntry, Mat.opCols_abs] at this
  exact this

/-- C75 into a dense matrix. -/
theorem C75_product_dense (hF : F.Sound u) (fuel : Nat) {A B C' : Mat ℝ} {c : Dense ℝ} {α β : ℝ}
    {ta tb : Bool} (hA : A.WF) (hB : B.WF) (ht : Mat.TransSafe ta tb A B)
    (fA : A.Filled) (fB : B.Filled) (h : F.gemm fuel A B (.dense c) α β ta tb = .ok C') :
    ∃ d : Dense ℝ, C' = .dense d ∧ d.rows = c.rows ∧ d.cols = c.cols ∧
      ∀ i < c.rows, ∀ j < c.cols,
      |d.val i j - (α * ∑ l ∈ range (if ta then A.nRows else A.nCols),
          (if ta then A.entry l i else A.entry i l) * (if tb then B.entry j l else B.entry l j) +
          β * c.val i j)| ≤
        ((1 + u) ^ ((if ta then A.nRows else A.nCols) * (A.lag + B.lag + 3)) - 1) *
        (|α| * ∑ l ∈ range (if ta then A.nRows else A.nCols),
          (if ta then A.abs.entry l i else A.abs.entry i l) *
          (if tb then B.abs.entry j l else B.abs.entry l j) + |β| * |c.val i j|) := by
  obtain ⟨-, s, e⟩ := C75_product hF fuel hA hB (C := .dense c) trivial trivial ht fA fB h
  cases C' with
  | dense d => exact ⟨d, rfl, s.1.symm, s.2.symm, e⟩
  | _ => exact s.elim

/-- C75 when the operands have no low-rank blocks: the bound of an ordinary matrix product,
whatever the block structures. -/
theorem C75_no_lowrank (hF : F.Sound u) (fuel : Nat) {A B C C' : Mat ℝ} {α β : ℝ} {ta tb : Bool}
    (hA : A.WF) (hB : B.WF) (hC : C.WF) (dA : A.DenseLeaves) (dB : B.DenseLeaves)
    (hd : C.DenseLeaves) (ht : Mat.TransSafe ta tb A B) (fA : A.Filled) (fB : B.Filled)
    (h : F.gemm fuel A B C α β ta tb = .ok C') :
    ∀ i < C.nRows, ∀ j < C.nCols,
      |C'.entry i j - (α * ∑ l ∈ range (if ta then A.nRows else A.nCols),
          (if ta then A.entry l i else A.entry i l) * (if tb then B.entry j l else B.entry l j) +
          β * C.entry i j)| ≤
        ((1 + u) ^ (3 * (if ta then A.nRows else A.nCols)) - 1) *
        (|α| * ∑ l ∈ range (if ta then A.nRows else A.nCols),
          |if ta then A.entry l i else A.entry i l| * |if tb then B.entry j l else B.entry l j| +
          |β| * |C.entry i j|) := by
  obtain ⟨-, -, e⟩ := C75_product hF fuel hA hB hC hd ht fA fB h
  have hn : Mat.Innr ta tb A B := Mat.Wide.innr (by cases ta; exacts [fA.1, fA.2])
    (by cases tb; exacts [fB.2, fB.1])
  obtain ⟨⟨d1, d2, d3⟩, -⟩ := (Mat.gemmBoth_fl hF fuel).1 _ A B C α β ta tb C' hA hB hC hd ht hn le_rfl h
  intro i hi j hj
  have := e i hi j hj
  rw [Mat.lag_of_leaves dA dB, mul_comm _ 3] at this
  convert this using 5 with l hl
  rw [mem_range] at hl
  congr 1
  · cases ta
    · exact (Mat.abs_entry hA dA (by rw [← d1] at hi; exact hi) hl).symm
    · exact (Mat.abs_entry hA dA hl (by rw [← d1] at hi; exact hi)).symm
  · cases tb
    · exact (Mat.abs_entry hB dB (by change _ < B.opRows false; rw [← d2]; cases ta <;> exact hl)
        (by rw [← d3] at hj; exact hj)).symm
    · exact (Mat.abs_entry hB dB (by rw [← d3] at hj; exact hj)
        (by change _ < B.opRows true; rw [← d2]; cases ta <;> exact hl)).symm

/-- The bound in the usual form. -/
theorem roundoff_le {u : ℝ} (u0 : 0 ≤ u) {n : Nat} (h : n * u < 1) :
    (1 + u) ^ n - 1 ≤ n * u / (1 - n * u) := by
  have key : ∀ m : Nat, (1 + u) ^ m * (1 - m * u) ≤ 1 := by
    intro m
    induction m with
    | zero => simp
    | succ m ih =>
      have e : (1 + u) ^ (m + 1) * (1 - ((m + 1 : Nat) : ℝ) * u) =
          (1 + u) ^ m * (1 - m * u) - (1 + u) ^ m * ((m + 1) * u ^ 2) := by
        push_cast
        ring
      have : 0 ≤ (1 + u) ^ m * ((m + 1) * u ^ 2) := by positivity
      linarith
  have h1 : 0 < 1 - n * u := by linarith
  rw [le_div_iff₀ h1, sub_mul]
  linarith [key n]

/-- C75 for matrices whose stored numbers are not negative: the result is accurate to a
relative error of `n u / (1 - n u)`, `n` being the inner dimension times three and what
low-rank blocks add. -/
theorem C75_relative (hF : F.Sound u) (fuel : Nat) {A B C C' : Mat ℝ} {α β : ℝ} {ta tb : Bool}
    (hA : A.WF) (hB : B.WF) (hC : C.WF) (hd : C.DenseLeaves) (ht : Mat.TransSafe ta tb A B)
    (fA : A.Filled) (fB : B.Filled) (nA : A.Nonneg) (nB : B.Nonneg) (nC : C.Nonneg)
    (hα : 0 ≤ α) (hβ : 0 ≤ β)
    (hu : ((if ta then A.nRows else A.nCols) * (A.lag + B.lag + 3) : Nat) * u < 1)
    (h : F.gemm fuel A B C α β ta tb = .ok C') :
    ∀ i < C.nRows, ∀ j < C.nCols, ∃ e : ℝ,
      |e| ≤ ((if ta then A.nRows else A.nCols) * (A.lag + B.lag + 3) : Nat) * u /
        (1 - ((if ta then A.nRows else A.nCols) * (A.lag + B.lag + 3) : Nat) * u) ∧
      C'.entry i j = (α * ∑ l ∈ range (if ta then A.nRows else A.nCols),
          (if ta then A.entry l i else A.entry i l) * (if tb then B.entry j l else B.entry l j) +
          β * C.entry i j) * (1 + e) := by
  obtain ⟨-, -, key⟩ := C75_product hF fuel hA hB hC hd ht fA fB h
  have hn : Mat.Innr ta tb A B := Mat.Wide.innr (by cases ta; exacts [fA.1, fA.2])
    (by cases tb; exacts [fB.2, fB.1])
  obtain ⟨⟨d1, d2, d3⟩, -⟩ := (Mat.gemmBoth_fl hF fuel).1 _ A B C α β ta tb C' hA hB hC hd ht hn le_rfl h
  intro i hi j hj
  have k := key i hi j hj
  generalize hN : ((if ta then A.nRows else A.nCols) * (A.lag + B.lag + 3)) = N at *
  have ec := (Mat.Nonneg.entry hC nC hi hj)
  have es : ∀ l ∈ range (if ta then A.nRows else A.nCols),
      (if ta then A.abs.entry l i else A.abs.entry i l) *
        (if tb then B.abs.entry j l else B.abs.entry l j) =
      (if ta then A.entry l i else A.entry i l) * (if tb then B.entry j l else B.entry l j) ∧
      0 ≤ (if ta then A.entry l i else A.entry i l) * (if tb then B.entry j l else B.entry l j) := by
    intro l hl
    rw [mem_range] at hl
    have ea : (if ta then A.abs.entry l i else A.abs.entry i l) =
        (if ta then A.entry l i else A.entry i l) ∧
        0 ≤ (if ta then A.entry l i else A.entry i l) := by
      cases ta
      · exact Mat.Nonneg.entry hA nA (by rw [← d1] at hi; exact hi) hl
      · exact Mat.Nonneg.entry hA nA hl (by rw [← d1] at hi; exact hi)
    have eb : (if tb then B.abs.entry j l else B.abs.entry l j) =
        (if tb then B.entry j l else B.entry l j) ∧
        0 ≤ (if tb then B.entry j l else B.entry l j) := by
      cases tb
      · exact Mat.Nonneg.entry hB nB (by change _ < B.opRows false; rw [← d2]; cases ta <;> exact hl)
          (by rw [← d3] at hj; exact hj)
      · exact Mat.Nonneg.entry hB nB (by rw [← d3] at hj; exact hj)
          (by change _ < B.opRows true; rw [← d2]; cases ta <;> exact hl)
    exact ⟨by rw [ea.1, eb.1], mul_nonneg ea.2 eb.2⟩
  rw [Finset.sum_congr rfl (fun l hl => (es l hl).1), abs_of_nonneg hα, abs_of_nonneg hβ,
    abs_of_nonneg ec.2] at k
  have p0 : 0 ≤ α * ∑ l ∈ range (if ta then A.nRows else A.nCols),
      (if ta then A.entry l i else A.entry i l) * (if tb then B.entry j l else B.entry l j) +
      β * C.entry i j :=
    add_nonneg (mul_nonneg hα (Finset.sum_nonneg (fun l hl => (es l hl).2))) (mul_nonneg hβ ec.2)
  generalize (α * ∑ l ∈ range (if ta then A.nRows else A.nCols),
      (if ta then A.entry l i else A.entry i l) * (if tb then B.entry j l else B.entry l j) +
      β * C.entry i j) = p at *
  have g := roundoff_le hF.u0 hu
  rcases p0.eq_or_lt with p0 | p0
  · refine ⟨0, ?_, ?_⟩
    · rw [abs_zero]
      have := hF.u0
      exact div_nonneg (by positivity) (by linarith)
    · rw [← p0, mul_zero] at k
      have := abs_nonpos_iff.1 k
      rw [← p0]
      linarith
  · refine ⟨(C'.entry i j - p) / p, ?_, ?_⟩
    · rw [abs_div, abs_of_pos p0, div_le_iff₀ p0]
      exact k.trans (mul_le_mul_of_nonneg_right g p0.le)
    · rw [mul_add, mul_one, mul_div_cancel₀ _ p0.ne']
      ring

/-- C75 for the version returning a new matrix. -/
theorem C75_product_new (hF : F.Sound u) (fuel : Nat) {A B D : Mat ℝ} {α : ℝ} {ta tb : Bool}
    (hA : A.WF) (hB : B.WF) (ht : Mat.TransSafe ta tb A B)
    (fA : A.Filled) (fB : B.Filled) (h : F.gemmNew fuel A B α ta tb = .ok D) :
    D.WF ∧ D.nRows = (if ta then A.nCols else A.nRows) ∧
    D.nCols = (if tb then B.nRows else B.nCols) ∧ ∀ i < D.nRows, ∀ j < D.nCols,
      |D.entry i j - α * ∑ l ∈ range (if ta then A.nRows else A.nCols),
          (if ta then A.entry l i else A.entry i l) * (if tb then B.entry j l else B.entry l j)| ≤
        ((1 + u) ^ ((if ta then A.nRows else A.nCols) * (A.lag + B.lag + 3)) - 1) *
        (|α| * ∑ l ∈ range (if ta then A.nRows else A.nCols),
          (if ta then A.abs.entry l i else A.abs.entry i l) *
          (if tb then B.abs.entry j l else B.abs.entry l j)) := by
  have hn : Mat.Innr ta tb A B := Mat.Wide.innr (by cases ta; exacts [fA.1, fA.2])
    (by cases tb; exacts [fB.2, fB.1])
  have N := (Mat.gemmBoth_fl hF fuel).2 _ A B α ta tb D hA hB ht hn le_rfl h
  refine ⟨N.wf, N.rows, N.cols, fun i hi j hj => ?_⟩
  have := (N.ent i hi j hj).1
  simp only [Mat.prodEntry, Mat.opCols_abs] at this
  exact this

/-! ### which products return -/

/-- C75.  A floating-point product into a target with dense leaves returns exactly if the
same product in exact arithmetic returns, and otherwise fails with the same error; the
operations on low-rank targets do not matter. -/
theorem C75_returns_iff (F : FlBlas) (o : LrOps ℝ) (fuel : Nat) {A B C : Mat ℝ} {α β : ℝ}
    {ta tb : Bool} (hA : A.WF) (hB : B.WF) (hC : C.WF) (hd : C.DenseLeaves) :
    ((∃ C', F.gemm fuel A B C α β ta tb = .ok C') ↔ ∃ C', Mat.gemm o fuel A B C α β ta tb = .ok C') ∧
    ∀ e, F.gemm fuel A B C α β ta tb = .error e ↔ Mat.gemm o fuel A B C α β ta tb = .error e := by
  have := (Mat.gemmBoth_flfit F o fuel).1 A B C C α β ta tb hA.hasBlocks hB.hasBlocks
    ⟨Mat.Shape.refl C, hC.hasBlocks, hd⟩
  simp only [FlBlas.gemm, Mat.gemm]
  rcases this with ⟨x, y, e1, e2, -⟩ | ⟨e, e1, e2⟩
  · rw [e1, e2]
    exact ⟨⟨fun _ => ⟨_, rfl⟩, fun _ => ⟨_, rfl⟩⟩, fun e => ⟨fun h => (nomatch h), fun h => (nomatch h)⟩⟩
  · rw [e1, e2]
    exact ⟨⟨fun ⟨_, h⟩ => (nomatch h), fun ⟨_, h⟩ => (nomatch h)⟩,
      fun e' => ⟨fun h => by cases h; rfl, fun h => by cases h; rfl⟩⟩

/-- C75.  With operands of the same even `b`-by-`b` subdivision and fitting dimensions the
product returns, with the error bound of `C75_product`. -/
theorem C75_regular (hF : F.Sound u) {b : Nat} (hb : 2 ≤ b) {A B C : Mat ℝ} {α β : ℝ} {ta tb : Bool}
    (hA : A.Regular b) (hB : B.Regular b) (hC : C.Regular b) (hd : C.DenseLeaves)
    (ht : Mat.TransSafe ta tb A B) (fA : A.Filled) (fB : B.Filled)
    (h0 : (if ta then A.nCols else A.nRows) = C.nRows)
    (h1 : (if ta then A.nRows else A.nCols) = (if tb then B.nCols else B.nRows))
    (h2 : (if tb then B.nRows else B.nCols) = C.nCols)
    {fuel : Nat} (hfuel : 6 * max A.depth (max B.depth C.depth) + 1 ≤ fuel) :
    ∃ C', F.gemm fuel A B C α β ta tb = .ok C' ∧ C'.WF ∧ C.SameShape C' ∧
      ∀ i < C.nRows, ∀ j < C.nCols,
      |C'.entry i j - (α * ∑ l ∈ range (if ta then A.nRows else A.nCols),
          (if ta then A.entry l i else A.entry i l) * (if tb then B.entry j l else B.entry l j) +
          β * C.entry i j)| ≤
        ((1 + u) ^ ((if ta then A.nRows else A.nCols) * (A.lag + B.lag + 3)) - 1) *
        (|α| * ∑ l ∈ range (if ta then A.nRows else A.nCols),
          (if ta then A.abs.entry l i else A.abs.entry i l) *
          (if tb then B.abs.entry j l else B.abs.entry l j) + |β| * |C.entry i j|) := by
  have hf : (⟨fun _ _ => .error .abort, fun _ _ => .error .abort, fun _ _ => .error .abort,
      fun _ _ => .error .abort⟩ : LrOps ℝ).Fits False :=
    ⟨fun _ _ _ _ _ _ _ _ _ h => (nomatch h), fun _ _ _ h => (nomatch h), fun _ _ _ h => (nomatch h),
      fun _ _ _ _ h => (nomatch h)⟩
  have R := C22_gemm_returns_partial hf (Q := fun _ => False)
    ⟨fun _ _ h => h, fun _ _ _ _ _ _ _ _ h => h.elim, fun _ _ h => h.elim, fun _ _ h => h.elim,
      fun _ _ h => h.elim⟩ hb hA hB hC hd.square (hd.all _) ht (fun h => h.elim) h0 h1 h2 hfuel
    (α := α) (β := β)
  obtain ⟨C', h⟩ := (C75_returns_iff F _ fuel hA.wf hB.wf hC.wf hd).1.2 R
  exact ⟨C', h, C75_product hF fuel hA.wf hB.wf hC.wf hd ht fA fB h⟩

/-! ### where the assumption on BLAS comes from -/

/-- Reference BLAS: `beta c` first, then `alpha b(l,j) a(i,l)` added for one `l` after the
other, every operation rounded by `fl`. -/
def FlBlas.ofRounding (fl : ℝ → ℝ) : FlBlas where
  dgemm _ _ k α a b β c i j :=
    (List.range k).foldl (fun s l => fl (s + fl (fl (α * b l j) * a i l))) (fl (β * c i j))
  mul x y := fl (x * y)

/-- Any rounding with relative error `u` gives an arithmetic as assumed above. -/
theorem C75_rounding {fl : ℝ → ℝ} (u0 : 0 ≤ u) (hfl : ∀ x, |fl x - x| ≤ u * |x|) :
    (FlBlas.ofRounding fl).Sound u where
  u0 := u0
  mul x y := hfl (x * y)
  dgemm _ _ k α a b β c i j := by
    have R : ∀ {K : Nat} {x y m : ℝ}, FlNear u K x y m → FlNear u (K + 1) (fl x) y m := by
      intro K x y m h
      refine FlNear.step u0 (t := x) (T := |x|) ?_ h.abs_le h
      have := hfl x
      simpa using this
    have key : ∀ k, FlNear u (k + 2)
        ((List.range k).foldl (fun s l => fl (s + fl (fl (α * b l j) * a i l))) (fl (β * c i j)))
        (β * c i j + α * ∑ l ∈ range k, a i l * b l j)
        (|β| * |c i j| + |α| * ∑ l ∈ range k, |a i l| * |b l j|) := by
      intro k
      induction k with
      | zero =>
        have := R (FlNear.const u (β * c i j))
        rw [abs_mul] at this
        simpa using this.mono u0 (by omega : 0 + 1 ≤ 2)
      | succ k ih =>
        rw [List.range_succ, List.foldl_append, Finset.sum_range_succ, Finset.sum_range_succ]
        simp only [List.foldl_cons, List.foldl_nil]
        have t : FlNear u (k + 2) (fl (fl (α * b k j) * a i k)) (α * b k j * a i k)
            (|α * b k j| * |a i k|) := by
          have := R ((R (FlNear.const u (α * b k j))).mul u0 (FlNear.const u (a i k)))
          exact this.mono u0 (by omega)
        have := R (ih.add t)
        rw [abs_mul] at this
        convert this using 1 <;> ring
    have := (key k).1
    simp only [FlBlas.ofRounding]
    rw [add_comm (α * _), add_comm (|α| * _)]
    exact this

/-- Rounding to the nearest number with 53 significant bits. -/
noncomputable def nearest53 (x : ℝ) : ℝ :=
  round (x / 2 ^ (Int.log 2 |x| - 52)) * (2 : ℝ) ^ (Int.log 2 |x| - 52)

theorem nearest53_error (x : ℝ) : |nearest53 x - x| ≤ (2 : ℝ) ^ (-53 : ℤ) * |x| := by
  rcases eq_or_ne x 0 with rfl | hx
  · simp [nearest53]
  have h2 : (0 : ℝ) < 2 ^ (Int.log 2 |x| - 52) := by positivity
  have e : nearest53 x - x = (round (x / 2 ^ (Int.log 2 |x| - 52)) - x / 2 ^ (Int.log 2 |x| - 52)) *
      (2 : ℝ) ^ (Int.log 2 |x| - 52) := by
    rw [sub_mul, div_mul_cancel₀ _ h2.ne', nearest53]
  have h3 : (2 : ℝ) ^ Int.log 2 |x| ≤ |x| := by
    have := Int.zpow_log_le_self (b := 2) (r := |x|) (by norm_num) (abs_pos.2 hx)
    exact_mod_cast this
  rw [e, abs_mul, abs_of_pos h2, abs_sub_comm]
  calc _ ≤ (1 / 2 : ℝ) * 2 ^ (Int.log 2 |x| - 52) :=
        mul_le_mul_of_nonneg_right (abs_sub_round _) h2.le
    _ = (2 : ℝ) ^ (-53 : ℤ) * 2 ^ Int.log 2 |x| := by
        rw [sub_eq_add_neg, zpow_add₀ (by norm_num)]
        norm_num
        ring
    _ ≤ _ := mul_le_mul_of_nonneg_left h3 (by positivity)

/-! ### a case -/

section Examples

/-- Dense diagonal blocks and off-diagonal blocks of rank one. -/
def mixR : Mat ℝ := .hier 2 2 (fun i j => if i = j then .dense ⟨2, 2, fun a b => a + b + 1⟩
  else .lowRank ⟨2, 2, 1, 0, ⟨2, 1, fun a _ => a + 1⟩, ⟨1, 1, fun _ _ => 3⟩, ⟨1, 2, fun _ b => b + 2⟩⟩)

theorem mixR_wf : mixR.WF := by
  refine ⟨by omega, by omega, fun i hi j hj => ?_⟩
  have hi' : i = 0 ∨ i = 1 := by omega
  have hj' : j = 0 ∨ j = 1 := by omega
  rcases hi' with rfl | rfl <;> rcases hj' with rfl | rfl <;>
    first
    | exact ⟨trivial, rfl, rfl⟩
    | exact ⟨⟨rfl, rfl, rfl, rfl, rfl⟩, rfl, rfl⟩

theorem mixR_regular : mixR.Regular 2 := by
  refine ⟨mixR_wf, ?_, rfl, rfl, fun i hi j hj => ?_⟩
  · intro i hi j hj
    have hi' : i = 0 ∨ i = 1 := by omega
    have hj' : j = 0 ∨ j = 1 := by omega
    rcases hi' with rfl | rfl <;> rcases hj' with rfl | rfl <;> exact ⟨trivial, by decide, by decide⟩
  · by_cases h : i = j
    · simp only [h, if_true]; trivial
    · simp only [h, if_false]; trivial

theorem mixR_filled : mixR.Filled := by
  constructor <;>
  · intro i hi j hj
    by_cases h : i = j
    · simp only [h, if_true]; exact Nat.succ_pos _
    · simp only [h, if_false]; exact Nat.succ_pos _

theorem mixR_nonneg : mixR.Nonneg := by
  intro i hi j hj
  by_cases h : i = j
  · simp only [h, if_true]
    intro a _ b _
    positivity
  · simp only [h, if_false]
    refine ⟨fun a _ b _ => ?_, fun a _ b _ => ?_, fun a _ b _ => ?_⟩ <;> simp only <;> positivity

/-- A hierarchical matrix squared in double precision. -/
example (fuel : Nat) (h : 7 ≤ fuel) : ∃ C',
    (FlBlas.ofRounding nearest53).gemm fuel mixR mixR (.dense ⟨4, 4, fun _ _ => 1⟩) 1 2 false false = .ok C' ∧
    ∀ i < 4, ∀ j < 4, ∃ e : ℝ, |e| ≤ (60 : Nat) * (2 : ℝ) ^ (-53 : ℤ) / (1 - (60 : Nat) * (2 : ℝ) ^ (-53 : ℤ)) ∧
      C'.entry i j = (1 * ∑ l ∈ range 4, mixR.entry i l * mixR.entry l j + 2 * 1) * (1 + e) := by
  have hF := C75_rounding (by positivity) nearest53_error
  have dC : (Mat.dense ⟨4, 4, fun _ _ => 1⟩ : Mat ℝ).Regular 2 := ⟨trivial, trivial, trivial⟩
  obtain ⟨C', hC', -⟩ := C75_regular hF (by omega : 2 ≤ 2) mixR_regular mixR_regular dC trivial
    (Mat.TransSafe_ff _ _) mixR_filled mixR_filled (α := 1) (β := 2) rfl rfl rfl (fuel := fuel)
    (le_trans (by decide) h)
  refine ⟨C', hC', ?_⟩
  have nC : (Mat.dense ⟨4, 4, fun _ _ => 1⟩ : Mat ℝ).Nonneg := fun _ _ _ _ => zero_le_one
  have l : (if false = true then mixR.nRows else mixR.nCols) * (mixR.lag + mixR.lag + 3) = 60 := by decide
  have := C75_relative hF fuel mixR_wf mixR_wf dC.wf trivial (Mat.TransSafe_ff _ _) mixR_filled
    mixR_filled mixR_nonneg mixR_nonneg nC zero_le_one zero_le_two (by rw [l]; norm_num) hC'
  rw [l] at this
  exact this

end Examples

end Verif
