import Verif.Lemmas.FloatNorm
import Verif.Props.MatBasic
import Mathlib.Tactic.IntervalCases

/-
C66: in floating-point arithmetic `norm` and `l2_error` are accurate.
-/

namespace Verif

open Finset FlArith

variable {F : FlArith} {u : ℝ}

/-- C66: `norm` of any matrix built from dense, low-rank and nested blocks is, up to
one relative error `u` per addition on the way, the sum of squares of numbers
that agree with the entries of the matrix as far as these can be computed from
the stored factors. -/
theorem C66_norm (hF : F.Sound u) (A : Mat ℝ) (hA : A.WF) (hE : A.NoEmpty) :
    ∃ x a, F.norm A = .ok x ∧ A.Close u a ∧
      Rounded u (A.nRows * A.nCols + 1 + A.adds) x
        (∑ i ∈ range A.nRows, ∑ j ∈ range A.nCols, a i j * a i j) :=
  norm_rounded hF A hA hE

/-- Without low-rank blocks the entries are read exactly. -/
theorem slack_eq_zero (A : Mat ℝ) (hA : A.WF) (h : A.NoLowRank) :
    ∀ i < A.nRows, ∀ j < A.nCols, (A.slack u).entry i j = 0 := by
  induction A with
  | dense d => intro i _ j _; simp [Mat.slack, Mat.entry, Dense.zero]
  | lowRank l => exact h.elim
  | empty m n => intro i _ j _; simp [Mat.slack, Mat.entry]
  | hier br bc blk ih =>
    simp only [Mat.NoLowRank] at h
    simp only [Mat.WF] at hA
    intro i hi j hj
    rw [Mat.nRows_hier] at hi
    rw [Mat.nCols_hier] at hj
    obtain ⟨p, hp, r, hr, rfl⟩ := Mat.exists_block _ _ _ hi
    obtain ⟨q, hq, s, hs, rfl⟩ := Mat.exists_block _ _ _ hj
    rw [Mat.slack_block hp hq hr hs]
    exact ih p q (hA.2.2 p hp q hq).1 (h p hp q hq) r (by rw [(hA.2.2 p hp q hq).2.1]; exact hr) s
      (by rw [(hA.2.2 p hp q hq).2.2]; exact hs)

theorem close_exact {A : Mat ℝ} (hA : A.WF) (h : A.NoLowRank) {a : Nat → Nat → ℝ}
    (hc : A.Close u a) : ∀ i < A.nRows, ∀ j < A.nCols, a i j = A.entry i j := by
  intro i hi j hj
  have := hc i hi j hj
  rw [slack_eq_zero A hA h i hi j hj] at this
  exact sub_eq_zero.1 (abs_eq_zero.1 (le_antisymm this (abs_nonneg _)))

/-- C66: without low-rank blocks the computed norm is the exact sum of squares up
to relative errors. -/
theorem C66_norm_exact_entries (hF : F.Sound u) (A : Mat ℝ) (hA : A.WF) (hE : A.NoEmpty)
    (hL : A.NoLowRank) :
    ∃ x D, F.norm A = .ok x ∧ A.toDense = .ok D ∧
      Rounded u (A.nRows * A.nCols + 1 + A.adds) x
        (∑ i ∈ range D.rows, ∑ j ∈ range D.cols, D.val i j * D.val i j) := by
  obtain ⟨x, a, h1, h2, h3⟩ := norm_rounded hF A hA hE
  obtain ⟨D, hD, d0, d1, d2⟩ := Mat.toDense_ok A hA
  refine ⟨x, D, h1, hD, ?_⟩
  have : ∑ i ∈ range D.rows, ∑ j ∈ range D.cols, D.val i j * D.val i j =
      ∑ i ∈ range A.nRows, ∑ j ∈ range A.nCols, a i j * a i j := by
    rw [d0, d1]
    refine Finset.sum_congr rfl fun i hi => Finset.sum_congr rfl fun j hj => ?_
    simp only [Finset.mem_range] at hi hj
    rw [d2 i hi j hj, close_exact hA hL h2 i hi j hj]
  rw [this]
  exact h3

/-- The last three operations of `l2_error`. -/
theorem final_rounded (hF : F.Sound u) {K : Nat} {x y X Y ε : ℝ} (hε : 0 < ε) (hX : 0 ≤ X)
    (hY : 0 ≤ Y) (hx : Rounded u K x X) (hy : Rounded u K y Y) :
    (1 - u) * Real.sqrt (((1 - u) / (1 + u)) ^ (K + 1)) * Real.sqrt (X / (Y + ε)) ≤
      F.sqrt (F.div x (F.add y ε)) ∧
    F.sqrt (F.div x (F.add y ε)) ≤
      (1 + u) * Real.sqrt (((1 + u) / (1 - u)) ^ (K + 1)) * Real.sqrt (X / (Y + ε)) := by
  have u0 := hF.u0
  have u1 := hF.u1
  have p1 : 0 < 1 - u := by linarith
  have p2 : 0 < 1 + u := by linarith
  have hYε : 0 < Y + ε := by linarith
  -- the denominator
  have hε' : Rounded u K ε ε := by
    refine ⟨?_, ?_⟩
    · have := pow_le_one₀ (n := K) p1.le (by linarith : 1 - u ≤ 1)
      nlinarith
    · have := one_le_pow₀ (n := K) (by linarith : 1 ≤ 1 + u)
      nlinarith
  have hd : Rounded u (K + 1) (F.add y ε) (Y + ε) :=
    Rounded.of_close u0 u1 hYε.le (Rounded.sum hy hε') (hF.add _ _)
  have hdpos : 0 < F.add y ε := lt_of_lt_of_le (mul_pos (pow_pos p1 _) hYε) hd.1
  have hx0 : 0 ≤ x := hx.nonneg u1 hX
  -- the quotient
  have hq := hF.div x (F.add y ε) hdpos.ne'
  have hq0 : 0 ≤ x / F.add y ε := div_nonneg hx0 hdpos.le
  rw [abs_of_nonneg hq0, abs_le] at hq
  have low : ((1 - u) / (1 + u)) ^ (K + 1) * (X / (Y + ε)) ≤ F.div x (F.add y ε) := by
    have a1 : ((1 - u) ^ K * X) / ((1 + u) ^ (K + 1) * (Y + ε)) ≤ x / F.add y ε :=
      div_le_div₀ hx0 hx.1 hdpos hd.2
    have a2 : ((1 - u) / (1 + u)) ^ (K + 1) * (X / (Y + ε)) =
        (1 - u) * (((1 - u) ^ K * X) / ((1 + u) ^ (K + 1) * (Y + ε))) := by
      rw [div_pow]; field_simp; ring
    rw [a2]
    have := mul_le_mul_of_nonneg_left a1 p1.le
    linarith
  have high : F.div x (F.add y ε) ≤ ((1 + u) / (1 - u)) ^ (K + 1) * (X / (Y + ε)) := by
    have a1 : x / F.add y ε ≤ ((1 + u) ^ K * X) / ((1 - u) ^ (K + 1) * (Y + ε)) :=
      div_le_div₀ (mul_nonneg (pow_nonneg p2.le _) hX) hx.2
        (mul_pos (pow_pos p1 _) hYε) hd.1
    have a2 : ((1 + u) / (1 - u)) ^ (K + 1) * (X / (Y + ε)) =
        (1 + u) * (((1 + u) ^ K * X) / ((1 - u) ^ (K + 1) * (Y + ε))) := by
      rw [div_pow]; field_simp; ring
    rw [a2]
    have := mul_le_mul_of_nonneg_left a1 p2.le
    linarith
  have hE : 0 ≤ X / (Y + ε) := div_nonneg hX hYε.le
  have hr1 : 0 ≤ ((1 - u) / (1 + u)) ^ (K + 1) := pow_nonneg (div_nonneg p1.le p2.le) _
  have hr2 : 0 ≤ ((1 + u) / (1 - u)) ^ (K + 1) := pow_nonneg (div_nonneg p2.le p1.le) _
  have hd0 : 0 ≤ F.div x (F.add y ε) := le_trans (mul_nonneg hr1 hE) low
  -- the square root
  have hs := hF.sqrt _ hd0
  rw [abs_le] at hs
  constructor
  · rw [mul_assoc, ← Real.sqrt_mul hr1]
    have := mul_le_mul_of_nonneg_left (Real.sqrt_le_sqrt low) p1.le
    linarith
  · rw [mul_assoc, ← Real.sqrt_mul hr2]
    have := mul_le_mul_of_nonneg_left (Real.sqrt_le_sqrt high) p2.le
    linarith

/-- C66: whatever the block structures of `A` and `B`, the number `l2_error`
returns is the exact relative error of two matrices `a`, `b` that agree with `A`
and `B` as far as their entries can be computed, up to the displayed factor; the
exponent counts the operations one entry passes through. -/
theorem C66_l2_error (hF : F.Sound u) {ε : ℝ} (hε : 0 < ε) (fuel : Nat) (A B : Mat ℝ) (hA : A.WF)
    (hB : B.WF) {e : ℝ} (h : F.l2Error ε fuel A B = .ok e) :
    ∃ a b, A.Close u a ∧ B.Close u b ∧
      let E := Real.sqrt
        ((∑ i ∈ range A.nRows, ∑ j ∈ range A.nCols, (a i j - b i j) * (a i j - b i j)) /
          ((∑ i ∈ range A.nRows, ∑ j ∈ range A.nCols, a i j * a i j) + ε))
      let K := A.nRows * A.nCols + 4 + max A.adds B.adds
      (1 - u) * Real.sqrt (((1 - u) / (1 + u)) ^ K) * E ≤ e ∧
      e ≤ (1 + u) * Real.sqrt (((1 + u) / (1 - u)) ^ K) * E := by
  simp only [FlArith.l2Error, except_bind_eq_ok] at h
  obtain ⟨-, -, -, -, p, hp, h⟩ := h
  obtain ⟨-, a, b, ca, cb, h1, h2⟩ := collectDiffNorm_rounded hF fuel A B hA hB p.1 p.2 hp
  refine ⟨a, b, ca, cb, ?_⟩
  have := final_rounded hF hε (sumsq_nonneg _ _ fun i j => a i j - b i j) (sumsq_nonneg _ _ _) h1 h2
  rw [Except.ok.inj h] at this
  simpa only [show A.nRows * A.nCols + 4 + max A.adds B.adds =
    A.nRows * A.nCols + 3 + max A.adds B.adds + 1 by omega] using this

/-- C66: without low-rank blocks the returned number is the exact relative error
of the two represented matrices, up to the displayed factor. -/
theorem C66_l2_error_exact_entries (hF : F.Sound u) {ε : ℝ} (hε : 0 < ε) (fuel : Nat) (A B : Mat ℝ)
    (hA : A.WF) (hB : B.WF) (lA : A.NoLowRank) (lB : B.NoLowRank) {e : ℝ}
    (h : F.l2Error ε fuel A B = .ok e) :
    ∃ a b, A.toDense = .ok a ∧ B.toDense = .ok b ∧ a.rows = b.rows ∧ a.cols = b.cols ∧
      let E := Real.sqrt
        ((∑ i ∈ range a.rows, ∑ j ∈ range a.cols,
            (a.val i j - b.val i j) * (a.val i j - b.val i j)) /
          ((∑ i ∈ range a.rows, ∑ j ∈ range a.cols, a.val i j * a.val i j) + ε))
      let K := A.nRows * A.nCols + 4 + max A.adds B.adds
      (1 - u) * Real.sqrt (((1 - u) / (1 + u)) ^ K) * E ≤ e ∧
      e ≤ (1 + u) * Real.sqrt (((1 + u) / (1 - u)) ^ K) * E := by
  obtain ⟨a, b, ca, cb, h'⟩ := C66_l2_error hF hε fuel A B hA hB h
  obtain ⟨D, hD, d0, d1, d2⟩ := Mat.toDense_ok A hA
  obtain ⟨D', hD', d0', d1', d2'⟩ := Mat.toDense_ok B hB
  simp only [FlArith.l2Error, except_bind_eq_ok, assertM_eq_ok, decide_eq_true_eq] at h
  obtain ⟨-, hr, -, hc, -⟩ := h
  refine ⟨D, D', hD, hD', by omega, by omega, ?_⟩
  have e1 : ∑ i ∈ range D.rows, ∑ j ∈ range D.cols,
      (D.val i j - D'.val i j) * (D.val i j - D'.val i j) =
      ∑ i ∈ range A.nRows, ∑ j ∈ range A.nCols, (a i j - b i j) * (a i j - b i j) := by
    rw [d0, d1]
    refine Finset.sum_congr rfl fun i hi => Finset.sum_congr rfl fun j hj => ?_
    simp only [Finset.mem_range] at hi hj
    rw [d2 i hi j hj, close_exact hA lA ca i hi j hj, d2' i (by omega) j (by omega),
      close_exact hB lB cb i (by omega) j (by omega)]
  have e2 : ∑ i ∈ range D.rows, ∑ j ∈ range D.cols, D.val i j * D.val i j =
      ∑ i ∈ range A.nRows, ∑ j ∈ range A.nCols, a i j * a i j := by
    rw [d0, d1]
    refine Finset.sum_congr rfl fun i hi => Finset.sum_congr rfl fun j hj => ?_
    simp only [Finset.mem_range] at hi hj
    rw [d2 i hi j hj, close_exact hA lA ca i hi j hj]
  rw [e1, e2]
  exact h'

/-- C66: without low-rank blocks `l2_error` returns zero exactly when the two
matrices are equal, whatever the roundings. -/
theorem C66_zero_iff (hF : F.Sound u) {ε : ℝ} (hε : 0 < ε) (fuel : Nat) (A B : Mat ℝ)
    (hA : A.WF) (hB : B.WF) (lA : A.NoLowRank) (lB : B.NoLowRank) {e : ℝ}
    (h : F.l2Error ε fuel A B = .ok e) :
    e = 0 ↔ ∀ i < A.nRows, ∀ j < A.nCols, A.entry i j = B.entry i j := by
  obtain ⟨a, b, ca, cb, h1, h2⟩ := C66_l2_error hF hε fuel A B hA hB h
  simp only [FlArith.l2Error, except_bind_eq_ok, assertM_eq_ok, decide_eq_true_eq] at h
  obtain ⟨-, hr, -, hc, -⟩ := h
  have u0 := hF.u0
  have u1 := hF.u1
  have hY : 0 < (∑ i ∈ range A.nRows, ∑ j ∈ range A.nCols, a i j * a i j) + ε := by
    have := sumsq_nonneg A.nRows A.nCols a
    linarith
  have key : (∑ i ∈ range A.nRows, ∑ j ∈ range A.nCols, (a i j - b i j) * (a i j - b i j)) = 0 ↔
      ∀ i < A.nRows, ∀ j < A.nCols, A.entry i j = B.entry i j := by
    rw [Finset.sum_eq_zero_iff_of_nonneg fun i _ => Finset.sum_nonneg fun j _ => mul_self_nonneg _]
    simp only [Finset.mem_range]
    refine forall₂_congr fun i hi => ?_
    rw [Finset.sum_eq_zero_iff_of_nonneg fun j _ => mul_self_nonneg _]
    simp only [Finset.mem_range, mul_self_eq_zero, sub_eq_zero]
    refine forall₂_congr fun j hj => ?_
    rw [close_exact hA lA ca i hi j hj, close_exact hB lB cb i (by omega) j (by omega)]
  rw [← key]
  constructor
  · intro he
    by_contra hne
    have hpos : 0 < ∑ i ∈ range A.nRows, ∑ j ∈ range A.nCols, (a i j - b i j) * (a i j - b i j) :=
      lt_of_le_of_ne (sumsq_nonneg _ _ fun i j => a i j - b i j) (Ne.symm hne)
    have : 0 < (1 - u) * Real.sqrt (((1 - u) / (1 + u)) ^
        (A.nRows * A.nCols + 4 + max A.adds B.adds)) * Real.sqrt
          ((∑ i ∈ range A.nRows, ∑ j ∈ range A.nCols, (a i j - b i j) * (a i j - b i j)) /
            ((∑ i ∈ range A.nRows, ∑ j ∈ range A.nCols, a i j * a i j) + ε)) :=
      mul_pos (mul_pos (by linarith) (Real.sqrt_pos.2 (pow_pos (div_pos (by linarith) (by linarith)) _)))
        (Real.sqrt_pos.2 (div_pos hpos hY))
    linarith
  · intro hz
    rw [hz] at h1 h2
    simp only [zero_div, Real.sqrt_zero, mul_zero] at h1 h2
    exact le_antisymm h2 h1

/-- The rounded functions run the same way as the exact ones. -/
theorem collectDiffNorm_runs (hF : F.Sound u) (fuel : Nat) (A B : Mat ℝ) (hA : A.WF) (hB : B.WF)
    {r : ℝ × ℝ} (h : Mat.collectDiffNorm fuel A B = .ok r) :
    ∃ r', F.collectDiffNorm fuel A B = .ok r' := by
  have dd : ∀ a b : Dense ℝ, a.rows = b.rows → a.cols = b.cols →
      ∃ r', F.diffNormDense a b = .ok r' := by
    intro a b h0 h1
    simp [diffNormDense, FlArith.subtract, h0, h1, assertM]
  obtain ⟨⟨hr, hc⟩, -⟩ := Mat.collectDiffNorm_correct fuel A B hA hB r.1 r.2 h
  induction fuel generalizing A B r with
  | zero => simp [Mat.collectDiffNorm] at h
  | succ fuel ih =>
    have splitB : ∀ (br bc : Nat) (blk : Nat → Nat → Mat ℝ) (C : Mat ℝ),
        (Mat.hier br bc blk).WF → C.WF → (Mat.hier br bc blk).nRows = C.nRows →
        (Mat.hier br bc blk).nCols = C.nCols →
        (do let BH ← C.split br bc; Mat.collectDiffNorm fuel (.hier br bc blk) BH) = .ok r →
        ∃ r', (do let BH ← C.split br bc; F.collectDiffNorm fuel (.hier br bc blk) BH) = .ok r' := by
      intro br bc blk C hH hC e0 e1 h
      rw [except_bind_eq_ok] at h
      obtain ⟨BH, h1, h2⟩ := h
      have hH' := hH
      simp only [Mat.WF] at hH'
      obtain ⟨b, rfl, hs⟩ := Mat.split_isSplit hC (by omega) (by omega) h1
      have hw := hs.wf (by omega) (by omega)
      obtain ⟨r', hr'⟩ := ih _ _ hH hw h2 (by rw [hs.nRows (by omega)]; exact e0)
        (by rw [hs.nCols (by omega)]; exact e1)
      exact ⟨r', by simp only [h1, except_bind_ok, hr']⟩
    have splitA : ∀ (br bc : Nat) (blk : Nat → Nat → Mat ℝ) (C : Mat ℝ),
        (Mat.hier br bc blk).WF → C.WF → C.nRows = (Mat.hier br bc blk).nRows →
        C.nCols = (Mat.hier br bc blk).nCols →
        (do let AH ← C.split br bc; Mat.collectDiffNorm fuel AH (.hier br bc blk)) = .ok r →
        ∃ r', (do let AH ← C.split br bc; F.collectDiffNorm fuel AH (.hier br bc blk)) = .ok r' := by
      intro br bc blk C hH hC e0 e1 h
      rw [except_bind_eq_ok] at h
      obtain ⟨AH, h1, h2⟩ := h
      have hH' := hH
      simp only [Mat.WF] at hH'
      obtain ⟨b, rfl, hs⟩ := Mat.split_isSplit hC (by omega) (by omega) h1
      have hw := hs.wf (by omega) (by omega)
      obtain ⟨r', hr'⟩ := ih _ _ hw hH h2 (by rw [hs.nRows (by omega)]; exact e0)
        (by rw [hs.nCols (by omega)]; exact e1)
      exact ⟨r', by simp only [h1, except_bind_ok, hr']⟩
    cases A with
    | empty m n =>
      cases B with
      | hier br bc blk => simp [Mat.collectDiffNorm, Mat.split, Mat.splitOmm] at h
      | dense => simp [Mat.collectDiffNorm] at h
      | lowRank => simp [Mat.collectDiffNorm] at h
      | empty => simp [Mat.collectDiffNorm] at h
    | dense a =>
      cases B with
      | dense b => exact dd a b hr hc
      | lowRank b =>
        obtain ⟨D, hD, e0, e1, -⟩ := FlArith.toDense_ok hF _ hB
        simp only [collectDiffNorm, hD, except_bind_ok]
        exact dd _ _ (by rw [e0]; exact hr) (by rw [e1]; exact hc)
      | hier br bc blk =>
        simp only [Mat.collectDiffNorm] at h
        exact splitA br bc blk _ hB hA hr hc h
      | empty => simp [Mat.collectDiffNorm] at h
    | lowRank a =>
      obtain ⟨D, hD, e0, e1, -⟩ := FlArith.toDense_ok hF _ hA
      cases B with
      | dense b =>
        simp only [collectDiffNorm, hD, except_bind_ok]
        exact dd _ _ (by rw [e0]; exact hr) (by rw [e1]; exact hc)
      | lowRank b =>
        obtain ⟨D', hD', e0', e1', -⟩ := FlArith.toDense_ok hF _ hB
        simp only [collectDiffNorm, hD, hD', except_bind_ok]
        exact dd _ _ (by rw [e0, e0']; exact hr) (by rw [e1, e1']; exact hc)
      | hier br bc blk =>
        simp only [Mat.collectDiffNorm] at h
        exact splitA br bc blk _ hB hA hr hc h
      | empty => simp [Mat.collectDiffNorm] at h
    | hier br bc blk =>
      cases B with
      | dense b =>
        simp only [Mat.collectDiffNorm] at h
        exact splitB br bc blk _ hA hB hr hc h
      | lowRank b =>
        simp only [Mat.collectDiffNorm] at h
        exact splitB br bc blk _ hA hB hr hc h
      | empty => simp [Mat.collectDiffNorm, Mat.split, Mat.splitOmm] at h
      | hier br' bc' blk' =>
        by_cases hb : br = br' ∧ bc = bc'
        · simp only [Mat.collectDiffNorm, if_pos hb, except_bind_eq_ok] at h
          obtain ⟨g, hg, -⟩ := h
          obtain ⟨rfl, rfl⟩ := hb
          simp only [Mat.WF] at hA hB
          obtain ⟨g', hg'⟩ := collect2_exists (m := br) (n := bc)
            (f := fun i j => F.collectDiffNorm fuel (blk i j) (blk' i j))
            (fun i hi j hj => by
              have e := collect2_ok hg i hi j hj
              obtain ⟨⟨x1, x2⟩, -⟩ := Mat.collectDiffNorm_correct fuel _ _ (hA.2.2 i hi j hj).1
                (hB.2.2 i hi j hj).1 _ _ e
              exact ih _ _ (hA.2.2 i hi j hj).1 (hB.2.2 i hi j hj).1 e x1 x2)
          exact ⟨_, by simp only [collectDiffNorm, and_self, if_true, hg']; rfl⟩
        · obtain ⟨D, hD, e0, e1, -⟩ := FlArith.toDense_ok hF _ hA
          obtain ⟨D', hD', e0', e1', -⟩ := FlArith.toDense_ok hF _ hB
          simp only [collectDiffNorm, if_neg hb, hD, hD', except_bind_ok]
          exact dd _ _ (by rw [e0, e0']; exact hr) (by rw [e1, e1']; exact hc)

/-- C66: on evenly split matrices of equal dimensions the call returns. -/
theorem C66_l2_error_returns (hF : F.Sound u) (ε : ℝ) (A B : Mat ℝ) (hA : A.WF) (hB : B.WF)
    (nA : A.NoEmpty) (nB : B.NoEmpty) (eA : A.Even) (eB : B.Even)
    (hr : A.nRows = B.nRows) (hc : A.nCols = B.nCols) :
    ∃ N, ∀ fuel, N ≤ fuel → ∃ e, F.l2Error ε fuel A B = .ok e := by
  refine ⟨2 * (A.depth + B.depth) + 1, fun fuel hf => ?_⟩
  obtain ⟨r, h⟩ := Mat.collectDiffNorm_total fuel A B hA hB nA nB eA eB hr hc hf
  obtain ⟨r', h'⟩ := collectDiffNorm_runs hF fuel A B hA hB h
  exact ⟨_, by simp only [FlArith.l2Error, hr, hc, h', decide_true, assertM, if_true, except_bind_ok]; rfl⟩

/-- An arithmetic that is off by the factor `5/4` in every operation. -/
noncomputable def badArith : FlArith where
  add x y := (x + y) * (5 / 4)
  sub x y := (x - y) * (5 / 4)
  div x y := x / y * (5 / 4)
  sqrt x := Real.sqrt x * (5 / 4)
  sqAdd s x := (s + x * x * (5 / 4)) * (5 / 4)
  gemm k a b i j := ∑ l ∈ range k, a i l * b l j * (5 / 4)

theorem badArith_sound : badArith.Sound (1 / 4) := by
  have aux : ∀ z : ℝ, |z * (5 / 4) - z| ≤ 1 / 4 * |z| := by
    intro z
    rw [show z * (5 / 4) - z = 1 / 4 * z by ring, abs_mul, abs_of_nonneg (by norm_num : (0:ℝ) ≤ 1 / 4)]
  refine ⟨by norm_num, by norm_num, fun x y => aux _, fun x y => aux _, fun x y _ => aux _,
    fun x _ => ?_, fun s x => ⟨1 / 4, 1 / 4, ?_, ?_, ?_⟩, fun k a b i j => ?_⟩
  · have := aux (Real.sqrt x)
    rwa [abs_of_nonneg (Real.sqrt_nonneg x)] at this
  · norm_num [abs_of_nonneg]
  · norm_num [abs_of_nonneg]
  · simp only [badArith]; ring
  · simp only [badArith]
    rw [← Finset.sum_mul]
    refine le_trans (aux _) ?_
    have h1 : |∑ l ∈ range k, a i l * b l j| ≤ ∑ l ∈ range k, |a i l| * |b l j| :=
      le_trans (Finset.abs_sum_le_sum_abs _ _)
        (le_of_eq (Finset.sum_congr rfl fun l _ => abs_mul _ _))
    have h2 : (5 / 4 : ℝ) ≤ (1 + 1 / 4) ^ (k + 1) := by
      rw [pow_succ]
      have := one_le_pow₀ (n := k) (by norm_num : (1:ℝ) ≤ 1 + 1 / 4)
      nlinarith
    have h3 : 0 ≤ ∑ l ∈ range k, |a i l| * |b l j| :=
      Finset.sum_nonneg fun l _ => mul_nonneg (abs_nonneg _) (abs_nonneg _)
    nlinarith

/-- A nested matrix with dense and low-rank blocks, compared with a dense one in
that arithmetic. -/
example : ∃ N, ∀ fuel, N ≤ fuel → ∃ e, badArith.l2Error (1 / 2) fuel
    (.hier 2 2 (fun i j => if i = j then .dense ⟨2 - i, 2 - j, fun r s => r + s⟩ else
      .lowRank (LowRank.ofFactors ⟨2 - i, 1, fun r _ => r + 1⟩ ⟨1, 1, fun _ _ => 3⟩
        ⟨1, 2 - j, fun _ s => s + 2⟩)))
    (.dense ⟨3, 3, fun r s => 2 * r + s⟩) = .ok e := by
  refine C66_l2_error_returns badArith_sound _ _ _ ?_ trivial ?_ trivial ?_ trivial ?_ ?_
  · simp only [Mat.WF]
    refine ⟨by norm_num, by norm_num, fun i hi j hj => ?_⟩
    interval_cases i <;> interval_cases j <;>
      simp [Mat.WF, Mat.nRows, Mat.nCols, LowRank.ofFactors] <;> constructor <;> rfl
  · simp only [Mat.NoEmpty]
    intro i hi j hj
    split <;> trivial
  · simp only [Mat.Even]
    intro i hi j hj
    interval_cases i <;> interval_cases j <;>
      simp [Mat.Even, Mat.nRows, Mat.nCols, LowRank.ofFactors, IndexRange.splitChild, Finset.sum_range_succ]
  · simp [Mat.nRows, LowRank.ofFactors, Finset.sum_range_succ]
  · simp [Mat.nCols, LowRank.ofFactors, Finset.sum_range_succ]

end Verif
