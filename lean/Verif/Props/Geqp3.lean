import Verif.Lemmas.Geqp3
import Verif.Lemmas.QrExists
import Verif.Lemmas.Id
import Verif.Lemmas.LrAdd

/-!
C45: truncated QR factorization with column pivoting.
-/

namespace Verif
open Finset Geqp3

/-- The loop of `truncated_geqp3` from the initial state, any number of passes: the
pivot bookkeeping is a permutation and the work array, transformed back by the
reflectors stored so far, is the permuted matrix. -/
theorem final_qr {m n : Nat} {A0 : Nat → Nat → ℝ} {s : St} (h : Inv m n A0 s) :
    IsTruncatedQr ⟨m, n, A0⟩ (formQ m s) (formR n s) s.r ((List.range n).map s.ipiv)
      (fun i l => applyQ m s s.r (fun p => if p = l then 1 else 0) i) (fun l j => cur s l j) := by
  have hP : ∀ j < n, ((List.range n).map s.ipiv).getD j 0 = s.ipiv j := by
    intro j hj
    simp [List.getD, hj]
  have hr := h.r_le
  have hR : ∀ l < s.r, ∀ j < n, (formR n s).val l (s.ipiv j) = cur s l j := by
    intro l hl j hj
    simp only [formR, cur]
    rw [ipivT_eq h.inj hj]
    by_cases hlj : l ≤ j
    · rw [if_pos hlj, if_neg (by omega)]
    · rw [if_neg hlj, if_pos (by omega)]
  refine ⟨hr, ⟨rfl, rfl⟩, ⟨rfl, rfl⟩, ?_, applyQ_orth h.refl, fun i _ l _ => rfl, fun l hl j hj => ?_,
    fun i hi j hj => ?_, fun l _ hrl j hj => ?_⟩
  · refine List.Subperm.perm_of_length_le ?_ (by simp)
    refine List.subperm_of_subset ?_ ?_
    · refine List.Nodup.map_on ?_ List.nodup_range
      intro a ha b hb e
      exact h.inj a (List.mem_range.1 ha) b (List.mem_range.1 hb) e
    · intro c hc
      obtain ⟨a, ha, rfl⟩ := List.mem_map.1 hc
      exact List.mem_range.2 (h.lt a (List.mem_range.1 ha))
  · rw [hP j (by omega), hR l hl j (by omega)]
    exact if_pos ⟨by omega, hj⟩
  · have hi : i < m := hi
    have hj : j < n := hj
    rw [hP j hj]
    show A0 i (s.ipiv j) = _
    rw [h.factor j hj i hi, applyQ_delta s.r _ hi,
      ← Finset.sum_range_add_sum_Ico _ (show s.r ≤ m by omega)]
    congr 1
    · refine Finset.sum_congr rfl (fun l hl => ?_)
      rw [hR l (mem_range.1 hl) j hj, mul_comm]
      rfl
    · exact Finset.sum_congr rfl (fun l _ => mul_comm _ _)
  · exact if_pos ⟨hj, by omega⟩

/-- How a returned result of `truncated_geqp3` came about. -/
theorem truncatedGeqp3_ok {E : Geqp3Env} (hE : E.Sound) {A Q R : Dense ℝ} {eps : ℝ}
    (h : truncatedGeqp3 E A eps = .ok (Q, R)) :
    (0 < A.rows ∧ Q = ⟨A.rows, 1, fun i j => if i = 0 ∧ j = 0 then 1 else 0⟩ ∧ R = Dense.zero 1 A.cols ∧
      ColumnsLe A E.tol) ∨
    ∃ s, Inv A.rows A.cols A.val s ∧ Q = formQ A.rows s ∧ R = formR A.cols s ∧
      (s.r = min A.rows A.cols ∨ ∀ j < A.cols, s.r ≤ j → s.cnorm j ≤ eps * Real.sqrt (Mat.normDense A)) ∧
      (s.r = A.cols → ∃ x, E.past = .ok x) ∧ (0 < A.cols → ¬ ColumnsLe A E.tol) := by
  simp only [truncatedGeqp3, except_bind_eq_ok] at h
  obtain ⟨mc, hmc, h⟩ := h
  have hmax : ∀ j < A.cols, (init A.rows A.val).cnorm j ≤ mc := by
    intro j hj
    unfold maxAt at hmc
    rw [if_pos (by omega)] at hmc
    rw [← Except.ok.inj hmc]
    exact maxIdx_max _ _ _ (Nat.zero_le j) (by omega)
  split at h
  · rename_i hle
    simp only [except_bind_eq_ok, assertM_eq_ok, decide_eq_true_eq] at h
    obtain ⟨_, h0, h⟩ := h
    have h := Except.ok.inj h
    simp only [Prod.mk.injEq] at h
    refine Or.inl ⟨h0, h.1.symm, h.2.symm, fun j hj => ?_⟩
    have := (hmax j hj).trans hle
    simp only [init, colNorm] at this
    rwa [← Finset.range_eq_Ico] at this
  · rename_i hle
    simp only [except_bind_eq_ok] at h
    obtain ⟨s, hs, h⟩ := h
    have h := Except.ok.inj h
    simp only [Prod.mk.injEq] at h
    obtain ⟨I, hI⟩ := run_spec hE _ (init_inv A.rows A.cols A.val) (Nat.sub_zero _).symm
      (fun j hj _ => hmax j hj) hs
    refine Or.inr ⟨s, I, h.1.symm, h.2.symm, hI, fun hr => ?_, fun h0 hc => ?_⟩
    · by_cases h0 : 0 < A.cols
      · exact run_past _ (s := init A.rows A.val) h0 hs hr
      · unfold maxAt at hmc
        rw [if_neg h0] at hmc
        exact ⟨mc, hmc⟩
    · apply hle
      unfold maxAt at hmc
      rw [if_pos h0] at hmc
      rw [← Except.ok.inj hmc]
      have := hc (maxIdx (init A.rows A.val).cnorm 0 (A.cols - 0 - 1))
        (by have := (maxIdx_range (init A.rows A.val).cnorm 0 (A.cols - 0 - 1)).2; omega)
      rw [Finset.range_eq_Ico] at this
      exact this

/-- C45.  A result `Q`, `R` of `truncated_geqp3(A, eps)` is a QR factorization with
column pivoting that was stopped after some number `r` of steps: the column order
is a permutation, `R` is triangular in this order, and `A` differs from `Q * R` only
by the trailing block, which is orthogonal to `Q`.  If it was stopped before the
last step, the columns of the trailing block are at most `eps` times the Frobenius
norm of `A` long.  The alternative is a matrix all of whose columns are not longer
than the machine precision: then `Q` is a unit vector and `R` is zero. -/
theorem C45_factor {E : Geqp3Env} (hE : E.Sound) {A Q R : Dense ℝ} {eps : ℝ}
    (h : truncatedGeqp3 E A eps = .ok (Q, R)) :
    (∃ r P H B, IsTruncatedQr A Q R r P H B ∧ (0 < A.cols → ¬ ColumnsLe A E.tol) ∧ (r < min A.rows A.cols → ∀ j < A.cols,
      Real.sqrt (∑ l ∈ Ico r A.rows, B l j * B l j) ≤
        eps * Real.sqrt (∑ i ∈ range A.rows, ∑ j ∈ range A.cols, A.val i j * A.val i j) ∨ j < r)) ∨
    (ColumnsLe A E.tol ∧ Q.rows = A.rows ∧ Q.cols = 1 ∧ R.rows = 1 ∧ R.cols = A.cols ∧
      (∀ i < A.rows, Q.val i 0 = if i = 0 then 1 else 0) ∧ ∀ j < A.cols, R.val 0 j = 0) := by
  rcases truncatedGeqp3_ok hE h with ⟨h0, rfl, rfl, hc⟩ | ⟨s, I, rfl, rfl, hs, -, hlong⟩
  · refine Or.inr ⟨hc, rfl, rfl, rfl, rfl, fun i _ => ?_, fun j _ => rfl⟩
    simp
  · refine Or.inl ⟨s.r, _, _, _, final_qr I, hlong, fun hr j hj => ?_⟩
    by_cases hjr : j < s.r
    · exact Or.inr hjr
    · left
      have h1 := hs.resolve_left (by omega) j hj (by omega)
      rw [I.norm j hj (by omega)] at h1
      refine le_trans (le_of_eq ?_) h1
      unfold colNorm
      congr 1
      refine Finset.sum_congr rfl (fun l _ => ?_)
      simp only [cur]
      rw [if_neg (by omega)]

/-- C45.  Run to completion the factorization is exact. -/
theorem C45_exact {A Q R : Dense ℝ} {r : Nat} {P : List Nat} {H B : Nat → Nat → ℝ}
    (h : IsTruncatedQr A Q R r P H B) (hr : r = min A.rows A.cols) :
    ∀ i < A.rows, ∀ c < A.cols, A.val i c = ∑ l ∈ range r, Q.val i l * R.val l c := by
  intro i hi c hc
  obtain ⟨j, hj, rfl⟩ := getD_surj h.perm hc
  rw [h.factor i hi j hj]
  rw [Finset.sum_eq_zero (s := Ico r A.rows) (fun l hl => ?_), add_zero]
  have hl := Finset.mem_Ico.1 hl
  rw [h.trailing l hl.2 hl.1 j (by omega), mul_zero]

/-- C45.  `Q` has orthonormal columns. -/
theorem C45_orthonormal {A Q R : Dense ℝ} {r : Nat} {P : List Nat} {H B : Nat → Nat → ℝ}
    (h : IsTruncatedQr A Q R r P H B) : OrthoCols A.rows r Q.val := by
  intro a ha b hb
  have hle := h.le
  rw [← (h.orth a (by omega) b (by omega)).1]
  exact Finset.sum_congr rfl (fun i hi => by
    rw [h.basis i (mem_range.1 hi) a ha, h.basis i (mem_range.1 hi) b hb])

/-- The length of a column of `A - Q * R` is that of the trailing block. -/
theorem IsTruncatedQr.error {A Q R : Dense ℝ} {r : Nat} {P : List Nat} {H B : Nat → Nat → ℝ}
    (h : IsTruncatedQr A Q R r P H B) {j : Nat} (hj : j < A.cols) :
    ∑ i ∈ range A.rows, (A.val i (P.getD j 0) - ∑ l ∈ range r, Q.val i l * R.val l (P.getD j 0)) ^ 2 =
      ∑ l ∈ Ico r A.rows, B l j * B l j := by
  have hle := h.le
  have e : ∀ i ∈ range A.rows,
      (A.val i (P.getD j 0) - ∑ l ∈ range r, Q.val i l * R.val l (P.getD j 0)) ^ 2 =
      ∑ a ∈ Ico r A.rows, ∑ b ∈ Ico r A.rows, B a j * B b j * (H i a * H i b) := by
    intro i hi
    rw [h.factor i (mem_range.1 hi) j hj, add_sub_cancel_left, sq, Finset.sum_mul_sum]
    exact Finset.sum_congr rfl (fun _ _ => Finset.sum_congr rfl (fun _ _ => by ring))
  rw [Finset.sum_congr rfl e, Finset.sum_comm]
  refine Finset.sum_congr rfl (fun a ha => ?_)
  have ha' := Finset.mem_Ico.1 ha
  rw [Finset.sum_comm]
  simp only [← Finset.mul_sum]
  rw [Finset.sum_congr rfl (fun b hb => by
    rw [(h.orth a ha'.2 b (Finset.mem_Ico.1 hb).2).1])]
  simp [ha'.1, ha'.2]

/-- C45 (accuracy).  Every column of `A - Q * R` is at most `eps` times the Frobenius
norm of `A` long, or at most the machine precision. -/
theorem C45_error {E : Geqp3Env} (hE : E.Sound) {A Q R : Dense ℝ} {eps : ℝ} (he : 0 ≤ eps)
    (h : truncatedGeqp3 E A eps = .ok (Q, R)) :
    Q.rows = A.rows ∧ R.rows = Q.cols ∧ R.cols = A.cols ∧ ∀ c < A.cols,
    Real.sqrt (∑ i ∈ range A.rows, (A.val i c - ∑ l ∈ range Q.cols, Q.val i l * R.val l c) ^ 2) ≤
      max E.tol (eps * Real.sqrt (∑ i ∈ range A.rows, ∑ j ∈ range A.cols, A.val i j * A.val i j)) := by
  have hn : 0 ≤ eps * Real.sqrt (∑ i ∈ range A.rows, ∑ j ∈ range A.cols, A.val i j * A.val i j) :=
    mul_nonneg he (Real.sqrt_nonneg _)
  rcases C45_factor hE h with ⟨r, P, H, B, hF, -, hs⟩ | ⟨hc, q0, q1, r0, r1, -, hz⟩
  · refine ⟨hF.Qdims.1, hF.Rdims.1.trans hF.Qdims.2.symm, hF.Rdims.2, fun c hc => ?_⟩
    obtain ⟨j, hj, rfl⟩ := getD_surj hF.perm hc
    rw [hF.Qdims.2, hF.error hj]
    refine le_trans ?_ (le_max_right _ _)
    have hz : j < r → Real.sqrt (∑ l ∈ Ico r A.rows, B l j * B l j) ≤
        eps * Real.sqrt (∑ i ∈ range A.rows, ∑ j ∈ range A.cols, A.val i j * A.val i j) := by
      intro hjr
      rw [Finset.sum_eq_zero (fun l hl => by
        rw [hF.trailing l (Finset.mem_Ico.1 hl).2 (Finset.mem_Ico.1 hl).1 j hjr, mul_zero]), Real.sqrt_zero]
      exact hn
    by_cases hr : r < min A.rows A.cols
    · exact (hs hr j hj).elim id hz
    · by_cases hjr : j < r
      · exact hz hjr
      · rw [Finset.Ico_eq_empty (by have := hF.le; omega), Finset.sum_empty, Real.sqrt_zero]
        exact hn
  · refine ⟨q0, by omega, r1, fun c hcc => le_trans ?_ (le_max_left _ _)⟩
    refine le_trans (le_of_eq ?_) (hc c hcc)
    congr 1
    refine Finset.sum_congr rfl (fun i _ => ?_)
    rw [q1, Finset.sum_range_one, hz c hcc]
    ring

/-- C45.  `truncated_geqp3` always returns if there is at least one row and reading
one element past the end of a vector gives some number. -/
theorem C45_returns (E : Geqp3Env) {x : ℝ} (hp : E.past = .ok x) (A : Dense ℝ) (hA : 0 < A.rows) (eps : ℝ) :
    ∃ f, truncatedGeqp3 E A eps = .ok f := by
  have : ∃ mc, maxAt E A.cols (init A.rows A.val).cnorm 0 = .ok mc := by
    unfold maxAt
    split
    · exact ⟨_, rfl⟩
    · exact ⟨x, hp⟩
  obtain ⟨mc, hmc⟩ := this
  simp only [truncatedGeqp3, hmc, except_bind_ok]
  split
  · rw [show assertM (decide (0 < A.rows)) = .ok () by rw [assertM_eq_ok]; exact decide_eq_true hA]
    exact ⟨_, rfl⟩
  · obtain ⟨s, hs⟩ := run_returns (m := A.rows) (n := A.cols) (thr := eps * Real.sqrt (Mat.normDense A)) hp
      (min A.rows A.cols) (init A.rows A.val) mc
    rw [hs]
    exact ⟨_, rfl⟩

/-- C45: whenever the rank found is the number of columns, an element past the end of
a vector was read (undefined behaviour): if such a read fails, the returned `Q` has
fewer columns than `A`, except for matrices below machine precision. -/
theorem C45_reads_past_end {E : Geqp3Env} (hE : E.Sound) {e : Err} (hp : E.past = .error e) {A Q R : Dense ℝ}
    {eps : ℝ} (h : truncatedGeqp3 E A eps = .ok (Q, R)) : Q.cols < A.cols ∨ ColumnsLe A E.tol := by
  rcases truncatedGeqp3_ok hE h with ⟨h0, rfl, rfl, hc⟩ | ⟨s, I, rfl, rfl, hs, hpast, -⟩
  · exact Or.inr hc
  · left
    show s.r < A.cols
    have := I.r_le
    by_contra hn
    obtain ⟨x, hx⟩ := hpast (by omega)
    rw [hp] at hx
    cases hx

/-- C45: the smallest case of it, a single column that is longer than the machine
precision, with `eps < 1`. -/
theorem C45_reads_past_end_column (E : Geqp3Env) {e : Err} (hp : E.past = .error e) (ht : 0 ≤ E.tol)
    {A : Dense ℝ} (hA : A.cols = 1) {eps : ℝ} (he : eps < 1)
    (hl : E.tol < Real.sqrt (∑ i ∈ range A.rows, A.val i 0 * A.val i 0)) :
    truncatedGeqp3 E A eps = .error e := by
  have hm : 0 < A.rows := by
    rcases Nat.eq_zero_or_pos A.rows with h | h
    · rw [h, Finset.sum_range_zero, Real.sqrt_zero] at hl
      linarith
    · exact h
  have hmin : min A.rows A.cols = 1 := by omega
  have h0 : maxAt E A.cols (init A.rows A.val).cnorm 0 =
      .ok (Real.sqrt (∑ i ∈ range A.rows, A.val i 0 * A.val i 0)) := by
    unfold maxAt
    rw [hA, if_pos (by decide)]
    simp [maxIdx, init, colNorm]
  have hn : Mat.normDense A = ∑ i ∈ range A.rows, A.val i 0 * A.val i 0 := by
    simp [Mat.normDense, hA]
  simp only [truncatedGeqp3, h0, except_bind_ok]
  rw [if_neg (not_le.2 hl), hmin, run, hn, if_pos (by nlinarith)]
  have : maxAt E A.cols (step E A.rows A.cols (init A.rows A.val)).cnorm
      (step E A.rows A.cols (init A.rows A.val)).r = .error e := by
    unfold maxAt
    have hr : (step E A.rows A.cols (init A.rows A.val)).r = 1 := by
      simp only [step, norms, Geqp3.apply]
      split <;> rfl
    rw [hr, hA, if_neg (by decide), hp]
  simp only [this]
  rfl

/-- C45.  At least one column is kept if `eps * sqrt(n) < 1`. -/
theorem C45_rank_positive {E : Geqp3Env} (hE : E.Sound) (ht : 0 ≤ E.tol) {A Q R : Dense ℝ} {eps : ℝ}
    (hA : 0 < A.cols) (he : eps * eps * A.cols < 1)
    (h : truncatedGeqp3 E A eps = .ok (Q, R)) : 1 ≤ Q.cols := by
  rcases truncatedGeqp3_ok hE h with ⟨h0, rfl, rfl, hc⟩ | ⟨s, I, rfl, rfl, hs, -, hlong⟩
  · exact Nat.le_refl 1
  · show 1 ≤ s.r
    by_contra hr
    have hr : s.r = 0 := by omega
    have hlong := hlong hA
    apply hlong
    have hpos : 0 < A.rows := by
      rcases Nat.eq_zero_or_pos A.rows with h | h
      · exfalso
        apply hlong
        intro j _
        rw [h, Finset.sum_range_zero, Real.sqrt_zero]
        exact ht
      · exact h
    have hcol := hs.resolve_left (by omega)
    -- the columns of the state are those of `A` in another order
    have hI := final_qr I
    have hnorm : ∀ c < A.cols, ∑ i ∈ range A.rows, A.val i c * A.val i c ≤ eps * eps * Mat.normDense A := by
      intro c hc
      obtain ⟨j, hj, rfl⟩ := getD_surj hI.perm (show c < A.cols from hc)
      have e := hI.error (j := j) hj
      rw [hr, Finset.sum_congr rfl (fun i _ => by rw [Finset.sum_range_zero, sub_zero, sq])] at e
      have hj' : j < A.cols := hj
      have h1 := hcol j hj' (by omega)
      rw [I.norm j hj' (by omega)] at h1
      have h2 := mul_self_le_mul_self (colNorm_nonneg _ _ _ _) h1
      rw [colNorm_sq, hr, mul_mul_mul_comm, Real.mul_self_sqrt (by
        unfold Mat.normDense
        exact Finset.sum_nonneg fun _ _ => Finset.sum_nonneg fun _ _ => mul_self_nonneg _)] at h2
      refine le_trans (le_of_eq ?_) h2
      rw [e]
      refine Finset.sum_congr rfl (fun l _ => ?_)
      simp only [cur]
      rw [if_neg (by omega)]
    have hsum : Mat.normDense A ≤ A.cols * (eps * eps * Mat.normDense A) := by
      unfold Mat.normDense
      rw [Finset.sum_comm]
      refine le_trans (Finset.sum_le_sum fun c hc => hnorm c (mem_range.1 hc)) ?_
      rw [Finset.sum_const, card_range, nsmul_eq_mul]
      unfold Mat.normDense
      rw [Finset.sum_comm]
    have hn0 : 0 ≤ Mat.normDense A := by
      unfold Mat.normDense
      exact Finset.sum_nonneg fun _ _ => Finset.sum_nonneg fun _ _ => mul_self_nonneg _
    have hz : Mat.normDense A = 0 := by
      by_contra hne
      have hp : 0 < Mat.normDense A := lt_of_le_of_ne hn0 (Ne.symm hne)
      nlinarith
    intro c hc
    have := hnorm c hc
    rw [hz, mul_zero] at this
    rw [Real.sqrt_eq_zero'.2 this]
    exact ht

/-- C44/C45.  `LowRank(A, eps)`, if its pivoted QR is `truncated_geqp3` and its RQ
routine is exact: every column of `A` is represented up to `eps` times the
Frobenius norm of `A`, or up to machine precision. -/
theorem C44_low_rank_from_eps {E : Geqp3Env} (hE : E.Sound) {L : Lapack ℝ} (hL : L.Factors) {A Q R : Dense ℝ}
    {eps : ℝ} (he : 0 ≤ eps) (hA : 0 < A.cols) (h : truncatedGeqp3 E A eps = .ok (Q, R))
    (hg : L.geqp3 A eps = (Q.cols, Q.val, R.val)) :
    ∃ C, L.ofEps A eps = .ok C ∧ C.WF ∧ C.dim0 = A.rows ∧ C.dim1 = A.cols ∧ C.rank = Q.cols ∧ ∀ c < A.cols,
      Real.sqrt (∑ i ∈ range A.rows, (A.val i c - C.entry i c) ^ 2) ≤
        max E.tol (eps * Real.sqrt (∑ i ∈ range A.rows, ∑ j ∈ range A.cols, A.val i j * A.val i j)) := by
  obtain ⟨C, hC⟩ := L.ofEps_total A eps
  obtain ⟨w, -, c0, c1, cr, -, ce⟩ := Lapack.ofEps_ok hC
  rw [hg] at cr ce
  have hq : Q.cols ≤ A.cols := by
    rcases C45_factor hE h with ⟨r, P, H, B, hF, -, -⟩ | ⟨-, -, q1, -⟩
    · rw [hF.Qdims.2]; exact hF.le.trans (Nat.min_le_right _ _)
    · omega
  refine ⟨C, hC, w, c0, c1, cr, fun c hc => ?_⟩
  refine le_trans (le_of_eq ?_) ((C45_error hE he h).2.2.2 c hc)
  congr 1
  refine Finset.sum_congr rfl (fun i _ => ?_)
  rw [ce hL hq i c hc]
  rfl

/-! ### the hypotheses can be met -/

theorem Geqp3Env.exists_sound (tol : ℝ) (past : Except Err ℝ) :
    ∃ E : Geqp3Env, E.Sound ∧ E.tol = tol ∧ E.past = past := by
  have : ∀ (len : Nat) (x : Nat → ℝ), ∃ g : ℝ × (Nat → ℝ) × ℝ,
      g.2.2 * (g.2.2 * (1 + ∑ i ∈ range len, g.2.1 (i + 1) * g.2.1 (i + 1))) = 2 * g.2.2 ∧
      x 0 - g.2.2 * (x 0 + ∑ i ∈ range len, g.2.1 (i + 1) * x (i + 1)) = g.1 ∧
      (∀ i < len, x (i + 1) - g.2.2 * g.2.1 (i + 1) *
        (x 0 + ∑ p ∈ range len, g.2.1 (p + 1) * x (p + 1)) = 0) ∧ (len = 0 → g.2.2 = 0) := by
    intro len x
    by_cases hl : len = 0
    · exact ⟨(x 0, fun _ => 0, 0), by simp, by simp, fun i hi => by omega, fun _ => rfl⟩
    · obtain ⟨v, τ, h1, -, ho, ha⟩ := exists_householder (fun i : Fin (len + 1) => x i) Finset.univ
        (Finset.mem_univ 0)
      have hv : ∀ i : Fin len, (if h : i.1 + 1 < len + 1 then v ⟨i.1 + 1, h⟩ else 0) = v i.succ := fun i => by
        rw [dif_pos (by omega)]; rfl
      have e1 : ∑ i, v i * v i = 1 + ∑ i ∈ range len, (if h : i + 1 < len + 1 then v ⟨i + 1, h⟩ else 0) *
          (if h : i + 1 < len + 1 then v ⟨i + 1, h⟩ else 0) := by
        rw [Fin.sum_univ_succ, h1, one_mul, ← Fin.sum_univ_eq_sum_range (fun i =>
          (if h : i + 1 < len + 1 then v ⟨i + 1, h⟩ else 0) * (if h : i + 1 < len + 1 then v ⟨i + 1, h⟩ else 0))]
        simp only [hv]
      have e2 : ∑ i : Fin (len + 1), v i * x i = x 0 + ∑ i ∈ range len,
          (if h : i + 1 < len + 1 then v ⟨i + 1, h⟩ else 0) * x (i + 1) := by
        rw [Fin.sum_univ_succ, h1, one_mul, ← Fin.sum_univ_eq_sum_range (fun i =>
          (if h : i + 1 < len + 1 then v ⟨i + 1, h⟩ else 0) * x (i + 1))]
        simp only [hv]
        rfl
      refine ⟨(x 0 - τ * ∑ i : Fin (len + 1), v i * x i,
        fun i => if h : i < len + 1 then v ⟨i, h⟩ else 0, τ), ?_, ?_, fun i hi => ?_, fun h => absurd h hl⟩
      · simp only
        rw [← e1]; exact ho
      · simp only
        rw [← e2]
      · simp only
        rw [← e2, dif_pos (by omega)]
        have := ha ⟨i + 1, by omega⟩ (Finset.mem_univ _) (by simp [Fin.ext_iff])
        simp only at this
        linarith
  choose g hg using this
  refine ⟨⟨fun len x => g (len - 1) x, tol, past⟩, ⟨fun len x => (hg len x).1, fun len x => (hg len x).2.1,
    fun len x => (hg len x).2.2.1, fun x => (hg 0 x).2.2.2 rfl⟩, rfl, rfl⟩

/-- A run on the 2-by-2 identity with `eps = 0`. -/
example : ∃ E : Geqp3Env, E.Sound ∧ ∃ Q R, truncatedGeqp3 E (⟨2, 2, fun i j => if i = j then 1 else 0⟩) 0 =
    .ok (Q, R) := by
  obtain ⟨E, hE, -, hp⟩ := Geqp3Env.exists_sound 0 (.ok 0)
  obtain ⟨⟨Q, R⟩, h⟩ := C45_returns E hp ⟨2, 2, fun i j => if i = j then 1 else 0⟩ (by decide) 0
  exact ⟨E, hE, Q, R, h⟩

end Verif
