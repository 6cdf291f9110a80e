import Verif.Lemmas.LrAdd
import Verif.Lemmas.IdExists
import Verif.Lemmas.Id
import Verif.Lemmas.Gemm

/-!
C43: the interpolative decomposition, and C44 for its randomized version.
-/

namespace Verif
open Finset

variable {R : Type} [Field R] [DecidableEq R]

/-! ### C43 -/

/-- C43 (one-sided).  If `one_sided_id(A, k)` returns `V` and a list of columns, then
the list has `k` different entries, all of them columns of `A`, and `V` is the
identity in the listed columns.  If the part of the pivoted QR factorization that is
discarded is zero, `A = A[:,selected] * V`; this is the case for every matrix of
rank at most `k`.  Missing for the full statement: for a matrix of rank less than
`k` nothing usable is returned although nothing is discarded, see
`C43_rank_deficient`. -/
theorem C43_one_sided_partial {pqr : PivotedQr R} (hq : pqr.Sound) {A V : Dense R} {k : Nat}
    {S : List Nat} (h : A.oneSidedId pqr k = .ok (V, S)) :
    Interp A k V S ∧
    ((∀ l < min A.rows A.cols, k ≤ l → ∀ j < A.cols, l ≤ j → (pqr A).1 l j = 0) → Reproduces A k V S) ∧
    (A.RankLe k → Reproduces A k V S) := by
  refine ⟨(oneSidedId_ok (hq A) h).2.1, fun hz => reproduces_of_upper (hq A) h ?_,
    reproduces_of_rank (hq A) h⟩
  intro l hl hk j hj
  unfold upper
  split
  · exact hz l hl hk j hj ‹_›
  · rfl

/-- C43.  The one-sided decomposition returns if and only if `k` does not exceed the
dimensions and either all columns are selected or the rank of `A` is at least
`k`. -/
theorem C43_returns {pqr : PivotedQr R} (hq : pqr.Sound) (A : Dense R) (k : Nat) :
    (∃ v, A.oneSidedId pqr k = .ok v) ↔
      k ≤ min A.rows A.cols ∧ (k = A.cols ∨ ∀ r < k, ¬ A.RankLe r) :=
  oneSidedId_returns_iff (hq A)

/-- C43 is violated for matrices of rank less than `k`: although the discarded part
of the factorization is zero, the triangular solve divides by zero. -/
theorem C43_rank_deficient {pqr : PivotedQr R} (hq : pqr.Sound) (A : Dense R) {k r : Nat}
    (hk : k ≤ min A.rows A.cols) (hn : k < A.cols) (hr : r < k) (hA : A.RankLe r) :
    (∀ l < min A.rows A.cols, k ≤ l → ∀ j < A.cols, l ≤ j → (pqr A).1 l j = 0) ∧
      A.oneSidedId pqr k = .error .ub := by
  have hd : ∃ l < k, (pqr A).1 l l = 0 := by
    by_contra h
    push Not at h
    exact (diag_iff (hq A) hk).1 h r hr hA
  obtain ⟨l, hl, h0⟩ := hd
  refine ⟨fun l' hl' hkl j hj hlj => (hq A).pivot l (by omega) h0 l' hl' (by omega) j hj hlj, ?_⟩
  have hnr : ¬ ∃ v, A.oneSidedId pqr k = .ok v := by
    rw [C43_returns hq]
    rintro ⟨-, h | h⟩
    · omega
    · exact h r hr hA
  have ha : assertM (decide (k ≤ min A.rows A.cols)) = .ok () := by
    rw [assertM_eq_ok]; exact decide_eq_true hk
  simp only [Dense.oneSidedId]
  rw [ha, except_bind_ok, if_pos (by omega)]
  simp only [Dense.trsm, Side.pick]
  rw [if_neg (by simp only [Dense.geqp3]; omega), if_neg]
  · rfl
  · rintro ⟨-, -, hc⟩
    have := of_decide_eq_true (List.all_eq_true.1 hc l (List.mem_range.2 hl))
    apply this
    simp only [Dense.tri, Dense.geqp3]
    rw [if_pos trivial, if_neg (by decide), if_pos ⟨by omega, Nat.le_refl _⟩, h0]

omit [DecidableEq R] in
theorem transpose_rankLe {A : Dense R} {r : Nat} (h : A.transpose.RankLe r) : A.RankLe r := by
  obtain ⟨X, Y, h⟩ := h
  refine ⟨fun i l => Y l i, fun l j => X j l, fun i hi j hj => ?_⟩
  rw [show A.val i j = A.transpose.val j i from rfl, h j hj i hi]
  exact Finset.sum_congr rfl (fun _ _ => mul_comm _ _)

omit [Field R] [DecidableEq R] in
theorem getCols_ok {A AC : Dense R} {P : List Nat} (h : A.getCols P = .ok AC) :
    AC.rows = A.rows ∧ AC.cols = P.length ∧ ∀ i j, AC.val i j = A.val i (P.getD j 0) := by
  simp only [Dense.getCols, except_bind_eq_ok] at h
  obtain ⟨_, -, h⟩ := h
  cases Except.ok.inj h
  exact ⟨rfl, rfl, fun _ _ => rfl⟩

omit [Field R] [DecidableEq R] in
theorem getRows_ok {A AC : Dense R} {P : List Nat} (h : A.getRows P = .ok AC) :
    AC.rows = P.length ∧ AC.cols = A.cols ∧ ∀ i j, AC.val i j = A.val (P.getD i 0) j := by
  simp only [Dense.getRows, except_bind_eq_ok] at h
  obtain ⟨_, -, h⟩ := h
  cases Except.ok.inj h
  exact ⟨rfl, rfl, fun _ _ => rfl⟩

/-- C43 (two-sided).  If `id(A, k)` returns `U`, `S`, `V`, then `S` consists of the
entries of `A` in `k` different rows and `k` different columns, `U` is the identity
in these rows and `V` in these columns.  If the part of the pivoted QR factorization
of `A` that is discarded is zero, or the rank is at most `k`, `A = U * S * V`. -/
theorem C43_two_sided_partial {pqr : PivotedQr R} (hq : pqr.Sound) {A U S V : Dense R} {k : Nat}
    (h : A.id pqr k = .ok (U, S, V)) :
    ∃ rs cs : List Nat, Interp A k V cs ∧ Interp A.transpose k U.transpose rs ∧
      S.rows = k ∧ S.cols = k ∧
      (∀ i < k, ∀ j < k, S.val i j = A.val (rs.getD i 0) (cs.getD j 0)) ∧
      ((∀ l < min A.rows A.cols, k ≤ l → ∀ j < A.cols, l ≤ j → (pqr A).1 l j = 0) ∨ A.RankLe k →
        ∀ i < A.rows, ∀ j < A.cols, A.val i j =
          ∑ l ∈ range k, (∑ p ∈ range k, U.val i p * S.val p l) * V.val l j) := by
  simp only [Dense.id, except_bind_eq_ok] at h
  obtain ⟨v, hv, AC, hAC, u, hu, S', hS, h⟩ := h
  have h := Except.ok.inj h
  simp only [Prod.mk.injEq] at h
  obtain ⟨hU, rfl, rfl⟩ := h
  obtain ⟨V, cs⟩ := v
  obtain ⟨Ut, rs⟩ := u
  simp only at *
  obtain ⟨I1, z1, r1⟩ := C43_one_sided_partial hq hv
  obtain ⟨I2, z2, -⟩ := C43_one_sided_partial hq hu
  obtain ⟨a0, a1, av⟩ := getCols_ok hAC
  obtain ⟨s0, s1, sv⟩ := getRows_ok hS
  have hk2 := ((C43_returns hq _ _).1 ⟨_, hu⟩).1
  have e0 : AC.transpose.rows = k := by show AC.cols = k; rw [a1, I1.length]
  have e1 : AC.transpose.cols = A.rows := a0
  have rep2 : Reproduces AC.transpose k Ut rs := z2 (fun l hl hkl => by rw [e0] at hl; omega)
  subst hU
  refine ⟨rs, cs, I1, ⟨I2.length, I2.nodup, fun c hc => ?_, I2.rows, ?_, I2.ident⟩,
    s0.trans I2.length, s1.trans (a1.trans I1.length), fun i _ j _ => by rw [sv, av], ?_⟩
  · have := I2.inside c hc
    rwa [e1] at this
  · show Ut.cols = A.rows
    rw [I2.cols, e1]
  · intro hor i hi j hj
    have rep1 : Reproduces A k V cs := hor.elim z1 r1
    rw [rep1 i hi j hj]
    refine Finset.sum_congr rfl (fun l hl => ?_)
    congr 1
    have := rep2 l (by rw [e0]; exact mem_range.1 hl) i (by rw [e1]; exact hi)
    rw [show AC.transpose.val l i = A.val i (cs.getD l 0) from av i l] at this
    rw [this]
    refine Finset.sum_congr rfl (fun p _ => ?_)
    rw [mul_comm]
    congr 1
    rw [sv]
    rfl

/-- C43.  The two-sided decomposition returns for every matrix of rank at least
`k`. -/
theorem C43_two_sided_returns {pqr : PivotedQr R} (hq : pqr.Sound) (A : Dense R) {k : Nat}
    (hk : k ≤ min A.rows A.cols) (hr : ∀ r < k, ¬ A.RankLe r) : ∃ f, A.id pqr k = .ok f := by
  obtain ⟨⟨V, cs⟩, hv⟩ := (C43_returns hq A k).2 ⟨hk, Or.inr hr⟩
  obtain ⟨I1, -, -⟩ := C43_one_sided_partial hq hv
  obtain ⟨-, -, hcs, -⟩ := oneSidedId_ok (hq A) hv
  obtain ⟨AC, hAC⟩ : ∃ AC, A.getCols cs = .ok AC :=
    ⟨⟨A.rows, cs.length, fun i j => A.val i (cs.getD j 0)⟩, by
      simp only [Dense.getCols]
      rw [show assertM (decide (A.rows = 0 ∨ ∀ c ∈ cs, c < A.cols)) = .ok () by
        rw [assertM_eq_ok]; exact decide_eq_true (Or.inr I1.inside)]
      rfl⟩
  obtain ⟨a0, a1, av⟩ := getCols_ok hAC
  rw [I1.length] at a1
  -- the selected columns have rank `k`
  have hC : ∀ r < k, ¬ AC.RankLe r := by
    rintro r hrk ⟨X, Y, hXY⟩
    have hd := (diag_iff (hq A) hk).2 hr
    have hp := (hq A).perm
    obtain ⟨Q, hO, hf⟩ := (hq A).factor
    generalize (pqr A).1 = f at *
    generalize (pqr A).2 = P at *
    have hD : (Matrix.of fun i j : Fin k => upper f i j).det ≠ 0 := by
      rw [upper_det]
      exact Finset.prod_ne_zero_iff.2 (fun i _ => hd i i.2)
    apply hD
    rw [← det_zero_of_thin hrk (fun l p => ∑ i ∈ range A.rows, Q i l * X i p) Y]
    congr 1
    ext l j
    have hj := j.2
    have hl := l.2
    simp only [Matrix.of_apply]
    rw [pivoted_upper hO hf (by omega) (by omega)]
    have e : ∀ i ∈ range A.rows, Q i l * A.val i (P.getD j 0) =
        ∑ p ∈ range r, Q i l * (X i p * Y p j) := by
      intro i hi
      have h1 := hXY i (by rw [a0]; exact mem_range.1 hi) j (by omega)
      rw [av, hcs, take_getD hj] at h1
      rw [h1, Finset.mul_sum]
    rw [Finset.sum_congr rfl e, Finset.sum_comm]
    simp only [Finset.sum_mul]
    exact Finset.sum_congr rfl (fun _ _ => Finset.sum_congr rfl (fun _ _ => by ring))
  obtain ⟨⟨Ut, rs⟩, hu⟩ := (C43_returns hq AC.transpose k).2
    ⟨by show k ≤ min AC.cols AC.rows; omega,
      Or.inr (fun r hrk h => hC r hrk (transpose_rankLe h))⟩
  obtain ⟨I2, -, -⟩ := C43_one_sided_partial hq hu
  obtain ⟨S, hS⟩ : ∃ S, AC.getRows rs = .ok S :=
    ⟨⟨rs.length, AC.cols, fun i j => AC.val (rs.getD i 0) j⟩, by
      simp only [Dense.getRows]
      rw [show assertM (decide (AC.cols = 0 ∨ ∀ c ∈ rs, c < AC.rows)) = .ok () by
        rw [assertM_eq_ok]; exact decide_eq_true (Or.inr I2.inside)]
      rfl⟩
  refine ⟨(Ut.transpose, S, V), ?_⟩
  simp only [Dense.id]
  rw [hv, except_bind_ok]
  simp only
  rw [hAC, except_bind_ok, hu, except_bind_ok]
  simp only
  rw [hS, except_bind_ok]

/-! ### the randomized versions -/

/-- C44 (`rid`).  The factors of `rid(A, sample_size, rank)` are the two-sided
interpolative decomposition of `Q^T A` multiplied by `Q`, where `Q` is the basis
returned by the QR routine for the sample; with a sound pivoted QR routine and
`Q^T A` of rank at most `rank`, `U * S * V = Q * Q^T * A`. -/
theorem C44_rid {L : Lapack R} {pqr : PivotedQr R} (hq : pqr.Sound) {A U S V : Dense R} {k rank : Nat}
    (h : L.rid pqr A k rank = .ok (U, S, V)) :
    ∃ Y B : Dense R, Y.rows = A.rows ∧ Y.cols = k ∧ B.rows = k ∧ B.cols = A.cols ∧
      (∀ i j, Y.val i j = ∑ p ∈ range A.cols, A.val i p * L.random A A.cols k p j) ∧
      (∀ i j, B.val i j = ∑ p ∈ range A.rows, (L.qr Y k).1 p i * A.val p j) ∧
      U.rows = A.rows ∧ U.cols = rank ∧ S.rows = rank ∧ S.cols = rank ∧ V.rows = rank ∧
      V.cols = A.cols ∧
      (B.RankLe rank → ∀ i < A.rows, ∀ j < A.cols,
        ∑ l ∈ range rank, (∑ p ∈ range rank, U.val i p * S.val p l) * V.val l j =
          ∑ l ∈ range k, (L.qr Y k).1 i l * ∑ p ∈ range A.rows, (L.qr Y k).1 p l * A.val p j) := by
  simp only [Lapack.rid, except_bind_eq_ok] at h
  obtain ⟨Y, hY, q, hqr, B, hB, f, hf, U', hU, h⟩ := h
  have h := Except.ok.inj h
  simp only [Prod.mk.injEq] at h
  obtain ⟨rfl, rfl, rfl⟩ := h
  obtain ⟨-, y0, y1, yv⟩ := Mat.Dense_gemmNew_spec hY
  simp only [Mat.dop] at y0 y1 yv
  simp only [Lapack.qrInto, except_bind_eq_ok] at hqr
  obtain ⟨_, -, _, -, _, -, hqr⟩ := hqr
  cases Except.ok.inj hqr
  obtain ⟨-, b0, b1, bv⟩ := Mat.Dense_gemmNew_spec hB
  obtain ⟨uc, u0, u1, uv⟩ := Mat.Dense_gemmNew_spec hU
  obtain ⟨F, G, H⟩ := f
  obtain ⟨rs, cs, I1, I2, s0, s1, -, hx⟩ := C43_two_sided_partial hq hf
  have f0 : F.rows = k := I2.cols.trans (b0.trans y1)
  have f1 : F.cols = rank := I2.rows
  have y1' : Y.cols = k := y1
  simp only [Mat.dop, Dense.transpose] at bv u0 u1 uv
  have b0' : B.rows = k := b0.trans y1
  have b1' : B.cols = A.cols := b1
  refine ⟨Y, B, y0, y1, b0', b1', fun i j => ?_, fun i j => ?_, ?_, ?_, s0, s1, I1.rows,
    I1.cols.trans b1, fun hr i hi j hj => ?_⟩
  · rw [yv]
    simp [smul, mm]
  · rw [bv]
    simp [smul, mm, y1', y0]
  · rw [u0]; exact y0
  · rw [u1]; exact f1
  · have e : ∀ l < k, ∑ p ∈ range A.rows, (L.qr Y k).1 p l * A.val p j = B.val l j := by
      intro l _
      rw [bv]
      simp [smul, mm, y1', y0]
    have e2 : ∀ l ∈ range k, (L.qr Y k).1 i l * ∑ p ∈ range A.rows, (L.qr Y k).1 p l * A.val p j =
        ∑ a ∈ range rank, ∑ b ∈ range rank, (L.qr Y k).1 i l * F.val l b * G.val b a * H.val a j := by
      intro l hl
      rw [e l (mem_range.1 hl), hx (Or.inr hr) l (by rw [b0']; exact mem_range.1 hl) j
        (by rw [b1']; exact hj), Finset.mul_sum]
      refine Finset.sum_congr rfl (fun a _ => ?_)
      rw [Finset.sum_mul, Finset.mul_sum]
      exact Finset.sum_congr rfl (fun _ _ => by ring)
    rw [Finset.sum_congr rfl e2, Finset.sum_comm]
    refine Finset.sum_congr rfl (fun a _ => ?_)
    rw [Finset.sum_comm, Finset.sum_mul]
    refine Finset.sum_congr rfl (fun b _ => ?_)
    rw [uv]
    simp only [smul, mm, one_mul, Finset.sum_mul]
    exact Finset.sum_congr (congrArg range y1') (fun _ _ => by rw [y1']; simp)

/-- C43 (`one_sided_rid`, columns).  The columns selected from the random sample
`RN^T * A` are columns of `A`; if the sample has rank at most `rank` and spans the row
space of `A`, then `A = A[:,selected] * V`. -/
theorem C43_rid_columns {L : Lapack R} {pqr : PivotedQr R} (hq : pqr.Sound) {A V : Dense R}
    {k rank : Nat} {S : List Nat} (h : L.oneSidedRid pqr A k rank true = .ok (V, S)) :
    ∃ Y : Dense R, Y.rows = k ∧ Y.cols = A.cols ∧
      (∀ i j, Y.val i j = ∑ p ∈ range A.rows, L.random A A.rows k p i * A.val p j) ∧
      Interp A rank V S ∧
      (Y.RankLe rank → (∃ X : Nat → Nat → R, ∀ i < A.rows, ∀ j < A.cols,
        A.val i j = ∑ l ∈ range k, X i l * Y.val l j) → Reproduces A rank V S) := by
  simp only [Lapack.oneSidedRid, if_true, except_bind_eq_ok] at h
  obtain ⟨Y, hY, h⟩ := h
  obtain ⟨-, y0, y1, yv⟩ := Mat.Dense_gemmNew_spec hY
  obtain ⟨I, -, hr⟩ := C43_one_sided_partial hq h
  have y0 : Y.rows = k := y0
  have y1 : Y.cols = A.cols := y1
  refine ⟨Y, y0, y1, fun i j => ?_, ⟨I.length, I.nodup, fun c hc => by rw [← y1]; exact I.inside c hc,
    I.rows, I.cols.trans y1, I.ident⟩, ?_⟩
  · rw [yv]
    simp [smul, mm, Mat.dop, Dense.transpose]
  · rintro hk ⟨X, hX⟩ i hi c hc
    rw [hX i hi c hc]
    have e : ∀ l ∈ range rank, A.val i (S.getD l 0) * V.val l c =
        ∑ p ∈ range k, X i p * (Y.val p (S.getD l 0) * V.val l c) := by
      intro l hl
      have hm := I.inside _ (getD_mem (P := S) (j := l) (by rw [I.length]; exact mem_range.1 hl))
      rw [hX i hi _ (by omega), Finset.sum_mul]
      exact Finset.sum_congr rfl (fun _ _ => by ring)
    rw [Finset.sum_congr rfl e, Finset.sum_comm]
    simp only [← Finset.mul_sum]
    exact Finset.sum_congr rfl (fun p hp => by
      rw [hr hk p (by rw [y0]; exact mem_range.1 hp) c (by omega)])

/-- C43 (`one_sided_rid`, rows). -/
theorem C43_rid_rows {L : Lapack R} {pqr : PivotedQr R} (hq : pqr.Sound) {A V : Dense R}
    {k rank : Nat} {S : List Nat} (h : L.oneSidedRid pqr A k rank false = .ok (V, S)) :
    ∃ Y : Dense R, Y.rows = A.rows ∧ Y.cols = k ∧
      (∀ i j, Y.val i j = ∑ p ∈ range A.cols, A.val i p * L.random A A.cols k p j) ∧
      Interp A.transpose rank V S ∧
      (Y.RankLe rank → (∃ X : Nat → Nat → R, ∀ i < A.rows, ∀ j < A.cols,
        A.val i j = ∑ l ∈ range k, Y.val i l * X l j) → Reproduces A.transpose rank V S) := by
  simp only [Lapack.oneSidedRid, Bool.false_eq_true, if_false, except_bind_eq_ok] at h
  obtain ⟨Y, hY, h⟩ := h
  obtain ⟨-, y0, y1, yv⟩ := Mat.Dense_gemmNew_spec hY
  obtain ⟨I, -, hr⟩ := C43_one_sided_partial hq h
  have y0 : Y.rows = A.rows := y0
  have y1 : Y.cols = k := y1
  refine ⟨Y, y0, y1, fun i j => ?_, ⟨I.length, I.nodup, fun c hc => ?_,
    I.rows, I.cols.trans y0, I.ident⟩, ?_⟩
  · rw [yv]
    simp [smul, mm, Mat.dop]
  · have := I.inside c hc
    rw [show Y.transpose.cols = Y.rows from rfl, y0] at this
    exact this
  · rintro hk ⟨X, hX⟩ i hi c hc
    have hi : i < A.cols := hi
    have hc : c < A.rows := hc
    have hk' : Y.transpose.RankLe rank := by
      obtain ⟨P, Q, hPQ⟩ := hk
      refine ⟨fun i l => Q l i, fun l j => P j l, fun i hi j hj => ?_⟩
      rw [show Y.transpose.val i j = Y.val j i from rfl, hPQ j hj i hi]
      exact Finset.sum_congr rfl (fun _ _ => mul_comm _ _)
    rw [show A.transpose.val i c = A.val c i from rfl, hX c hc i hi]
    have e : ∀ l ∈ range rank, A.transpose.val i (S.getD l 0) * V.val l c =
        ∑ p ∈ range k, X p i * (Y.transpose.val p (S.getD l 0) * V.val l c) := by
      intro l hl
      have hm := I.inside _ (getD_mem (P := S) (j := l) (by rw [I.length]; exact mem_range.1 hl))
      rw [show Y.transpose.cols = Y.rows from rfl, y0] at hm
      rw [show A.transpose.val i (S.getD l 0) = A.val (S.getD l 0) i from rfl, hX _ hm i hi, Finset.sum_mul]
      exact Finset.sum_congr rfl (fun _ _ => by simp only [Dense.transpose]; ring)
    rw [Finset.sum_congr rfl e, Finset.sum_comm]
    simp only [← Finset.mul_sum]
    refine Finset.sum_congr rfl (fun p hp => ?_)
    rw [← hr hk' p (by show p < Y.cols; rw [y1]; exact mem_range.1 hp) c (by show c < Y.rows; omega)]
    exact mul_comm _ _

/-- C43 (`old_one_sided_rid`).  With `op(A)` the matrix or its transpose, the columns selected
from `Q^T * op(A)`, where `Q` is the basis the QR routine returns for the sample
`op(A) * RN`, are columns of `op(A)`; if `Q^T * op(A)` has rank at most `rank` and spans the
row space of `op(A)`, then `op(A) = op(A)[:,selected] * V`. -/
theorem C43_old_rid {L : Lapack R} {pqr : PivotedQr R} (hq : pqr.Sound) {A V : Dense R} {k rank : Nat}
    {transA : Bool} {S : List Nat} (h : L.oldOneSidedRid pqr A k rank transA = .ok (V, S)) {B : Dense R}
    (hB : B = if transA then A.transpose else A) :
    ∃ Y W : Dense R, Y.rows = B.rows ∧ Y.cols = k ∧ W.rows = k ∧ W.cols = B.cols ∧
      (∀ i j, Y.val i j = ∑ p ∈ range B.cols, B.val i p * L.random A B.cols k p j) ∧
      (∀ i j, W.val i j = ∑ p ∈ range B.rows, (L.qr Y k).1 p i * B.val p j) ∧
      Interp B rank V S ∧
      (W.RankLe rank → (∃ X : Nat → Nat → R, ∀ i < B.rows, ∀ j < B.cols,
        B.val i j = ∑ l ∈ range k, X i l * W.val l j) → Reproduces B rank V S) := by
  have hn : (if transA then A.rows else A.cols) = B.cols := by
    subst hB; cases transA <;> rfl
  have hd : Mat.dop transA A = B := by rw [hB]; rfl
  simp only [Lapack.oldOneSidedRid, except_bind_eq_ok, hn] at h
  obtain ⟨Y, hY, q, hqr, W, hW, h⟩ := h
  obtain ⟨-, y0, y1, yv⟩ := Mat.Dense_gemmNew_spec hY
  simp only [Lapack.qrInto, except_bind_eq_ok] at hqr
  obtain ⟨_, -, _, -, _, -, hqr⟩ := hqr
  cases Except.ok.inj hqr
  obtain ⟨-, w0, w1, wv⟩ := Mat.Dense_gemmNew_spec hW
  rw [hd] at y0 yv w1 wv
  have y1 : Y.cols = k := y1
  have w0 : W.rows = k := w0.trans y1
  obtain ⟨I, -, hr⟩ := C43_one_sided_partial hq h
  refine ⟨Y, W, y0, y1, w0, w1, fun i j => ?_, fun i j => ?_,
    ⟨I.length, I.nodup, fun c hc => by rw [← w1]; exact I.inside c hc, I.rows, I.cols.trans w1, I.ident⟩, ?_⟩
  · rw [yv]
    simp [smul, mm, Mat.dop]
  · rw [wv]
    simp [smul, mm, Mat.dop, Dense.transpose, y1, y0]
  · rintro hk ⟨X, hX⟩ i hi c hc
    rw [hX i hi c hc]
    have e : ∀ l ∈ range rank, B.val i (S.getD l 0) * V.val l c =
        ∑ p ∈ range k, X i p * (W.val p (S.getD l 0) * V.val l c) := by
      intro l hl
      have hm := I.inside _ (getD_mem (P := S) (j := l) (by rw [I.length]; exact mem_range.1 hl))
      rw [hX i hi _ (by omega), Finset.sum_mul]
      exact Finset.sum_congr rfl (fun _ _ => by ring)
    rw [Finset.sum_congr rfl e, Finset.sum_comm]
    simp only [← Finset.mul_sum]
    exact Finset.sum_congr rfl (fun p hp => by
      rw [hr hk p (by rw [w0]; exact mem_range.1 hp) c (by omega)])

/-! ### the hypotheses can be met -/

section Examples

/-- There is a sound routine; with it the decomposition of a 3-by-4 matrix of rank
one, `A i j = i + 1`, is returned and exact for `k = 1`. -/
example : ∃ pqr : PivotedQr ℝ, pqr.Sound ∧
    ∃ V S, Dense.oneSidedId pqr ⟨3, 4, fun i _ => (i : ℝ) + 1⟩ 1 = .ok (V, S) ∧
      Reproduces ⟨3, 4, fun i _ => (i : ℝ) + 1⟩ 1 V S := by
  obtain ⟨pqr, hq⟩ := PivotedQr.exists_sound
  refine ⟨pqr, hq, ?_⟩
  obtain ⟨⟨V, S⟩, hv⟩ := (C43_returns hq ⟨3, 4, fun i _ => (i : ℝ) + 1⟩ 1).2 ⟨by decide, Or.inr (by
    rintro r hr ⟨X, Y, h⟩
    have := h 0 (by decide) 0 (by decide)
    rw [show r = 0 by omega] at this
    norm_num at this)⟩
  refine ⟨V, S, hv, (C43_one_sided_partial hq hv).2.2 ⟨fun i _ => (i : ℝ) + 1, fun _ _ => 1, ?_⟩⟩
  intro i _ j _
  simp

/-- The two-sided version for the same matrix. -/
example : ∃ pqr : PivotedQr ℝ, pqr.Sound ∧ ∃ f, Dense.id pqr ⟨3, 4, fun i _ => (i : ℝ) + 1⟩ 1 = .ok f := by
  obtain ⟨pqr, hq⟩ := PivotedQr.exists_sound
  refine ⟨pqr, hq, C43_two_sided_returns hq _ (by decide) ?_⟩
  rintro r hr ⟨X, Y, h⟩
  have := h 0 (by decide) 0 (by decide)
  rw [show r = 0 by omega] at this
  norm_num at this

/-- `old_one_sided_rid` of the same matrix, with a QR routine that returns a column of ones. -/
example : ∃ (L : Lapack ℝ) (pqr : PivotedQr ℝ), pqr.Sound ∧
    ∃ V S, L.oldOneSidedRid pqr ⟨3, 4, fun i _ => (i : ℝ) + 1⟩ 1 1 false = .ok (V, S) ∧
      Reproduces ⟨3, 4, fun i _ => (i : ℝ) + 1⟩ 1 V S := by
  obtain ⟨pqr, hq⟩ := PivotedQr.exists_sound
  let L : Lapack ℝ := ⟨fun _ _ => (fun _ _ => 1, fun _ _ => 0), fun _ _ => (fun _ _ => 0, fun _ _ => 0),
    fun _ => (fun _ _ => 0, fun _ => 0, fun _ _ => 0), fun _ _ => 0, fun _ _ => (0, fun _ _ => 0, fun _ _ => 0),
    fun _ _ _ _ _ => 1⟩
  refine ⟨L, pqr, hq, ?_⟩
  have hr : L.oldOneSidedRid pqr ⟨3, 4, fun i _ => (i : ℝ) + 1⟩ 1 1 false =
      Dense.oneSidedId pqr ⟨1, 4, mm 3 (fun _ _ => 1) (fun i _ => (i : ℝ) + 1)⟩ 1 := by
    simp only [Lapack.oldOneSidedRid, Bool.false_eq_true, if_false]
    rw [Dense.gemmNew_ff_eq rfl, except_bind_ok]
    simp only [Lapack.qrInto, assertM, decide_true, if_true, except_bind_ok]
    rw [Dense.gemmNew_tf_eq (by rfl), except_bind_ok]
  obtain ⟨⟨V, S⟩, hv⟩ := (C43_returns hq ⟨1, 4, mm 3 (fun _ _ => 1) (fun i _ => (i : ℝ) + 1)⟩ 1).2
    ⟨by decide, Or.inr (by
      rintro r hr ⟨X, Y, h⟩
      have := h 0 (by decide) 0 (by decide)
      rw [show r = 0 by omega] at this
      simp only [mm, Finset.sum_range_succ, Finset.sum_range_zero] at this
      norm_num at this)⟩
  rw [hv] at hr
  obtain ⟨Y, W, -, -, -, -, -, wv, -, hrep⟩ := C43_old_rid hq hr rfl
  have e : ∀ i j, W.val i j = 6 := by
    intro i j
    rw [wv]
    simp only [L, Bool.false_eq_true, if_false, Finset.sum_range_succ, Finset.sum_range_zero]
    norm_num
  refine ⟨V, S, hr, hrep ⟨fun _ _ => 1, fun _ _ => 6, ?_⟩ ⟨fun i _ => ((i : ℝ) + 1) / 6, ?_⟩⟩
  · intro i _ j _
    rw [e]; simp
  · intro i _ j _
    simp only [e, Finset.sum_range_one, Bool.false_eq_true, if_false]
    ring

/-- The zero matrix with `k = 1` violates the property. -/
example : ∃ pqr : PivotedQr ℝ, pqr.Sound ∧
    Dense.oneSidedId pqr (Dense.zero 2 2 : Dense ℝ) 1 = .error .ub := by
  obtain ⟨pqr, hq⟩ := PivotedQr.exists_sound
  exact ⟨pqr, hq, (C43_rank_deficient hq (Dense.zero 2 2) (r := 0) (by decide) (by decide) (by decide)
    ⟨fun _ _ => 0, fun _ _ => 0, fun i _ j _ => by simp [Dense.zero]⟩).2⟩

end Examples

end Verif
