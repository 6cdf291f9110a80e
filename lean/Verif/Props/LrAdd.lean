import Verif.Lemmas.Svd
import Verif.Props.Gemm

/-
C25, C26, C27, C44: low-rank addition, truncation, randomized compression.
-/

namespace Verif
open Finset

variable {R : Type}

/-! ### a set of routines that satisfies the factorization equations, for examples -/

/-- Factorizations with an identity matrix. -/
def plainLapack (R : Type) [CommRing R] : Lapack R where
  qr A _ := if A.rows ≤ A.cols then (fun i j => if i = j then 1 else 0, A.val)
    else (A.val, fun i j => if i = j then 1 else 0)
  rq A _ := if A.cols ≤ A.rows then (A.val, fun i j => if i = j then 1 else 0)
    else (fun i j => if i = j then 1 else 0, A.val)
  svd A :=
    if A.rows = 1 ∧ A.cols = 1 then (fun _ _ => 1, fun _ => A.val 0 0, fun _ _ => 1)
    else if A.rows ≤ A.cols then (fun i j => if i = j then 1 else 0, fun _ => 1, A.val)
    else (A.val, fun _ => 1, fun i j => if i = j then 1 else 0)
  truncRank S _ := S.rows
  geqp3 A _ := if A.rows ≤ A.cols then (A.rows, fun i j => if i = j then 1 else 0, A.val)
    else (A.cols, A.val, fun i j => if i = j then 1 else 0)
  random _ _ _ i j := if i = j then 1 else 0

theorem plainLapack_factors [CommRing R] : (plainLapack R).Factors where
  qr := by
    intro A i hi j hj
    by_cases h : A.rows ≤ A.cols
    · simp [plainLapack, h, hi]
    · simp [plainLapack, h, min_eq_right (by omega : A.cols ≤ A.rows), hj]
  rq := by
    intro A i hi j hj
    by_cases h : A.cols ≤ A.rows
    · simp [plainLapack, h, hj]
    · simp [plainLapack, h, min_eq_left (by omega : A.rows ≤ A.cols), hi]
  svd := by
    intro A i hi j hj
    by_cases h1 : A.rows = 1 ∧ A.cols = 1
    · obtain rfl : i = 0 := by omega
      obtain rfl : j = 0 := by omega
      simp [plainLapack, terms, h1]
    · by_cases h : A.rows ≤ A.cols
      · simp only [plainLapack, terms, h1, h, if_true, if_false, mul_one, min_eq_left]
        simp [hi]
      · simp only [plainLapack, terms, h1, h, if_false, mul_one,
          min_eq_right (by omega : A.cols ≤ A.rows)]
        simp [hj]

/-! ### C25 -/

/-- C25.  Naive addition below the rank limit: always returns, the rank is the sum
of the ranks and every entry is the exact sum. -/
theorem C25_naive_exact [CommRing R] (L : Lapack R) {A B : LowRank R} (hA : A.WF) (hAs : A.Square)
    (hB : B.WF) (hBs : B.Square) (h0 : A.dim0 = B.dim0) (h1 : A.dim1 = B.dim1)
    (hr : A.rank + B.rank < min A.dim0 A.dim1) :
    ∃ C, A.naiveAdd L B = .ok C ∧ C.WF ∧ C.Square ∧ C.dim0 = A.dim0 ∧ C.dim1 = A.dim1 ∧
      C.rank = A.rank + B.rank ∧ C.eps = A.eps ∧
      ∀ i < A.dim0, ∀ j < A.dim1, C.entry i j = A.entry i j + B.entry i j :=
  LowRank.naiveAdd_merge L hA hAs hB hBs h0 h1 hr

/-- C25.  Naive addition at or above the limit: the exact sum is compressed to the
rank of `A`; this returns if and only if that rank does not exceed the dimensions,
and the result has consistent factors. -/
theorem C25_naive_recompress [CommRing R] (L : Lapack R) {A B : LowRank R} (hA : A.WF)
    (hB : B.WF) (h0 : A.dim0 = B.dim0) (h1 : A.dim1 = B.dim1)
    (hr : min A.dim0 A.dim1 ≤ A.rank + B.rank) :
    (∃ D : Dense R, D.rows = A.dim0 ∧ D.cols = A.dim1 ∧
      (∀ i j, D.val i j = A.entry i j + B.entry i j) ∧ A.naiveAdd L B = L.ofRank D A.rank) ∧
    ((∃ C, A.naiveAdd L B = .ok C) ↔ A.rank ≤ min A.dim0 A.dim1) ∧
    ∀ C, A.naiveAdd L B = .ok C →
      C.WF ∧ C.Square ∧ C.dim0 = A.dim0 ∧ C.dim1 = A.dim1 ∧ C.rank = A.rank := by
  obtain ⟨D, d0, d1, dv, h⟩ := LowRank.naiveAdd_full L hA hB h0 h1 hr
  refine ⟨⟨D, d0, d1, dv, h⟩, ⟨?_, ?_⟩, ?_⟩
  · rintro ⟨C, hC⟩
    rw [h] at hC
    have := (Lapack.ofRank_ok hC).1
    rwa [d0, d1] at this
  · intro hk
    rw [h]
    exact Lapack.ofRank_total L (by rw [d0, d1]; exact hk)
  · intro C hC
    rw [h] at hC
    obtain ⟨-, w, s, e0, e1, e2, -⟩ := Lapack.ofRank_ok hC
    exact ⟨w, s, e0.trans d0, e1.trans d1, e2⟩

section Examples

/-- A low-rank matrix with entries `x * (i+1) * (j+1)`, of the given dimensions and
rank 1. -/
def outer (m n : Nat) (x : ℤ) : LowRank ℤ where
  dim0 := m
  dim1 := n
  rank := 1
  eps := 0
  U := ⟨m, 1, fun i _ => i + 1⟩
  S := ⟨1, 1, fun _ _ => x⟩
  V := ⟨1, n, fun _ j => j + 1⟩

theorem outer_wf (m n : Nat) (x : ℤ) : (outer m n x).WF := ⟨rfl, rfl, rfl, rfl, rfl⟩

/-- C25: the hypotheses hold below the limit. -/
example : ∃ C, (outer 4 3 2).naiveAdd (plainLapack ℤ) (outer 4 3 5) = .ok C ∧ C.rank = 2 ∧
    C.entry 1 2 = 42 := by
  obtain ⟨C, h, -, -, -, -, hr, -, he⟩ := C25_naive_exact (plainLapack ℤ) (outer_wf 4 3 2) rfl
    (outer_wf 4 3 5) rfl rfl rfl (by decide)
  exact ⟨C, h, hr, by rw [he 1 (by decide) 2 (by decide)]; decide⟩

/-- C25: the hypotheses hold at the limit. -/
example : ∃ C, (outer 2 3 2).naiveAdd (plainLapack ℤ) (outer 2 3 5) = .ok C ∧ C.rank = 1 := by
  obtain ⟨-, h2, h3⟩ := C25_naive_recompress (plainLapack ℤ) (outer_wf 2 3 2)
    (outer_wf 2 3 5) rfl rfl (by decide)
  obtain ⟨C, hC⟩ := h2.2 (by decide)
  exact ⟨C, hC, (h3 C hC).2.2.2.2⟩

/-- A product of two low-rank matrices of ranks 1 and 2: the middle factor is
1-by-2. -/
def rectangular : LowRank ℤ where
  dim0 := 5
  dim1 := 5
  rank := 1
  eps := 0
  U := ⟨5, 1, fun _ _ => 1⟩
  S := ⟨1, 2, fun _ _ => 1⟩
  V := ⟨2, 5, fun _ _ => 1⟩

/-- C25 needs square middle factors: adding the product of two low-rank matrices
of different ranks fails an assertion although the represented matrices conform. -/
theorem C25_rectangular_fails : rectangular.WF ∧
    (outer 5 5 1).naiveAdd (plainLapack ℤ) rectangular = .error .assertFail := by
  refine ⟨⟨rfl, rfl, rfl, rfl, rfl⟩, ?_⟩
  have : (match (outer 5 5 1).naiveAdd (plainLapack ℤ) rectangular with
    | .error .assertFail => true | _ => false) = true := by decide +kernel
  revert this
  cases (outer 5 5 1).naiveAdd (plainLapack ℤ) rectangular with
  | ok _ => intro h; cases h
  | error e => cases e <;> intro h <;> first | rfl | cases h

end Examples

/-! ### C26 -/

/-- C26.  Rounded addition: there is a factorization `∑ u_l s_l v_l` of exactly
`A + B` (whatever the QR, RQ and SVD routines return, as long as their
factorization equations hold) of which the result keeps the first `C.rank` terms;
`s` are the singular values the SVD routine returned.  The rank is that of `A`, or
chosen by the truncation rule if `A` has a tolerance. -/
theorem C26_rounded [CommRing R] [DecidableEq R] {L : Lapack R} (hL : L.Factors) {A B C : LowRank R}
    (hA : A.WF) (hB : B.WF) (h1 : A.dim1 = B.dim1) (h : A.roundedAdd L B = .ok C) :
    C.WF ∧ C.Square ∧ C.dim0 = A.dim0 ∧ C.dim1 = A.dim1 ∧ C.eps = A.eps ∧
    ∃ k u s v, C.rank ≤ k ∧ C.Keeps u s v ∧
      (∀ i < A.dim0, ∀ j < A.dim1, terms k u s v i j = A.entry i j + B.entry i j) ∧
      (∀ i < A.dim0, ∀ j < A.dim1, C.entry i j = terms C.rank u s v i j) ∧
      (∃ X : Dense R, s = (L.svd X).2.1) ∧
      C.rank = (if A.eps ≠ 0 then L.truncRank ⟨k, k, fun i j => if i = j then s i else 0⟩ A.eps
        else A.rank) := by
  obtain ⟨-, he, k, u, s, v, r, -, hr, -⟩ := LowRank.roundedAdd_ok hA hB h1 h
  obtain ⟨X, hX, -⟩ := r.sing
  refine ⟨r.wf, r.sqr, r.dim0, r.dim1, he, k, u, s, v, r.rank, r.keeps, r.full hL, ?_, ⟨X, hX⟩, hr⟩
  intro i hi j hj
  exact r.keeps.entry r.wf r.sqr (by rw [r.dim0]; exact hi) (by rw [r.dim1]; exact hj)

/-- C26.  Fast rounded addition with a fixed rank: the same. -/
theorem C26_fast [CommRing R] [DecidableEq R] {L : Lapack R} (hL : L.Factors) {A B C : LowRank R}
    (hA : A.WF) (hAs : A.Square) (hB : B.WF) (h1 : A.dim1 = B.dim1) (he : A.eps = 0)
    (h : A.fastAdd L B = .ok C) :
    C.WF ∧ C.Square ∧ C.dim0 = A.dim0 ∧ C.dim1 = A.dim1 ∧ C.rank = A.rank ∧
    ∃ k u s v, C.rank ≤ k ∧ C.Keeps u s v ∧
      (∀ i < A.dim0, ∀ j < A.dim1, terms k u s v i j = A.entry i j + B.entry i j) ∧
      (∀ i < A.dim0, ∀ j < A.dim1, C.entry i j = terms C.rank u s v i j) ∧
      (∃ X : Dense R, s = (L.svd X).2.1) := by
  obtain ⟨-, -, hr, k, u, s, v, r, -⟩ := LowRank.fastAdd_ok hA hAs hB h1 he h
  obtain ⟨X, hX, -⟩ := r.sing
  refine ⟨r.wf, r.sqr, r.dim0, r.dim1, hr, k, u, s, v, r.rank, r.keeps, r.full hL, ?_, ⟨X, hX⟩⟩
  intro i hi j hj
  exact r.keeps.entry r.wf r.sqr (by rw [r.dim0]; exact hi) (by rw [r.dim1]; exact hj)

/-- C26.  With a tolerance, fast rounded addition is rounded addition. -/
theorem C26_fast_with_eps [CommRing R] [DecidableEq R] (L : Lapack R) (A B : LowRank R)
    (he : A.eps ≠ 0) : A.fastAdd L B = A.roundedAdd L B := by
  rw [LowRank.fastAdd, if_pos he]

/-- C26.  The result is exactly `A + B` if the discarded singular values are zero
(`hz` is about the factorization of `C26_rounded`). -/
theorem C26_nothing_discarded [CommRing R] {A B C : LowRank R} {k : Nat} {u : Nat → Nat → R}
    {s : Nat → R} {v : Nat → Nat → R} (hk : C.rank ≤ k)
    (hf : ∀ i < A.dim0, ∀ j < A.dim1, terms k u s v i j = A.entry i j + B.entry i j)
    (hc : ∀ i < A.dim0, ∀ j < A.dim1, C.entry i j = terms C.rank u s v i j)
    (hz : ∀ l < k, C.rank ≤ l → s l = 0) :
    ∀ i < A.dim0, ∀ j < A.dim1, C.entry i j = A.entry i j + B.entry i j := by
  intro i hi j hj
  rw [hc i hi j hj, ← hf i hi j hj, terms_le hk hz]

/-- C26.  When rounded addition returns. -/
theorem C26_rounded_returns [CommRing R] [DecidableEq R] (L : Lapack R) {A B : LowRank R} (hA : A.WF)
    (hAs : A.Square) (hB : B.WF) (h0 : A.dim0 = B.dim0) (h1 : A.dim1 = B.dim1) (he : A.eps = 0)
    (hr : A.rank ≤ min A.dim0 A.dim1) : ∃ C, A.roundedAdd L B = .ok C := by
  refine LowRank.roundedAdd_total hA hB h0 h1 (fun k s hk => ?_)
  have := hAs
  simp only [LowRank.Square] at this
  simp only [he, ne_eq, not_true_eq_false, if_false]
  omega

/-- C26.  Fast rounded addition returns exactly if the rank of `B` does not exceed
its dimensions. -/
theorem C26_fast_returns_iff [CommRing R] [DecidableEq R] (L : Lapack R) {A B : LowRank R} (hA : A.WF)
    (hAs : A.Square) (hB : B.WF) (hBs : B.Square) (h0 : A.dim0 = B.dim0) (h1 : A.dim1 = B.dim1)
    (he : A.eps = 0) : (∃ C, A.fastAdd L B = .ok C) ↔ B.rank ≤ min B.dim0 B.dim1 := by
  have hs : B.S.cols = B.rank := hBs
  constructor
  · rintro ⟨C, h⟩
    simp only [LowRank.fastAdd, he, ne_eq, not_true_eq_false, if_false, except_bind_eq_ok] at h
    obtain ⟨Zu, hZu, Yu, hYu, qu, hqu, u0, hu0, u1, hu1, Zv, hZv, Yv, hYv, qv, hqv, v0, hv0, v1, hv1,
      ZuS, hZuS, RuS, hRuS, m0, hm0, m00, hm00, m01, hm01, m10, hm10, m11, hm11, -⟩ := h
    obtain ⟨-, -, -, rfl⟩ := Dense.gemm_ff hYu
    obtain ⟨-, -, -, rfl⟩ := Lapack.qrInto_ok hqu
    obtain ⟨-, -, -, rfl⟩ := Dense.gemm_ff hYv
    obtain ⟨-, -, -, rfl⟩ := Lapack.rqInto_ok hqv
    obtain ⟨-, rfl⟩ := Dense.gemmNew_ff hRuS
    obtain ⟨c1, -, c3, -⟩ := Dense.gemm_zero hm11
    simp only [hB.urows, hB.ucols, hB.srows, hB.vrows, hB.vcols] at c1 c3
    omega
  · intro hr
    exact LowRank.fastAdd_total hA hAs hB h0 h1 he (by omega) (by omega)

/-- C26.  With orthonormal factors from the external routines the factorization
behind rounded addition is a singular value decomposition of `A + B`. -/
theorem C26_rounded_svd [CommRing R] [PartialOrder R] [DecidableEq R] {L : Lapack R} (hL : L.Factors)
    (hO : L.Ortho) (hS : L.Sorted)
    {A B C : LowRank R} (hA : A.WF) (hB : B.WF) (h1 : A.dim1 = B.dim1) (h : A.roundedAdd L B = .ok C) :
    ∃ k u s v, C.rank ≤ k ∧ C.Keeps u s v ∧
      (∀ i < A.dim0, ∀ j < A.dim1, terms k u s v i j = A.entry i j + B.entry i j) ∧
      OrthoCols A.dim0 k u ∧ OrthoRows A.dim1 k v ∧ (∀ l < k, 0 ≤ s l) ∧
      (∀ l, ∀ l' < k, l ≤ l' → s l' ≤ s l) ∧
      C.rank = (if A.eps ≠ 0 then L.truncRank ⟨k, k, fun i j => if i = j then s i else 0⟩ A.eps
        else A.rank) := by
  obtain ⟨-, he, k, u, s, v, r, -, hr, ho⟩ := LowRank.roundedAdd_ok hA hB h1 h
  obtain ⟨X, rfl, rfl⟩ := r.sing
  exact ⟨_, u, _, v, r.rank, r.keeps, r.full hL, (ho hO).1, (ho hO).2, hS.nonneg X,
    hS.anti X, hr⟩

/-- C26.  If `A + B` has rank at most the rank kept, rounded addition is exact. -/
theorem C26_rounded_exact_of_rank {L : Lapack ℝ} (hL : L.Factors) (hO : L.Ortho) (hS : L.Sorted)
    {A B C : LowRank ℝ} (hA : A.WF) (hB : B.WF) (h1 : A.dim1 = B.dim1) (h : A.roundedAdd L B = .ok C)
    (X Y : Nat → Nat → ℝ)
    (hX : ∀ i < A.dim0, ∀ j < A.dim1, A.entry i j + B.entry i j = ∑ l ∈ range C.rank, X i l * Y l j) :
    ∀ i < A.dim0, ∀ j < A.dim1, C.entry i j = A.entry i j + B.entry i j := by
  obtain ⟨k, u, s, v, hk, hK, hf, hu, hv, hs0, hs, -⟩ := C26_rounded_svd hL hO hS hA hB h1 h
  obtain ⟨w, sq, d0, d1, -⟩ := C26_rounded hL hA hB h1 h
  have hz := sing_zero_of_rank hu hv hs0 hs X Y (fun i hi j hj => by
    rw [hf i hi j hj, hX i hi j hj]; rfl)
  intro i hi j hj
  rw [hK.entry w sq (by rw [d0]; exact hi) (by rw [d1]; exact hj), ← hf i hi j hj,
    terms_le hk hz]

/-! ### C27 -/

/-- C27.  `find_svd_truncation_rank` on `n ≥ 1` non-increasing, non-negative
singular values: the rank is between 1 and `n`, the discarded tail is at most
`eps` times the norm of all singular values. -/
theorem C27_truncation_rank {n : Nat} (hn : 0 < n) (s : Nat → ℝ) (hs0 : ∀ l < n, 0 ≤ s l)
    (hs : ∀ l, ∀ l' < n, l ≤ l' → s l' ≤ s l) (eps : ℝ) (he : 0 ≤ eps) :
    ∃ r, findSvdTruncationRank ⟨n, n, fun i j => if i = j then s i else 0⟩ eps = .ok r ∧
      1 ≤ r ∧ r ≤ n ∧
      Real.sqrt (∑ l ∈ Ico r n, s l ^ 2) ≤ eps * Real.sqrt (∑ l ∈ range n, s l ^ 2) := by
  have hnorm : Mat.normDense (⟨n, n, fun i j => if i = j then s i else 0⟩ : Dense ℝ) =
      ∑ l ∈ range n, s l ^ 2 := by
    simp only [Mat.normDense]
    refine Finset.sum_congr rfl (fun i hi => ?_)
    rw [Finset.sum_eq_single i]
    · simp [sq]
    · intro b _ hb
      simp [Ne.symm hb]
    · intro h; exact absurd hi h
  rw [findSvdTruncationRank, hnorm]
  simp only [Nat.min_self]
  obtain ⟨k, hk, h1, h2, h3, -⟩ := truncLoop_ok ⟨n, n, fun i j => if i = j then s i else 0⟩
    (eps * Real.sqrt (∑ l ∈ range n, s l ^ 2)) n (n + 1) 0 (by omega) (by omega)
  refine ⟨k, hk, h1, by omega, ?_⟩
  by_cases hkn : k < n
  · refine le_trans (Real.sqrt_le_sqrt ?_) (h3 hkn)
    refine Finset.sum_le_sum (fun l hl => ?_)
    have hl := Finset.mem_Ico.1 hl
    simp only [if_true]
    rw [← sq]
    exact pow_le_pow_left₀ (hs0 l hl.2) (hs k l hl.2 hl.1) 2
  · have : Ico k n = ∅ := Finset.Ico_eq_empty (by omega)
    rw [this]
    simp only [Finset.sum_empty, Real.sqrt_zero]
    positivity

/-- C27: the result for no singular values at all is rank 1, more than there are. -/
theorem C27_empty (s : Nat → ℝ) (eps : ℝ) :
    findSvdTruncationRank ⟨0, 0, fun i j => if i = j then s i else 0⟩ eps = .ok 1 := by
  simp [findSvdTruncationRank, truncLoop]

/-- C27: all hypotheses together. -/
example : ∃ r, findSvdTruncationRank ⟨3, 3, fun i j => if i = j then (3 - i : ℝ) else 0⟩ (1 / 2) = .ok r ∧
    1 ≤ r ∧ r ≤ 3 ∧ Real.sqrt (∑ l ∈ Ico r 3, (3 - l : ℝ) ^ 2) ≤
      1 / 2 * Real.sqrt (∑ l ∈ range 3, (3 - l : ℝ) ^ 2) :=
  C27_truncation_rank (by omega) (fun l => 3 - l)
    (fun l hl => by
      have : (l : ℝ) ≤ 2 := by exact_mod_cast (by omega : l ≤ 2)
      linarith)
    (fun l l' _ h => by
      have : (l : ℝ) ≤ l' := by exact_mod_cast h
      linarith) _ (by norm_num)

/-- C26 and C27: rounded addition with tolerance `eps` has relative error at most
`eps` in the Frobenius norm. -/
theorem C26_rounded_error {L : Lapack ℝ} (hL : L.Factors) (hO : L.Ortho) (hS : L.Sorted)
    (hT : ∀ S e, findSvdTruncationRank S e = .ok (L.truncRank S e))
    {A B C : LowRank ℝ} (hA : A.WF) (hB : B.WF) (h1 : A.dim1 = B.dim1) (he : 0 < A.eps)
    (h : A.roundedAdd L B = .ok C) :
    Real.sqrt (∑ i ∈ range A.dim0, ∑ j ∈ range A.dim1, (A.entry i j + B.entry i j - C.entry i j) ^ 2) ≤
      A.eps * Real.sqrt (∑ i ∈ range A.dim0, ∑ j ∈ range A.dim1, (A.entry i j + B.entry i j) ^ 2) := by
  obtain ⟨k, u, s, v, hk, hK, hf, hu, hv, hs0, hs, hr⟩ := C26_rounded_svd hL hO hS hA hB h1 h
  obtain ⟨w, sq', d0, d1, -⟩ := C26_rounded hL hA hB h1 h
  rw [if_pos (ne_of_gt he)] at hr
  have hk0 : 0 < k := by
    by_contra hk0
    have hk0 : k = 0 := by omega
    subst hk0
    have := hT ⟨0, 0, fun i j => if i = j then s i else 0⟩ A.eps
    rw [C27_empty] at this
    have := Except.ok.inj this
    omega
  obtain ⟨r, hr1, hr2, hr3, hr4⟩ := C27_truncation_rank hk0 s hs0 hs A.eps he.le
  have : r = C.rank := by
    rw [hT, ← hr] at hr1
    exact (Except.ok.inj hr1).symm
  subst this
  have full : ∑ i ∈ range A.dim0, ∑ j ∈ range A.dim1, (A.entry i j + B.entry i j) ^ 2 =
      ∑ l ∈ range k, s l ^ 2 := by
    simp only [sq]
    rw [← frob_terms hu hv (s := s)]
    refine Finset.sum_congr rfl (fun i hi => Finset.sum_congr rfl (fun j hj => ?_))
    rw [hf i (mem_range.1 hi) j (mem_range.1 hj)]
  have tail : ∑ i ∈ range A.dim0, ∑ j ∈ range A.dim1, (A.entry i j + B.entry i j - C.entry i j) ^ 2 =
      ∑ l ∈ Ico C.rank k, s l ^ 2 := by
    have e := frob_terms (s := fun l => if l < C.rank then 0 else s l) hu hv
    have e2 : ∑ l ∈ range k, (if l < C.rank then 0 else s l) * (if l < C.rank then 0 else s l) =
        ∑ l ∈ Ico C.rank k, s l ^ 2 := by
      rw [Finset.range_eq_Ico, ← Finset.sum_Ico_consecutive _ (Nat.zero_le _) hk,
        Finset.sum_eq_zero, zero_add]
      · refine Finset.sum_congr rfl (fun l hl => ?_)
        have := (Finset.mem_Ico.1 hl).1
        rw [if_neg (by omega), sq]
      · intro l hl
        rw [if_pos (Finset.mem_Ico.1 hl).2, zero_mul]
    rw [← e2, ← e]
    refine Finset.sum_congr rfl (fun i hi => Finset.sum_congr rfl (fun j hj => ?_))
    have hi := mem_range.1 hi
    have hj := mem_range.1 hj
    rw [← hf i hi j hj, hK.entry w sq' (by rw [d0]; exact hi) (by rw [d1]; exact hj), sq]
    have : terms k u s v i j - terms C.rank u s v i j =
        terms k u (fun l => if l < C.rank then 0 else s l) v i j := by
      obtain ⟨t, rfl⟩ := Nat.exists_eq_add_of_le hk
      rw [terms, terms, terms, sum_range_split, sum_range_split, add_sub_cancel_left,
        Finset.sum_eq_zero (s := range C.rank) (f := fun x => u i x * (if x < C.rank then 0 else s x) * v x j),
        zero_add]
      · refine Finset.sum_congr rfl (fun l _ => ?_)
        rw [if_neg (by omega)]
      · intro l hl
        rw [if_pos (mem_range.1 hl)]; ring
    rw [this]
  rw [tail, full]
  exact hr4

section Examples

/-- The matrix of `outer` over the reals with a tolerance. -/
noncomputable def outerReal (m n : Nat) (x e : ℝ) : LowRank ℝ where
  dim0 := m
  dim1 := n
  rank := 1
  eps := e
  U := ⟨m, 1, fun i _ => i + 1⟩
  S := ⟨1, 1, fun _ _ => x⟩
  V := ⟨1, n, fun _ j => j + 1⟩

theorem outerReal_wf (m n : Nat) (x e : ℝ) : (outerReal m n x e).WF := ⟨rfl, rfl, rfl, rfl, rfl⟩

/-- C26: all hypotheses of the exactness theorems hold together, and the additions
return. -/
example : ∃ (L : Lapack ℝ) (C : LowRank ℝ), L.Factors ∧ L.Ortho ∧ L.Sorted ∧
    (outerReal 4 3 2 0).roundedAdd L (outerReal 4 3 5 0) = .ok C ∧ C.rank = 1 ∧
    ∀ i < 4, ∀ j < 3, C.entry i j = 7 * ((i + 1) * (j + 1)) := by
  obtain ⟨L, hL, hO, hS, -⟩ := Lapack.exists_contract
  have hA := outerReal_wf 4 3 2 0
  have hB := outerReal_wf 4 3 5 0
  obtain ⟨C, hC⟩ := C26_rounded_returns L hA rfl hB rfl rfl rfl (by decide)
  have hr : C.rank = 1 := by
    obtain ⟨-, -, -, -, -, k, u, s, v, -, -, -, -, -, hr⟩ := C26_rounded hL hA hB rfl hC
    simpa [outerReal] using hr
  have sum : ∀ i j, (outerReal 4 3 2 0).entry i j + (outerReal 4 3 5 0).entry i j =
      7 * ((i + 1) * (j + 1)) := by
    intro i j
    simp [LowRank.entry, outerReal]
    ring
  refine ⟨L, C, hL, hO, hS, hC, hr, fun i hi j hj => ?_⟩
  rw [← sum, C26_rounded_exact_of_rank hL hO hS hA hB rfl hC (fun i _ => 7 * (i + 1)) (fun _ j => j + 1)
    (fun i _ j _ => by rw [sum, hr]; simp; ring) i hi j hj]

/-- C26: the hypotheses of the error bound hold together, and the addition
returns. -/
example : ∃ (L : Lapack ℝ) (C : LowRank ℝ), L.Factors ∧ L.Ortho ∧ L.Sorted ∧
    (∀ S e, findSvdTruncationRank S e = .ok (L.truncRank S e)) ∧ 0 < (outerReal 4 3 2 (1 / 10)).eps ∧
    (outerReal 4 3 2 (1 / 10)).roundedAdd L (outerReal 4 3 5 0) = .ok C := by
  obtain ⟨L, hL, hO, hS, hT⟩ := Lapack.exists_contract
  obtain ⟨C, hC⟩ := LowRank.roundedAdd_total (L := L) (outerReal_wf 4 3 2 (1 / 10)) (outerReal_wf 4 3 5 0) rfl rfl
    (fun k s hk => by
      have hk : k = 2 := hk
      subst hk
      rw [if_pos (by norm_num [outerReal])]
      have := hT ⟨2, 2, fun i j => if i = j then s i else 0⟩ (outerReal 4 3 2 (1 / 10)).eps
      rw [findSvdTruncationRank] at this
      obtain ⟨r, hr, -, h2, -⟩ := truncLoop_ok ⟨2, 2, fun i j => if i = j then s i else 0⟩
        ((outerReal 4 3 2 (1 / 10)).eps * Real.sqrt (Mat.normDense ⟨2, 2, fun i j => if i = j then s i else 0⟩))
        2 3 0 (by omega) (by omega)
      have e := hr.symm.trans this
      rw [← Except.ok.inj e]
      omega)
  exact ⟨L, C, hL, hO, hS, hT, by norm_num [outerReal], hC⟩

/-- C26: fast rounded addition. -/
example : ∃ C, (outer 4 3 2).fastAdd (plainLapack ℤ) (outer 4 3 5) = .ok C ∧ C.rank = 1 ∧
    (plainLapack ℤ).Factors := by
  obtain ⟨C, hC⟩ := (C26_fast_returns_iff (plainLapack ℤ) (outer_wf 4 3 2) rfl (outer_wf 4 3 5) rfl rfl rfl
    rfl).2 (by decide)
  exact ⟨C, hC, (C26_fast plainLapack_factors (outer_wf 4 3 2) rfl (outer_wf 4 3 5) rfl rfl hC).2.2.2.2.1,
    plainLapack_factors⟩

end Examples

/-! ### C44 -/

/-- C44.  `rsvd(A, k)` always returns, with factors of the economic dimensions;
there is a basis `Q`, the one returned by the QR routine for the sample `A * RN`,
with `U * S * V = Q * Q^T * A`.  `Q` is orthonormal if the routine returns
orthonormal columns and the sample is not wider than high. -/
theorem C44_rsvd [CommRing R] {L : Lapack R} (hL : L.Factors) (A : Dense R) (k : Nat) :
    ∃ (U S V : Dense R) (Y : Dense R), L.rsvd A k = .ok (U, S, V) ∧
      U.rows = A.rows ∧ U.cols = min k A.cols ∧ S.rows = min k A.cols ∧ S.cols = min k A.cols ∧
      V.rows = min k A.cols ∧ V.cols = A.cols ∧
      Y.rows = A.rows ∧ Y.cols = k ∧
      (∀ i j, Y.val i j = ∑ p ∈ range A.cols, A.val i p * L.random A A.cols k p j) ∧
      (∀ i, ∀ j < A.cols, ∑ l ∈ range (min k A.cols), (∑ p ∈ range (min k A.cols),
          U.val i p * S.val p l) * V.val l j =
        ∑ l ∈ range k, (L.qr Y k).1 i l * ∑ p ∈ range A.rows, (L.qr Y k).1 p l * A.val p j) ∧
      (L.Ortho → k ≤ A.rows → OrthoCols A.rows k (L.qr Y k).1) := by
  refine ⟨_, _, _, L.sample A k, Lapack.rsvd_eq L A k, rfl, rfl, rfl, rfl, rfl, rfl, rfl, rfl,
    fun _ _ => rfl, fun i j hj => ?_, fun hO hk => ?_⟩
  · have h := Lapack.rsvd_terms hL A k (i := i) hj
    refine Eq.trans ?_ (h.trans rfl)
    refine Finset.sum_congr rfl (fun l hl => ?_)
    rw [Finset.sum_eq_single l]
    · simp [Lapack.rsvdU]
    · intro b _ hb
      simp [hb]
    · intro h; exact absurd hl h
  · have := hO.qr (L.sample A k)
    have hm : min (L.sample A k).rows (L.sample A k).cols = k := by
      simp only [Lapack.sample]; omega
    rw [hm] at this
    exact this

theorem Lapack.noOps_fits [CommRing R] : (Lapack.noOps R).Fits False where
  add _ _ _ _ _ _ _ _ _ h := nomatch h
  ofRank _ _ _ h := nomatch h
  ofEps _ _ _ h := nomatch h
  ofHier _ _ _ _ h := nomatch h

/-- C44 for hierarchical matrices: if `rsvd(A, k)` returns (the number of block columns, which it
takes for the number of columns, must be that number), the sample is `A * RN`, the factors have the
economic dimensions and `U * S * V = Q * Q^T * A` for the basis `Q` that the QR routine returns for
the sample. -/
theorem C44_rsvd_hier [CommRing R] [DecidableEq R] {L : Lapack R} (hL : L.Factors) (fuel : Nat)
    {A : Mat R} (hA : A.WF) {bc k : Nat} {U S V : Dense R} (h : L.rsvdHier fuel A bc k = .ok (U, S, V)) :
    A.nCols = bc ∧ U.rows = A.nRows ∧ U.cols = min k bc ∧ S.rows = min k bc ∧ S.cols = min k bc ∧
    V.rows = min k bc ∧ V.cols = bc ∧ ∃ Y : Dense R, Y.rows = A.nRows ∧ Y.cols = k ∧
      (∀ i < A.nRows, ∀ j < k, Y.val i j =
        ∑ p ∈ range A.nCols, A.entry i p * L.random (Dense.zero A.nRows A.nCols) A.nCols k p j) ∧
      ∀ i < A.nRows, ∀ j < A.nCols, ∑ l ∈ range (min k bc), (∑ p ∈ range (min k bc),
          U.val i p * S.val p l) * V.val l j =
        ∑ l ∈ range k, (L.qr Y k).1 i l * ∑ p ∈ range A.nRows, (L.qr Y k).1 p l * A.entry p j := by
  simp only [Lapack.rsvdHier, except_bind_eq_ok] at h
  obtain ⟨Y1, h1, Y, h2, q, h3, Z1, h4, Z, h5, W, h6, h7⟩ := h
  have ht1 : Mat.TransSafe false false A (.dense ⟨bc, k, L.random (Dense.zero A.nRows A.nCols) bc k⟩) := by
    cases A <;> trivial
  have P1 := (Mat.gemmBoth_ok (Lapack.noOps_fits (R := R)) fuel).2 A
    (.dense ⟨bc, k, L.random (Dense.zero A.nRows A.nCols) bc k⟩) 1 false false Y1 hA trivial ht1
    (fun h => h.elim) h1
  cases Y1 with
  | dense Y' => ?_
  | _ => cases h2
  obtain rfl := Except.ok.inj h2
  obtain ⟨-, -, -, rfl⟩ := Lapack.qrInto_ok h3
  have ht2 : Mat.TransSafe true false (.dense ⟨Y'.rows, Y'.cols, (L.qr Y' Y'.cols).1⟩) A := by
    cases A <;> trivial
  have P2 := (Mat.gemmBoth_ok (Lapack.noOps_fits (R := R)) fuel).2
    (.dense ⟨Y'.rows, Y'.cols, (L.qr Y' Y'.cols).1⟩) A 1 true false Z1 trivial hA ht2
    (fun h => h.elim) h4
  cases Z1 with
  | dense Z' => ?_
  | _ => cases h5
  obtain rfl := Except.ok.inj h5
  have i1 : A.nCols = bc := P1.inner
  have r1 : Y'.rows = A.nRows := P1.rows
  have c1 : Y'.cols = k := P1.cols
  have r2 : Z'.rows = Y'.cols := P2.rows
  have c2 : Z'.cols = A.nCols := P2.cols
  have hY : ∀ i < Y'.rows, ∀ j < Y'.cols, Y'.val i j = 1 * ∑ p ∈ range A.nCols,
      A.entry i p * L.random (Dense.zero A.nRows A.nCols) bc k p j := P1.ent
  have hZ : ∀ i < Z'.rows, ∀ j < Z'.cols, Z'.val i j = 1 * ∑ p ∈ range Y'.rows,
      (L.qr Y' Y'.cols).1 p i * A.entry p j := P2.ent
  rw [Dense.gemmNew_ff_eq (by exact r2.symm)] at h6
  obtain rfl := Except.ok.inj h6
  injection h7 with h7
  injection h7 with h8 h7
  injection h7 with h9 h10
  subst h8 h9 h10
  subst i1
  have hm : min Z'.rows Z'.cols = min k A.nCols := by omega
  refine ⟨rfl, r1, hm, hm, hm, hm, c2, Y', r1, c1, fun i hi j hj => ?_, fun i hi j hj => ?_⟩
  · rw [hY i (by omega) j (by omega), one_mul]
  · have svd := fun a ha => hL.svd Z' a ha j (by omega)
    rw [hm] at svd
    simp only [Lapack.svdNew, hm]
    have e1 : ∀ l ∈ range (min k A.nCols), (∑ p ∈ range (min k A.nCols),
        (mm Y'.cols (L.qr Y' Y'.cols).1 (L.svd Z').1 i p) * (if p = l then (L.svd Z').2.1 p else 0)) *
          (L.svd Z').2.2 l j =
        ∑ a ∈ range k, (L.qr Y' k).1 i a * ((L.svd Z').1 a l * (L.svd Z').2.1 l * (L.svd Z').2.2 l j) := by
      intro l hl
      rw [Finset.sum_eq_single l (fun b _ hb => by simp [hb]) (fun h => absurd hl h), if_pos rfl, mm, c1,
        Finset.sum_mul, Finset.sum_mul]
      exact Finset.sum_congr rfl (fun _ _ => by ring)
    refine (Finset.sum_congr rfl e1).trans ?_
    rw [Finset.sum_comm]
    refine Finset.sum_congr rfl (fun a ha => ?_)
    have ha : a < k := by simpa using ha
    rw [← Finset.mul_sum]
    have := svd a (by omega)
    rw [terms] at this
    rw [this, hZ a (by omega) j (by omega), one_mul, r1, c1]

/-- C44.  If the sample spans the column space of `A` (`A = Y * X` for some `X`),
`rsvd` is exact. -/
theorem C44_rsvd_exact [CommRing R] {L : Lapack R} (hL : L.Factors) (hO : L.Ortho) {A : Dense R} {k : Nat}
    (hk : k ≤ A.rows) (X : Nat → Nat → R)
    (hX : ∀ i < A.rows, ∀ j < A.cols, A.val i j =
      ∑ l ∈ range k, (∑ p ∈ range A.cols, A.val i p * L.random A A.cols k p l) * X l j)
    {U S V : Dense R} (h : L.rsvd A k = .ok (U, S, V)) :
    ∀ i < A.rows, ∀ j < A.cols, ∑ l ∈ range (min k A.cols), (∑ p ∈ range (min k A.cols),
      U.val i p * S.val p l) * V.val l j = A.val i j := by
  obtain ⟨U', S', V', Y, h', -, -, -, -, -, -, y0, y1, yv, hf, ho⟩ := C44_rsvd hL A k
  rw [h] at h'
  have h' := Except.ok.inj h'
  simp only [Prod.mk.injEq] at h'
  obtain ⟨rfl, rfl, rfl⟩ := h'
  intro i hi j hj
  rw [hf i j hj]
  have hq := hL.qr Y
  rw [show min Y.rows Y.cols = k by omega, y0, y1] at hq
  have ho := ho hO hk
  generalize (L.qr Y k).1 = Q at *
  generalize (L.qr Y k).2 = T at *
  -- `A = Q * (T * X)`
  have e : ∀ i < A.rows, ∀ j < A.cols, A.val i j =
      ∑ l ∈ range k, Q i l * ∑ p ∈ range k, T l p * X p j := by
    intro i hi j hj
    rw [hX i hi j hj]
    simp only [Finset.mul_sum]
    rw [Finset.sum_comm]
    refine Finset.sum_congr rfl (fun l hl => ?_)
    rw [← yv, ← hq i hi l (mem_range.1 hl), Finset.sum_mul]
    exact Finset.sum_congr rfl (fun _ _ => by ring)
  rw [e i hi j hj]
  refine Finset.sum_congr rfl (fun l hl => ?_)
  congr 1
  have : ∀ p ∈ range A.rows, Q p l * A.val p j =
      ∑ q ∈ range k, (Q p l * Q p q) * ∑ r ∈ range k, T q r * X r j := by
    intro p hp
    rw [e p (mem_range.1 hp) j hj, Finset.mul_sum]
    exact Finset.sum_congr rfl (fun _ _ => by ring)
  rw [Finset.sum_congr rfl this, Finset.sum_comm]
  simp only [← Finset.sum_mul]
  have hl := mem_range.1 hl
  rw [Finset.sum_congr rfl (fun q hq => by rw [ho l hl q (mem_range.1 hq)])]
  simp [hl]

/-- C44.  The low-rank constructor from a dense matrix returns if and only if the
requested rank does not exceed the dimensions; the result has the requested rank
and consistent factors. -/
theorem C44_low_rank_from_dense [CommRing R] (L : Lapack R) (A : Dense R) (rank : Nat) :
    ((∃ C, L.ofRank A rank = .ok C) ↔ rank ≤ min A.rows A.cols) ∧
    ∀ C, L.ofRank A rank = .ok C → C.WF ∧ C.Square ∧ C.dim0 = A.rows ∧ C.dim1 = A.cols ∧ C.rank = rank := by
  refine ⟨⟨fun ⟨C, hC⟩ => (Lapack.ofRank_ok hC).1, Lapack.ofRank_total L⟩, fun C hC => ?_⟩
  obtain ⟨-, w, s, d0, d1, r, -⟩ := Lapack.ofRank_ok hC
  exact ⟨w, s, d0, d1, r⟩

/-- C44.  The low-rank constructor is exact if the sample it takes (of `rank + 5`
columns, or fewer if the dimensions are smaller) spans the column space of `A` and
`A` has at most the requested rank. -/
theorem C44_low_rank_from_dense_exact {L : Lapack ℝ} (hL : L.Factors) (hO : L.Ortho) (hS : L.Sorted)
    {A : Dense ℝ} {rank k : Nat} (hk : k = min (min (rank + 5) A.rows) A.cols)
    (X : Nat → Nat → ℝ)
    (hX : ∀ i < A.rows, ∀ j < A.cols, A.val i j =
      ∑ l ∈ range k, (∑ p ∈ range A.cols, A.val i p * L.random A A.cols k p l) * X l j)
    (Y Z : Nat → Nat → ℝ)
    (hY : ∀ i < A.rows, ∀ j < A.cols, A.val i j = ∑ l ∈ range rank, Y i l * Z l j)
    {C : LowRank ℝ} (h : L.ofRank A rank = .ok C) :
    ∀ i < A.rows, ∀ j < A.cols, C.entry i j = A.val i j := by
  obtain ⟨hr, w, sq, d0, d1, r, -, K⟩ := Lapack.ofRank_ok h
  rw [← hk] at K
  have hkr : k ≤ A.rows := by omega
  have hkc : min k A.cols = k := by omega
  have ex := C44_rsvd_exact hL hO hkr X hX (Lapack.rsvd_eq L A k)
  have hf : ∀ i < A.rows, ∀ j < A.cols, terms k (L.rsvdU A k) (L.svd (L.projected A k)).2.1
      (L.svd (L.projected A k)).2.2 i j = A.val i j := by
    intro i hi j hj
    refine Eq.trans ?_ (ex i hi j hj)
    rw [terms, hkc]
    refine Finset.sum_congr rfl (fun l hl => ?_)
    rw [Finset.sum_eq_single l]
    · simp [Lapack.rsvdU]
    · intro b _ hb
      simp [hb]
    · intro h; exact absurd hl h
  have hq : OrthoCols A.rows k (L.qr (L.sample A k) k).1 := by
    have := hO.qr (L.sample A k)
    rwa [show min (L.sample A k).rows (L.sample A k).cols = k by simp only [Lapack.sample]; omega] at this
  have hp : min (L.projected A k).rows (L.projected A k).cols = k := by
    simp only [Lapack.projected]; omega
  have hu : OrthoCols A.rows k (L.rsvdU A k) := by
    refine Lapack.OrthoCols_mm hq ?_
    have := hO.svdU (L.projected A k)
    rwa [hp] at this
  have hv : OrthoRows A.cols k (L.svd (L.projected A k)).2.2 := by
    have := hO.svdV (L.projected A k)
    rwa [hp] at this
  have hz := sing_zero_of_rank hu hv (by have := hS.nonneg (L.projected A k); rwa [hp] at this)
    (by have := hS.anti (L.projected A k); rwa [hp] at this) Y Z (r := rank)
    (fun i hi j hj => by rw [hf i hi j hj, hY i hi j hj]; rfl)
  intro i hi j hj
  rw [K.entry w sq (by rw [d0]; exact hi) (by rw [d1]; exact hj), r, ← hf i hi j hj,
    terms_le (by omega) hz]

section Examples

/-- C44: the constructor returns for a rank the dimensions allow. -/
example : ∃ C, (plainLapack ℤ).ofRank ⟨3, 2, fun i j => i * j⟩ 2 = .ok C ∧ C.rank = 2 := by
  obtain ⟨h, h'⟩ := C44_low_rank_from_dense (plainLapack ℤ) ⟨3, 2, fun i j => i * j⟩ 2
  obtain ⟨C, hC⟩ := h.2 (by decide)
  exact ⟨C, hC, (h' C hC).2.2.2.2⟩

/-- C44: a 3-by-2 matrix of 1-by-1 blocks has as many block columns as columns. -/
example : ∃ U S V, (plainLapack ℤ).rsvdHier 9 (.hier 3 2 (fun i j => .dense ⟨1, 1, fun _ _ => i + 2 * j⟩)) 2 2 =
    .ok (U, S, V) ∧ U.rows = 3 ∧ V.cols = 2 := by
  obtain ⟨⟨U, S, V⟩, h, -⟩ := okAnd_spec (x := (plainLapack ℤ).rsvdHier 9 (.hier 3 2 (fun i j =>
    .dense ⟨1, 1, fun _ _ => (i : ℤ) + 2 * j⟩)) 2 2) (P := fun _ => true) (by decide +kernel)
  have e := C44_rsvd_hier (A := .hier 3 2 (fun i j =>
    .dense ⟨1, 1, fun _ _ => (i : ℤ) + 2 * j⟩)) plainLapack_factors 9 ⟨by decide, by decide, fun i _ j _ => ⟨trivial, rfl, rfl⟩⟩ h
  exact ⟨U, S, V, h, e.2.1, e.2.2.2.2.2.2.1⟩

/-- C44: the hypotheses of the exactness theorems hold together; here the sample
is `A` itself. -/
example : ∃ (L : Lapack ℝ) (C : LowRank ℝ), L.Factors ∧ L.Ortho ∧ L.Sorted ∧
    L.ofRank ⟨5, 4, fun i j => (i + 1) * (j + 1)⟩ 1 = .ok C ∧
    ∀ i < 5, ∀ j < 4, C.entry i j = (i + 1) * (j + 1) := by
  obtain ⟨L, hL, hO, hS, -⟩ := Lapack.exists_contract
  let L' : Lapack ℝ := { L with random := fun _ _ _ i j => if i = j then 1 else 0 }
  have hL' : L'.Factors := ⟨hL.qr, hL.rq, hL.svd⟩
  have hO' : L'.Ortho := ⟨hO.qr, hO.rq, hO.svdU, hO.svdV⟩
  have hS' : L'.Sorted := ⟨hS.nonneg, hS.anti⟩
  obtain ⟨C, hC⟩ := (C44_low_rank_from_dense L' ⟨5, 4, fun i j => (i + 1) * (j + 1)⟩ 1).1.2 (by
    simp only; omega)
  refine ⟨L', C, hL', hO', hS', hC, ?_⟩
  refine C44_low_rank_from_dense_exact hL' hO' hS' (k := 4) (by simp) (fun i j => if i = j then 1 else 0)
    (fun i hi j hj => ?_) (fun i _ => i + 1) (fun _ j => j + 1) (fun i _ j _ => by simp) hC
  have hj : j < 4 := hj
  simp only [L', mul_ite, mul_one, mul_zero]
  rw [Finset.sum_ite_eq' (range 4) j, if_pos (mem_range.2 hj), Finset.sum_ite_eq' (range 4) j,
    if_pos (mem_range.2 hj)]

end Examples

end Verif
