import Verif.Lemmas.Compress
import Verif.Lemmas.LrAdd
import Verif.Props.MatBasic

/-
C61: compression with a tolerance meets that tolerance, block by block and for the
whole hierarchical matrix.
-/

namespace Verif
open Finset
variable {K : Type} [Field K] [LinearOrder K]

theorem lowRankOfEps_ok {E : Geqp3Env} {L : Lapack ℝ} {A : Dense ℝ} {eps : ℝ} {C : LowRank ℝ}
    (hE : E.Sound) (he : 0 ≤ eps) (h : lowRankOfEps E L A eps = .ok C) :
    ∃ Q R, truncatedGeqp3 E A eps = .ok (Q, R) ∧ (L.withGeqp3 E).ofEps A eps = .ok C ∧
      (L.withGeqp3 E).geqp3 A eps = (Q.cols, Q.val, R.val) ∧ C.U = Q := by
  simp only [lowRankOfEps, except_bind_eq_ok] at h
  obtain ⟨⟨Q, R⟩, hf, g, hg, h⟩ := h
  obtain ⟨q0, r0, r1, -⟩ := C45_error hE he hf
  have e : (L.withGeqp3 E).geqp3 A eps = (Q.cols, Q.val, R.val) := by
    simp only [Lapack.withGeqp3, hf]
  obtain ⟨Qr, Qc, Qv⟩ := Q
  obtain ⟨Rr, Rc, Rv⟩ := R
  simp only at q0 r0 r1
  subst q0 r0 r1
  have hC := Except.ok.inj h
  refine ⟨_, _, hf, ?_, e, by rw [← hC]⟩
  have hg' : (L.withGeqp3 E).rqInto ⟨Rr, A.cols, Rv⟩ Rr Rr Rr A.cols = .ok g := hg
  simp only [Lapack.ofEps, e, hg', except_bind_ok]
  exact h

/-- C61: the low-rank matrix has the dimensions of `A` and its error is, in every column, at
most `eps` times the Frobenius norm of `A` (or machine precision). -/
theorem C61_columns {E : Geqp3Env} (hE : E.Sound) {L : Lapack ℝ} (hL : L.Factors) {A : Dense ℝ} {eps : ℝ}
    (he : 0 ≤ eps) {C : LowRank ℝ} (h : lowRankOfEps E L A eps = .ok C) :
    C.WF ∧ C.dim0 = A.rows ∧ C.dim1 = A.cols ∧ ∀ c < A.cols,
      Real.sqrt (∑ i ∈ range A.rows, (A.val i c - C.entry i c) ^ 2) ≤
        max E.tol (eps * Real.sqrt (∑ i ∈ range A.rows, ∑ j ∈ range A.cols, A.val i j ^ 2)) := by
  obtain ⟨Q, R, hf, hC, hg, -⟩ := lowRankOfEps_ok hE he h
  have hL' : (L.withGeqp3 E).Factors := ⟨hL.qr, hL.rq, hL.svd⟩
  obtain ⟨w, -, c0, c1, -⟩ := Lapack.ofEps_ok hC
  refine ⟨w, c0, c1, fun c hc => ?_⟩
  obtain ⟨C', hC', -, -, -, -, hb⟩ := C44_low_rank_from_eps hE hL' he (by omega) hf hg
  rw [hC] at hC'
  cases Except.ok.inj hC'
  simp only [pow_two] at hb ⊢
  exact hb c hc

/-- C61: the Frobenius norm of the error of a compressed block is at most `sqrt n` times
`eps` times that of the block, or `sqrt n` times machine precision. -/
theorem C61_low_rank {E : Geqp3Env} (hE : E.Sound) {L : Lapack ℝ} (hL : L.Factors) {A : Dense ℝ} {eps : ℝ}
    (he : 0 ≤ eps) {C : LowRank ℝ} (h : lowRankOfEps E L A eps = .ok C) :
    Real.sqrt (∑ i ∈ range A.rows, ∑ j ∈ range A.cols, (A.val i j - C.entry i j) ^ 2) ≤
      Real.sqrt A.cols *
        max E.tol (eps * Real.sqrt (∑ i ∈ range A.rows, ∑ j ∈ range A.cols, A.val i j ^ 2)) := by
  obtain ⟨-, -, -, hc⟩ := C61_columns hE hL he h
  set m := max E.tol (eps * Real.sqrt (∑ i ∈ range A.rows, ∑ j ∈ range A.cols, A.val i j ^ 2)) with hm
  have hm0 : 0 ≤ m := le_max_of_le_right (mul_nonneg he (Real.sqrt_nonneg _))
  rw [← Real.sqrt_sq hm0, ← Real.sqrt_mul (Nat.cast_nonneg _)]
  refine Real.sqrt_le_sqrt ?_
  rw [Finset.sum_comm]
  refine (Finset.sum_le_sum (g := fun _ => m ^ 2) fun c hc' => ?_).trans (le_of_eq ?_)
  · exact (Real.sqrt_le_left hm0).1 (hc c (mem_range.1 hc'))
  · rw [Finset.sum_const, card_range, nsmul_eq_mul]

/-- C61: the construction returns for every matrix with a row, if reading one element past the
end of the column norms does no harm (`C45_reads_past_end`). -/
theorem C61_returns (E : Geqp3Env) {x : ℝ} (hp : E.past = .ok x) (hE : E.Sound) (L : Lapack ℝ) {A : Dense ℝ}
    (hA : 0 < A.rows) {eps : ℝ} (he : 0 ≤ eps) : ∃ C, lowRankOfEps E L A eps = .ok C := by
  obtain ⟨⟨Q, R⟩, hf⟩ := C45_returns E hp A hA eps
  obtain ⟨-, r0, r1, -⟩ := C45_error hE he hf
  simp [lowRankOfEps, hf, except_bind_ok, Lapack.rqInto, assertM, r0, r1]

/-- C61: the columns of the left factor are orthonormal, unless all columns of the block are below
machine precision (where the factor is the first unit vector, also orthonormal); so are the
rows of the right factor. -/
theorem C61_orthonormal {E : Geqp3Env} (hE : E.Sound) {L : Lapack ℝ} (hO : L.Ortho) {A : Dense ℝ} {eps : ℝ}
    (he : 0 ≤ eps) (h0 : 0 < A.rows) (h1 : 0 < A.cols) {C : LowRank ℝ} (h : lowRankOfEps E L A eps = .ok C) :
    OrthoCols A.rows C.rank C.U.val ∧ OrthoRows A.cols C.rank C.V.val := by
  simp only [lowRankOfEps, except_bind_eq_ok] at h
  obtain ⟨⟨Q, R⟩, hf, g, hg, h⟩ := h
  obtain ⟨q0, r0, r1, -⟩ := C45_error hE he hf
  obtain ⟨-, -, -, rfl⟩ := Lapack.rqInto_ok hg
  cases Except.ok.inj h
  have hq : Q.cols ≤ A.cols ∧ OrthoCols A.rows Q.cols Q.val := by
    rcases C45_factor hE hf with ⟨r, P, H, B, hF, -, -⟩ | ⟨-, -, q1, -, -, hz, -⟩
    · rw [hF.Qdims.2]
      exact ⟨hF.le.trans (Nat.min_le_right _ _), C45_orthonormal hF⟩
    · rw [q1]
      refine ⟨h1, fun a ha b hb => ?_⟩
      obtain rfl : a = 0 := by omega
      obtain rfl : b = 0 := by omega
      rw [Finset.sum_eq_single 0 (fun i hi hne => by rw [hz i (mem_range.1 hi), if_neg hne, mul_zero])
        (fun hn => absurd (mem_range.2 h0) hn), hz 0 h0]
      simp
  refine ⟨hq.2, ?_⟩
  have := hO.rq R
  rw [r0, r1, min_eq_left hq.1] at this
  exact this

/-- C61: the factor `sqrt n` cannot be improved.  A matrix of ones, compressed with tolerance
`1 / sqrt n`, has rank one but becomes zero: the error is the norm of the matrix. -/
theorem C61_sharp (E : Geqp3Env) (L : Lapack ℝ) {m n : Nat} (hn : 0 < n) (ht : E.tol < Real.sqrt m) :
    ∃ C, lowRankOfEps E L ⟨m, n, fun _ _ => 1⟩ (1 / Real.sqrt n) = .ok C ∧ C.rank = 0 ∧ (∀ i j, C.entry i j = 0) ∧
      Real.sqrt (∑ i ∈ range m, ∑ j ∈ range n, (1 - C.entry i j) ^ 2) =
        Real.sqrt n * (1 / Real.sqrt n * Real.sqrt (∑ _i ∈ range m, ∑ _j ∈ range n, (1 : ℝ) ^ 2)) := by
  have hn' : (0 : ℝ) < n := by exact_mod_cast hn
  have hs : Real.sqrt n ≠ 0 := (Real.sqrt_pos.2 hn').ne'
  have hc : ∀ j, (Geqp3.init m (fun _ _ => (1 : ℝ))).cnorm j = Real.sqrt m := fun j => by
    simp [Geqp3.init, Geqp3.colNorm]
  have hthr : 1 / Real.sqrt n * Real.sqrt (Mat.normDense (⟨m, n, fun _ _ => 1⟩ : Dense ℝ)) = Real.sqrt m := by
    have : Mat.normDense (⟨m, n, fun _ _ => 1⟩ : Dense ℝ) = n * m := by
      simp [Mat.normDense, mul_comm]
    rw [this, Real.sqrt_mul hn'.le, ← mul_assoc, one_div, inv_mul_cancel₀ hs, one_mul]
  have hrun : ∀ t, Geqp3.run E m n (Real.sqrt m) t (Geqp3.init m (fun _ _ => (1 : ℝ))) (Real.sqrt m) =
      .ok (Geqp3.init m (fun _ _ => (1 : ℝ))) := by
    intro t
    cases t with
    | zero => rfl
    | succ t => rw [Geqp3.run, if_neg (lt_irrefl _)]
  have hg : truncatedGeqp3 E ⟨m, n, fun _ _ => 1⟩ (1 / Real.sqrt n) =
      .ok (Geqp3.formQ m (Geqp3.init m (fun _ _ => (1 : ℝ))), Geqp3.formR n (Geqp3.init m (fun _ _ => (1 : ℝ)))) := by
    simp only [truncatedGeqp3, hthr, Geqp3.maxAt, hn, if_true, hc, except_bind_ok, hrun, not_le.2 ht, if_false]
  have hC : ∃ C, lowRankOfEps E L ⟨m, n, fun _ _ => 1⟩ (1 / Real.sqrt n) = .ok C ∧ C.rank = 0 ∧ C.S.cols = 0 := by
    simp only [lowRankOfEps, hg, except_bind_ok, Lapack.rqInto, Geqp3.formQ, Geqp3.formR, Geqp3.init,
      assertM, decide_true, if_true]
    exact ⟨_, rfl, rfl, rfl⟩
  obtain ⟨C, hC, hr, hs0⟩ := hC
  have he : ∀ i j, C.entry i j = 0 := fun i j => by
    rw [LowRank.entry, hs0, Finset.sum_range_zero]
  refine ⟨C, hC, hr, he, ?_⟩
  simp only [he, sub_zero]
  rw [← mul_assoc, mul_one_div, div_self hs, one_mul]

/-- The squared error of a block, entry by entry. -/
theorem lowRankOfEps_sq {E : Geqp3Env} (hE : E.Sound) {L : Lapack ℝ} (hL : L.Factors) {A : Dense ℝ} {eps : ℝ}
    (he : 0 ≤ eps) (ht : 0 ≤ E.tol) {N : Nat} (hN : A.cols ≤ N) {C : LowRank ℝ} (h : lowRankOfEps E L A eps = .ok C) :
    ∑ i ∈ range A.rows, ∑ j ∈ range A.cols, (A.val i j - C.entry i j) ^ 2 ≤
      ∑ i ∈ range A.rows, ∑ j ∈ range A.cols, (N * eps ^ 2 * A.val i j ^ 2 + E.tol ^ 2) := by
  have hb := C61_low_rank hE hL he h
  rcases Nat.eq_zero_or_pos A.rows with h0 | h0
  · rw [h0]; simp
  set S := ∑ i ∈ range A.rows, ∑ j ∈ range A.cols, A.val i j ^ 2 with hS
  have hS0 : 0 ≤ S := Finset.sum_nonneg fun _ _ => Finset.sum_nonneg fun _ _ => sq_nonneg _
  have hm0 : 0 ≤ max E.tol (eps * Real.sqrt S) := le_max_of_le_left ht
  have hb' := (Real.sqrt_le_left (mul_nonneg (Real.sqrt_nonneg _) hm0)).1 hb
  rw [mul_pow, Real.sq_sqrt (Nat.cast_nonneg _)] at hb'
  have hmax : (max E.tol (eps * Real.sqrt S)) ^ 2 ≤ E.tol ^ 2 + eps ^ 2 * S := by
    rcases max_choice E.tol (eps * Real.sqrt S) with h | h <;> rw [h]
    · have := mul_nonneg (sq_nonneg eps) hS0
      linarith
    · rw [mul_pow, Real.sq_sqrt hS0]
      have := sq_nonneg E.tol
      linarith
  have hrhs : ∑ i ∈ range A.rows, ∑ j ∈ range A.cols, ((N : ℝ) * eps ^ 2 * A.val i j ^ 2 + E.tol ^ 2) =
      N * eps ^ 2 * S + A.rows * (A.cols * E.tol ^ 2) := by
    simp only [Finset.sum_add_distrib, ← Finset.mul_sum, Finset.sum_const, card_range, nsmul_eq_mul]
    rw [hS]
    ring
  rw [hrhs]
  have h1 : (1 : ℝ) ≤ A.rows := by exact_mod_cast h0
  have h2 : (A.cols : ℝ) ≤ N := by exact_mod_cast hN
  have h3 : (0 : ℝ) ≤ A.cols := Nat.cast_nonneg _
  calc _ ≤ (A.cols : ℝ) * (E.tol ^ 2 + eps ^ 2 * S) := hb'.trans (mul_le_mul_of_nonneg_left hmax h3)
    _ = A.cols * E.tol ^ 2 + A.cols * (eps ^ 2 * S) := by ring
    _ ≤ A.rows * (A.cols * E.tol ^ 2) + N * (eps ^ 2 * S) := by
        refine add_le_add ?_ ?_
        · exact le_mul_of_one_le_left (mul_nonneg h3 (sq_nonneg _)) h1
        · exact mul_le_mul_of_nonneg_right h2 (mul_nonneg (sq_nonneg _) hS0)
    _ = _ := by ring

theorem lowRankOfEps_fits {E : Geqp3Env} (hE : E.Sound) {L : Lapack ℝ} {eps : ℝ} (he : 0 ≤ eps) :
    FittingCompressor (fun d => lowRankOfEps E L d eps) := by
  intro d l h
  obtain ⟨Q, R, -, hC, -⟩ := lowRankOfEps_ok hE he h
  obtain ⟨w, -, c0, c1, -⟩ := Lapack.ofEps_ok hC
  exact ⟨w, c0, c1⟩

theorem sum_budget (m n : Nat) (a b : ℝ) (v : Nat → Nat → ℝ) :
    ∑ i ∈ range m, ∑ j ∈ range n, (a * v i j ^ 2 + b) = a * ∑ i ∈ range m, ∑ j ∈ range n, v i j ^ 2 + m * n * b := by
  simp only [Finset.sum_add_distrib, ← Finset.mul_sum, Finset.sum_const, card_range, nsmul_eq_mul]
  ring

/-- C61: a hierarchical matrix built from a kernel with tolerance `eps`: the squared error summed
over all entries is at most `n eps²` times the sum of the squared entries, plus `m n` times
the square of machine precision, whatever the sizes, blocks, depth and admissibility. -/
theorem C61_kernel {E : Geqp3Env} (hE : E.Sound) (ht : 0 ≤ E.tol) {L : Lapack ℝ} (hL : L.Factors) {eps : ℝ}
    (he : 0 ≤ eps) {k : KernelFn ℝ} {f : Int → Int → ℝ} (hk : ComputesEntries k f) {fuel m n : Nat} {nleaf : Int}
    {a : Admis K} {br bc : Nat} (hbr : 1 ≤ br) (hbc : 1 ≤ bc) {rs cs : Int} {M : Mat ℝ}
    (h : hierOfKernel fuel k (fun d => lowRankOfEps E L d eps) m n nleaf a br bc rs cs = .ok M) :
    ∃ D, M.toDense = .ok D ∧ D.rows = m ∧ D.cols = n ∧
      ∑ i ∈ range m, ∑ j ∈ range n, (f (rs + i) (cs + j) - D.val i j) ^ 2 ≤
        n * eps ^ 2 * ∑ i ∈ range m, ∑ j ∈ range n, f (rs + i) (cs + j) ^ 2 + m * n * E.tol ^ 2 := by
  obtain ⟨w, m0, n0, -⟩ := C08_kernel_matrix hk (lowRankOfEps_fits hE he) hbr hbc h
  rw [hierOfKernel, except_bind_eq_ok] at h
  obtain ⟨tr, htr, hM⟩ := h
  obtain ⟨ch, rfl⟩ := build_root_node htr
  have := ClusterTree.toMat_error (g := fun x => n * eps ^ 2 * x ^ 2 + E.tol ^ 2) (N := n)
    (fun x => by positivity) (lowRankOfEps_fits hE he) (kernelFill_ok hk)
    (fun d l hd hl => lowRankOfEps_sq hE hL he ht hd hl) htr hbr hbc (by simp [ClusterTree.rootInfo]) hM
  simp only [ClusterTree.rootInfo, m0, n0] at this
  obtain ⟨D, hD, d0, d1, dv⟩ := Mat.toDense_ok M w
  refine ⟨D, hD, by omega, by omega, ?_⟩
  rw [sum_budget m n _ _ (fun i j => f (rs + i) (cs + j))] at this
  refine le_trans (le_of_eq ?_) this
  exact Finset.sum_congr rfl fun i hi => Finset.sum_congr rfl fun j hj => by
    rw [dv i (by have := mem_range.1 hi; omega) j (by have := mem_range.1 hj; omega)]

/-- C61: the same for a hierarchical matrix converted from a dense one. -/
theorem C61_dense {E : Geqp3Env} (hE : E.Sound) (ht : 0 ≤ E.tol) {L : Lapack ℝ} (hL : L.Factors) {eps : ℝ}
    (he : 0 ≤ eps) {A : Dense ℝ} {fuel : Nat} {nleaf : Int} {a : Admis K} {br bc : Nat} (hbr : 1 ≤ br)
    (hbc : 1 ≤ bc) {M : Mat ℝ}
    (h : hierOfDense fuel A (fun d => lowRankOfEps E L d eps) nleaf a br bc 0 0 = .ok M) :
    ∃ D, M.toDense = .ok D ∧ D.rows = A.rows ∧ D.cols = A.cols ∧
      ∑ i ∈ range A.rows, ∑ j ∈ range A.cols, (A.val i j - D.val i j) ^ 2 ≤
        A.cols * eps ^ 2 * ∑ i ∈ range A.rows, ∑ j ∈ range A.cols, A.val i j ^ 2 + A.rows * A.cols * E.tol ^ 2 := by
  rw [hierOfDense, except_bind_eq_ok] at h
  obtain ⟨tr, htr, hM⟩ := h
  obtain ⟨ch, rfl⟩ := build_root_node htr
  obtain ⟨w, -, m0, n0, -⟩ := ClusterTree.toMat_spec (lowRankOfEps_fits hE he) blockFill_dims htr hbr hbc hM
  have := ClusterTree.toMat_error (f := fun x y => A.val x.toNat y.toNat)
    (g := fun x => A.cols * eps ^ 2 * x ^ 2 + E.tol ^ 2) (N := A.cols)
    (fun x => by positivity) (lowRankOfEps_fits hE he) blockFill_ok
    (fun d l hd hl => lowRankOfEps_sq hE hL he ht hd hl) htr hbr hbc (by simp [ClusterTree.rootInfo]) hM
  simp only [ClusterTree.rootInfo] at m0 n0
  have m0' : M.nRows = A.rows := by omega
  have n0' : M.nCols = A.cols := by omega
  simp only [ClusterTree.rootInfo, m0', n0', zero_add, Int.toNat_natCast] at this
  obtain ⟨D, hD, d0, d1, dv⟩ := Mat.toDense_ok M w
  refine ⟨D, hD, by omega, by omega, ?_⟩
  rw [sum_budget] at this
  refine le_trans (le_of_eq ?_) this
  exact Finset.sum_congr rfl fun i hi => Finset.sum_congr rfl fun j hj => by
    rw [dv i (by have := mem_range.1 hi; omega) j (by have := mem_range.1 hj; omega)]

/-- C61: the compression error the example programs print, `l2_error(D, M)` for the dense matrix `D`
of the kernel and its compressed form `M`, is at most `sqrt n` times the requested tolerance, up to
machine precision relative to the norm of the matrix. -/
theorem C61_l2_error {E : Geqp3Env} (hE : E.Sound) (ht : 0 ≤ E.tol) {L : Lapack ℝ} (hL : L.Factors) {eps : ℝ}
    (he : 0 ≤ eps) {k : KernelFn ℝ} {f : Int → Int → ℝ} (hk : ComputesEntries k f) {fuel m n : Nat} {nleaf : Int}
    {a : Admis K} {br bc : Nat} (hbr : 1 ≤ br) (hbc : 1 ≤ bc) {M : Mat ℝ} {A : Dense ℝ}
    (h : hierOfKernel fuel k (fun d => lowRankOfEps E L d eps) m n nleaf a br bc 0 0 = .ok M)
    (hA : Dense.ofKernel k m n 0 0 = .ok A) {machEps e : ℝ} (hm : 0 < machEps) {fuel' : Nat}
    (hl : l2Error machEps fuel' (.dense A) M = .ok e) :
    e ≤ Real.sqrt n * eps + Real.sqrt (m * n) * E.tol /
      Real.sqrt (∑ i ∈ range m, ∑ j ∈ range n, f i j ^ 2 + machEps) := by
  obtain ⟨w, -⟩ := C08_kernel_matrix hk (lowRankOfEps_fits hE he) hbr hbc h
  obtain ⟨D, hD, d0, d1, hb⟩ := C61_kernel hE ht hL he hk hbr hbc h
  obtain ⟨a', b', ha, hb', -, -, rfl⟩ := C20_l2_error_value machEps fuel' (.dense A) M trivial w e hl
  rw [hD] at hb'
  cases Except.ok.inj hb'
  obtain ⟨a'', ha', a0, a1, av⟩ := Mat.toDense_ok (.dense A) trivial
  rw [ha] at ha'
  cases Except.ok.inj ha'
  obtain ⟨A0, A1, Av⟩ : A.rows = m ∧ A.cols = n ∧ ∀ i < m, ∀ j < n, A.val i j = f i j := by
    rw [Dense.ofKernel, except_bind_eq_ok] at hA
    obtain ⟨mem, hmem, hA⟩ := hA
    cases hA
    refine ⟨rfl, rfl, fun i hi j hj => ?_⟩
    have := hk _ _ _ _ _ _ _ (le_refl _) hmem i hi j hj
    simpa using this
  rw [Mat.nRows, A0] at a0
  rw [Mat.nCols, A1] at a1
  have av' : ∀ i < m, ∀ j < n, a'.val i j = f i j := fun i hi j hj => by
    rw [av i (by rw [Mat.nRows]; omega) j (by rw [Mat.nCols]; omega), Mat.entry, Av i hi j hj]
  rw [a0, a1]
  set S := ∑ i ∈ range m, ∑ j ∈ range n, f i j ^ 2 with hS
  have e1 : ∑ i ∈ range m, ∑ j ∈ range n, a'.val i j * a'.val i j = S :=
    Finset.sum_congr rfl fun i hi => Finset.sum_congr rfl fun j hj => by
      rw [av' i (mem_range.1 hi) j (mem_range.1 hj), pow_two]
  have e2 : ∑ i ∈ range m, ∑ j ∈ range n, (a'.val i j - D.val i j) * (a'.val i j - D.val i j) ≤
      n * eps ^ 2 * S + m * n * E.tol ^ 2 := by
    refine le_trans (le_of_eq ?_) (by simpa using hb)
    exact Finset.sum_congr rfl fun i hi => Finset.sum_congr rfl fun j hj => by
      rw [av' i (mem_range.1 hi) j (mem_range.1 hj), pow_two]
  rw [e1]
  have hS0 : 0 ≤ S := Finset.sum_nonneg fun _ _ => Finset.sum_nonneg fun _ _ => sq_nonneg _
  have hp : 0 < S + machEps := by linarith
  have hn : (0 : ℝ) ≤ n := Nat.cast_nonneg _
  have hmn : (0 : ℝ) ≤ m * n := mul_nonneg (Nat.cast_nonneg _) hn
  have hx : 0 ≤ Real.sqrt n * eps := mul_nonneg (Real.sqrt_nonneg _) he
  have hy : 0 ≤ Real.sqrt (m * n) * E.tol / Real.sqrt (S + machEps) :=
    div_nonneg (mul_nonneg (Real.sqrt_nonneg _) ht) (Real.sqrt_nonneg _)
  refine (Real.sqrt_le_left (add_nonneg hx hy)).2 ?_
  have h1 : (Real.sqrt n * eps) ^ 2 = n * eps ^ 2 := by rw [mul_pow, Real.sq_sqrt hn]
  have h2 : (Real.sqrt (m * n) * E.tol / Real.sqrt (S + machEps)) ^ 2 = m * n * E.tol ^ 2 / (S + machEps) := by
    rw [div_pow, mul_pow, Real.sq_sqrt hmn, Real.sq_sqrt hp.le]
  calc _ ≤ (n * eps ^ 2 * S + m * n * E.tol ^ 2) / (S + machEps) := div_le_div_of_nonneg_right e2 hp.le
    _ ≤ (n * eps ^ 2 * (S + machEps) + m * n * E.tol ^ 2) / (S + machEps) := by
        refine div_le_div_of_nonneg_right ?_ hp.le
        have := mul_nonneg (mul_nonneg hn (sq_nonneg eps)) hm.le
        linarith
    _ = n * eps ^ 2 + m * n * E.tol ^ 2 / (S + machEps) := by
        rw [add_div, mul_div_assoc, div_self hp.ne', mul_one]
    _ ≤ _ := by
        rw [← h1, ← h2]
        have := mul_nonneg hx hy
        nlinarith

end Verif
