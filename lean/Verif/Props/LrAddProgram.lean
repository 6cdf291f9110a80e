import Verif.Model.LrAddProgram
import Verif.Props.LrAddBest
import Verif.Props.HQr

/-
C59: the low-rank addition program.
-/

namespace Verif
open Finset

/-- The constructor from a kernel. -/
theorem ofKernel_run {k : KernelFn ℝ} {f : Int → Int → ℝ} (hk : ComputesEntries k f) {m n : Nat}
    (hk' : KernelReturns k m n) {m' n' r c : Nat} (hr : r + m' ≤ m) (hc : c + n' ≤ n) :
    ∃ D, Dense.ofKernel k m' n' r c = .ok D ∧ D.rows = m' ∧ D.cols = n' ∧
      ∀ i < m', ∀ j < n', D.val i j = f (r + i) (c + j) := by
  obtain ⟨mem, hm⟩ := hk' (fun _ => 0) m' n' n' r c hr hc
  refine ⟨_, by rw [Dense.ofKernel, hm, except_bind_ok], rfl, rfl, fun i hi j hj => ?_⟩
  exact hk _ _ _ _ _ _ _ le_rfl hm i hi j hj

/-- Compression to a fixed rank gives orthonormal factors. -/
theorem ofRank_ortho {L : Lapack ℝ} (hO : L.Ortho) {D : Dense ℝ} {rank : Nat} {C : LowRank ℝ}
    (h : L.ofRank D rank = .ok C) : OrthoCols C.dim0 C.rank C.U.val ∧ OrthoRows C.dim1 C.rank C.V.val := by
  obtain ⟨hr, w, sq, d0, d1, r, -, K⟩ := Lapack.ofRank_ok h
  set k := min (min (rank + 5) D.rows) D.cols with hk
  have hq : OrthoCols D.rows k (L.qr (L.sample D k) k).1 := by
    have := hO.qr (L.sample D k)
    rwa [show min (L.sample D k).rows (L.sample D k).cols = k by simp only [Lapack.sample]; omega] at this
  have hp : min (L.projected D k).rows (L.projected D k).cols = k := by
    simp only [Lapack.projected]; omega
  have hu : OrthoCols D.rows k (L.rsvdU D k) := by
    refine Lapack.OrthoCols_mm hq ?_
    have := hO.svdU (L.projected D k)
    rwa [hp] at this
  have hv : OrthoRows D.cols k (L.svd (L.projected D k)).2.2 := by
    have := hO.svdV (L.projected D k)
    rwa [hp] at this
  constructor
  · intro a ha b hb
    rw [← hu a (by omega) b (by omega), d0]
    refine Finset.sum_congr rfl fun i hi => ?_
    rw [K.U i (by rw [d0]; exact mem_range.1 hi) a ha, K.U i (by rw [d0]; exact mem_range.1 hi) b hb]
  · intro a ha b hb
    rw [← hv a (by omega) b (by omega), d1]
    refine Finset.sum_congr rfl fun j hj => ?_
    rw [K.V a ha j (by rw [d1]; exact mem_range.1 hj), K.V b hb j (by rw [d1]; exact mem_range.1 hj)]

/-- The number printed after an addition that is exact. -/
theorem printed {machEps : ℝ} {fuel : Nat} (hf : 1 ≤ fuel) {D : Dense ℝ} {A W : LowRank ℝ} (hW : W.WF) (d0 : W.dim0 = D.rows)
    (d1 : W.dim1 = D.cols) (hx : ∀ i < D.rows, ∀ j < D.cols, W.entry i j = A.entry i j + A.entry i j) :
    l2Error machEps fuel (.dense ⟨D.rows, D.cols, fun i j => D.val i j + D.val i j⟩) (.lowRank W) =
      .ok (Real.sqrt (4 * (∑ i ∈ range D.rows, ∑ j ∈ range D.cols, (D.val i j - A.entry i j) ^ 2) /
        (4 * (∑ i ∈ range D.rows, ∑ j ∈ range D.cols, D.val i j ^ 2) + machEps))) := by
  obtain ⟨g, rfl⟩ : ∃ g, fuel = g + 1 := ⟨fuel - 1, by omega⟩
  obtain ⟨r, h⟩ : ∃ r, Mat.collectDiffNorm (g + 1) (.dense ⟨D.rows, D.cols, fun i j => D.val i j + D.val i j⟩)
      (.lowRank W) = .ok r :=
    Mat.collectDiffNorm_total _ _ _ trivial hW trivial trivial trivial trivial d0.symm d1.symm (by simp [Mat.depth])
  obtain ⟨-, h1, h2⟩ := Mat.collectDiffNorm_correct (g + 1) (.dense ⟨D.rows, D.cols, fun i j => D.val i j + D.val i j⟩)
    (.lowRank W) trivial hW r.1 r.2 h
  rw [l2Error, Mat.l2ErrorParts]
  simp only [Mat.nRows, Mat.nCols, d0, d1, decide_true, assertM, if_true, except_bind_ok, h]
  refine congrArg Except.ok (congrArg Real.sqrt (congrArg₂ (· / ·) ?_ (congrArg (· + machEps) ?_)))
  · rw [h1, Mat.sumSqDiff, Finset.mul_sum]
    refine Finset.sum_congr rfl fun i hi => ?_
    rw [Finset.mul_sum]
    refine Finset.sum_congr rfl fun j hj => ?_
    have := hx i (mem_range.1 hi) j (mem_range.1 hj)
    simp only [Mat.entry, this]
    ring
  · rw [h2, Mat.sumSq, Finset.mul_sum]
    refine Finset.sum_congr rfl fun i hi => ?_
    rw [Finset.mul_sum]
    refine Finset.sum_congr rfl fun j hj => ?_
    simp only [Mat.entry]
    ring

/-- Relative error, as the program prints it, of twice `A` as an approximation of twice the
matrix with entries `f(i, N+j)`. -/
noncomputable def doubledError (machEps : ℝ) (N : Nat) (f : Int → Int → ℝ) (A : LowRank ℝ) : ℝ :=
  Real.sqrt (4 * (∑ i ∈ range N, ∑ j ∈ range N, (f i (N + j) - A.entry i j) ^ 2) /
    (4 * (∑ i ∈ range N, ∑ j ∈ range N, f i (N + j) ^ 2) + machEps))

section
variable {L : Lapack ℝ} {k : KernelFn ℝ} {f : Int → Int → ℝ} {N rank fuel : Nat} {machEps : ℝ}

/-- **C59**: for every `rank ≤ N` the program finishes; default and rounded addition print the
relative error of the compression (of both summands, which are equal), so does naive
addition if `2*rank < N`: none of them adds an error of its own. -/
theorem C59_program (hL : L.Factors) (hO : L.Ortho) (hS : L.Sorted) (hk : ComputesEntries k f)
    (hk' : KernelReturns k N (2 * N)) (hr : rank ≤ N) (hfu : 1 ≤ fuel) :
    ∃ r D A, lrAddProgram machEps fuel k L N rank = .ok r ∧
      (D : Dense ℝ).rows = N ∧ D.cols = N ∧ (∀ i < N, ∀ j < N, D.val i j = f i (N + j)) ∧ L.ofRank D rank = .ok A ∧
      r.default = doubledError machEps N f A ∧ r.rounded = doubledError machEps N f A ∧
      (2 * rank < N → r.naive = doubledError machEps N f A) := by
  obtain ⟨D, hD, D0, D1, Dv⟩ := ofKernel_run hk hk' (m' := N) (n' := N) (r := 0) (c := N) (by omega) (by omega)
  obtain ⟨A, hA⟩ := Lapack.ofRank_total L (A := D) (rank := rank) (by omega)
  obtain ⟨-, w, sq, d0, d1, rk, he, -⟩ := Lapack.ofRank_ok hA
  obtain ⟨oU, oV⟩ := ofRank_ortho hO hA
  have hDD : D.add D = .ok ⟨D.rows, D.cols, fun i j => D.val i j + D.val i j⟩ := by
    rw [Dense.add, assertM, if_pos (by simp), except_bind_ok]
  -- default: fast rounded addition
  obtain ⟨W1, h1⟩ := (C26_fast_returns_iff L w sq w sq rfl rfl he).2 (by omega)
  obtain ⟨w1, -, e10, e11, -⟩ := C26_fast hL w sq w rfl he h1
  have x1 := C26_fast_exact_of_range hL hO hS w sq w rfl he oU (fun a l => if a = l then 1 else 0)
    (fun i _ l hl => by simp [hl]) h1
  -- naive addition
  obtain ⟨W2, h2, w2, e20, e21, x2⟩ : ∃ W, A.naiveAdd L A = .ok W ∧ W.WF ∧ W.dim0 = A.dim0 ∧ W.dim1 = A.dim1 ∧
      (2 * rank < N → ∀ i < A.dim0, ∀ j < A.dim1, W.entry i j = A.entry i j + A.entry i j) := by
    rcases Nat.lt_or_ge (A.rank + A.rank) (min A.dim0 A.dim1) with h | h
    · obtain ⟨W, hW, w2, -, e0, e1, -, -, x⟩ := C25_naive_exact L w sq w sq rfl rfl h
      exact ⟨W, hW, w2, e0, e1, fun _ => x⟩
    · obtain ⟨-, hret, hshape⟩ := C25_naive_recompress L w w rfl rfl h
      obtain ⟨W, hW⟩ := hret.2 (by omega)
      obtain ⟨w2, -, e0, e1, -⟩ := hshape W hW
      exact ⟨W, hW, w2, e0, e1, fun h' => by omega⟩
  -- rounded addition
  obtain ⟨W3, h3⟩ := C26_rounded_returns L w sq w rfl rfl he (by omega)
  obtain ⟨w3, -, e30, e31, -, k3, u3, s3, v3, -, -, -, -, -, r3⟩ := C26_rounded hL w w rfl h3
  rw [if_neg (by rw [he]; simp)] at r3
  have x3 := C26_rounded_exact_of_rank hL hO hS w w rfl h3
    (fun i l => 2 * ∑ p ∈ range A.rank, A.U.val i p * A.S.val p l) (fun l j => A.V.val l j) (fun i _ j _ => by
      have sc : A.S.cols = A.rank := sq
      have sr : A.S.rows = A.rank := w.srows
      rw [r3, LowRank.entry, sc, sr, ← two_mul, Finset.mul_sum]
      exact Finset.sum_congr rfl fun l _ => by ring)
  -- the printed numbers
  have num : doubledError machEps N f A =
      Real.sqrt (4 * (∑ i ∈ range D.rows, ∑ j ∈ range D.cols, (D.val i j - A.entry i j) ^ 2) /
        (4 * (∑ i ∈ range D.rows, ∑ j ∈ range D.cols, D.val i j ^ 2) + machEps)) := by
    rw [doubledError, D0, D1]
    have e : ∀ i ∈ range N, ∀ j ∈ range N, D.val i j = f i (N + j) := fun i hi j hj => by
      have := Dv i (mem_range.1 hi) j (mem_range.1 hj)
      simpa using this
    refine congrArg Real.sqrt (congrArg₂ (· / ·) (congrArg (4 * ·) ?_) (congrArg (· + machEps) (congrArg (4 * ·) ?_)))
    · exact Finset.sum_congr rfl fun i hi => Finset.sum_congr rfl fun j hj => by rw [e i hi j hj]
    · exact Finset.sum_congr rfl fun i hi => Finset.sum_congr rfl fun j hj => by rw [e i hi j hj]
  obtain ⟨n2, hn2, hn2'⟩ : ∃ n, l2Error machEps fuel (.dense ⟨D.rows, D.cols, fun i j => D.val i j + D.val i j⟩) (.lowRank W2) =
      .ok n ∧ (2 * rank < N → n = doubledError machEps N f A) := by
    by_cases h : 2 * rank < N
    · exact ⟨_, printed hfu (A := A) w2 (e20.trans d0) (e21.trans d1) (by rw [← d0, ← d1]; exact x2 h), fun _ => num.symm⟩
    · obtain ⟨g, rfl⟩ : ∃ g, fuel = g + 1 := ⟨fuel - 1, by omega⟩
      obtain ⟨r, h'⟩ : ∃ r, Mat.collectDiffNorm (g + 1) (.dense ⟨D.rows, D.cols, fun i j => D.val i j + D.val i j⟩)
          (.lowRank W2) = .ok r :=
        Mat.collectDiffNorm_total _ _ _ trivial w2 trivial trivial trivial trivial (e20.trans d0).symm (e21.trans d1).symm
          (by simp [Mat.depth])
      refine ⟨Real.sqrt (r.1 / (r.2 + machEps)), ?_, fun h' => absurd h' h⟩
      rw [l2Error, Mat.l2ErrorParts]
      simp only [Mat.nRows, Mat.nCols, e20.trans d0, e21.trans d1, decide_true, assertM, if_true, except_bind_ok, h']
  refine ⟨⟨doubledError machEps N f A, n2, doubledError machEps N f A⟩, D, A, ?_, D0, D1, fun i hi j hj => by
    have := Dv i hi j hj
    simpa using this, hA, rfl, rfl, hn2'⟩
  have a1 : (L.ops .fast fuel).addAssign A A = .ok W1 := by
    rw [LrOps.addAssign, assertM, if_pos (by simp), except_bind_ok, assertM, if_pos (by simp), except_bind_ok]
    exact h1
  have a2 : (L.ops .naive fuel).addAssign A A = .ok W2 := by
    rw [LrOps.addAssign, assertM, if_pos (by simp), except_bind_ok, assertM, if_pos (by simp), except_bind_ok]
    exact h2
  have a3 : (L.ops .rounded fuel).addAssign A A = .ok W3 := by
    rw [LrOps.addAssign, assertM, if_pos (by simp), except_bind_ok, assertM, if_pos (by simp), except_bind_ok]
    exact h3
  have hD' : Dense.ofKernel k N N 0 N = .ok D := hD
  rw [lrAddProgram, hD', except_bind_ok, hA, except_bind_ok, except_bind_ok, a1, except_bind_ok, hDD, except_bind_ok,
    printed hfu (A := A) w1 (e10.trans d0) (e11.trans d1) (by rw [← d0, ← d1]; exact x1), except_bind_ok, a2,
    except_bind_ok, except_bind_ok, hn2, except_bind_ok, a3, except_bind_ok, except_bind_ok,
    printed hfu (A := A) w3 (e30.trans d0) (e31.trans d1) (by rw [← d0, ← d1]; exact x3), except_bind_ok, num]

/-- **C59**: a rank larger than `N` is rejected. -/
theorem C59_rejected (hr : N < rank) : ¬ ∃ r, lrAddProgram machEps fuel k L N rank = .ok r := by
  rintro ⟨r, h⟩
  rw [lrAddProgram] at h
  simp only [except_bind_eq_ok] at h
  obtain ⟨D, hD, A, hA, -⟩ := h
  obtain ⟨h', -⟩ := Lapack.ofRank_ok hA
  rw [Dense.ofKernel] at hD
  simp only [except_bind_eq_ok] at hD
  obtain ⟨m, -, hD⟩ := hD
  cases Except.ok.inj hD
  simp only at h'
  omega

/-- **C59**: the program as shipped, with any points on a line. -/
theorem C59_library (hL : L.Factors) (hO : L.Ortho) (hS : L.Sorted) {pts : List ℝ} (hp : 2 * N ≤ pts.length)
    (hr : rank ≤ N) (hfu : 1 ≤ fuel) :
    ∃ r D A, lrAddProgram machEps fuel (Builtin.laplacend.kernel [pts]) L N rank = .ok r ∧
      (D : Dense ℝ).rows = N ∧ D.cols = N ∧ (∀ i < N, ∀ j < N, D.val i j = lineLaplace pts i (N + j)) ∧
      L.ofRank D rank = .ok A ∧ r.default = doubledError machEps N (lineLaplace pts) A ∧
      r.rounded = doubledError machEps N (lineLaplace pts) A ∧
      (2 * rank < N → r.naive = doubledError machEps N (lineLaplace pts) A) :=
  C59_program hL hO hS (C10_computes_entries _ _) (lineLaplace_returns (by omega) hp) hr hfu

end

section Examples

/-- The default arguments `N = 128`, `rank = 16`. -/
example (pts : List ℝ) (hp : pts.length = 256) : ∃ (L : Lapack ℝ) (r : LrAddRun),
    lrAddProgram (1 / 2 ^ 52) 1 (Builtin.laplacend.kernel [pts]) L 128 16 = .ok r ∧ r.default = r.rounded ∧
      r.naive = r.rounded := by
  obtain ⟨L, hL, hO, hS, -⟩ := Lapack.exists_contract
  obtain ⟨r, D, A, h, -, -, -, -, h1, h2, h3⟩ := C59_library (machEps := 1 / 2 ^ 52) (fuel := 1) (N := 128) (rank := 16)
    hL hO hS (pts := pts) (by omega) (by omega) le_rfl
  exact ⟨L, r, h, h1.trans h2.symm, (h3 (by omega)).trans h2.symm⟩

end Examples

end Verif
