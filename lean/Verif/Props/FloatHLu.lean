import Verif.Model.FloatHLu
import Verif.Props.FloatLu
import Verif.Props.FloatNorm
import Verif.Props.HQr
import Verif.Props.HLuErr

/-
C80: the H-LU program in floating-point arithmetic.
-/

namespace Verif
open Finset

variable {K : Type} [Field K] [LinearOrder K] {F : FlLapack} {G : FlArith} {u : ℝ}

/-- What the rounding errors of factorization and solves amount to as a change of the matrix,
relative to the product of the absolute values of the factors, for order `n`. -/
noncomputable def luEps (u : ℝ) (n : Nat) : ℝ :=
  3 * (2 * ((1 + u) ^ (3 * n) - 1) / (2 - (1 + u) ^ (3 * n))) +
    (2 * ((1 + u) ^ (3 * n) - 1) / (2 - (1 + u) ^ (3 * n))) ^ 2

/-- Bound for entry `i` of the residual of a computed solution `z` of a system with matrix `f`
whose right-hand side was computed from `x`: the backward error of the solution, and the
rounding errors of the right-hand side. -/
noncomputable def luResidual (u : ℝ) (n : Nat) (L U : Mat ℝ) (f : Nat → Nat → ℝ) (z x : Nat → ℝ) (i : Nat) : ℝ :=
  luEps u n * ∑ l ∈ range n, (∑ m ∈ range n, |L.entry i m| * |U.entry m l|) * |z l| +
    ((1 + u) ^ (3 * n) - 1) * ∑ l ∈ range n, |f i l| * |x l|

/-- What the program has computed before the factorization. -/
theorem flHLu_start (hF : F.Sound u) (hG : G.Sound u) {ε : ℝ} (hε : 0 < ε) {k : KernelFn ℝ} {f : Int → Int → ℝ}
    (hk : ComputesEntries k f) {n0 L b : Nat} (hk' : KernelReturns k (n0 * b ^ L) (n0 * b ^ L))
    (compress : Dense ℝ → Except Err (LowRank ℝ)) (h0 : 1 ≤ n0) (hb : 2 ≤ b) (hL : 1 ≤ L) {a : Int}
    (ha : ((b ^ L : Nat) : Int) ≤ a + 1) (x : Nat → ℝ) {fuel : Nat} (hfuel : 6 * (L + 1) + 2 ≤ fuel) :
    ∃ (A : Nat → Nat → Mat ℝ) (c : Dense ℝ) (cp : ℝ), (Mat.hier b b A).Regular b ∧ (Mat.hier b b A).LuSolvable b ∧
      (Mat.hier b b A).DenseLeaves ∧ (Mat.hier b b A).Filled ∧ (Mat.hier b b A).depth ≤ L + 1 ∧
      (Mat.hier b b A).WF ∧ (Mat.hier b b A).nRows = n0 * b ^ L ∧ (Mat.hier b b A).nCols = n0 * b ^ L ∧
      (∀ i < n0 * b ^ L, ∀ j < n0 * b ^ L, (Mat.hier b b A).entry i j = f i j) ∧
      c.rows = n0 * b ^ L ∧ c.cols = 1 ∧
      (∀ i < n0 * b ^ L, |c.val i 0 - ∑ l ∈ range (n0 * b ^ L), f i l * x l| ≤
        ((1 + u) ^ (3 * (n0 * b ^ L)) - 1) * ∑ l ∈ range (n0 * b ^ L), |f i l| * |x l|) ∧ cp = 0 ∧
      hierOfKernel fuel k compress (n0 * b ^ L) (n0 * b ^ L) n0 (Admis.position a : Admis K) b b 0 0 =
        .ok (.hier b b A) ∧
      F.hLu G ε fuel k compress (n0 * b ^ L) n0 (Admis.position a : Admis K) b x = (do
        let f ← F.getrf fuel (.hier b b A)
        let y ← F.trsm fuel f.1 (.dense c) .lower .left
        let z ← F.trsm fuel f.2.1 y .upper .left
        let err ← G.l2Error ε fuel (.dense ⟨n0 * b ^ L, 1, fun i _ => x i⟩) z
        .ok ⟨cp, f.1, f.2.1, f.2.2, z, err⟩) := by
  have pw : 2 ≤ b ^ L := hb.trans (Nat.le_self_pow (by omega) b)
  have a0 : 0 ≤ a := by
    have : (2 : Int) ≤ ((b ^ L : Nat) : Int) := by exact_mod_cast pw
    omega
  obtain ⟨A, hA, rA, -, -, luA, dA, -⟩ := C57_structure (K := K) (Q := fun _ => True) hk hk' keepAll_fitting
    (Or.inr ha) h0 hb hL a0 (fuel := fuel) (by omega)
  have fA := C71_filled hk keepAll_fitting hb (Or.inl ⟨n0, L, h0, rfl, le_rfl, hL⟩) hA
  obtain ⟨wf, m0, m1, D', tD, -, -, -, eD⟩ := C08_kernel_matrix hk keepAll_fitting (by omega : 1 ≤ b)
    (by omega : 1 ≤ b) hA
  rw [hierOfKernel_never (c2 := compress) h0 hb hL ha fuel] at hA
  obtain ⟨D'', tD'', q0, q1, q2⟩ := Mat.toDense_ok _ wf
  obtain rfl : D' = D'' := Except.ok.inj (tD.symm.trans tD'')
  set M := Mat.hier b b A with hM
  have reg : M.Regular b := rA.reg
  have hne : M.NoEmpty := reg.sub.noEmpty
  have dep : M.depth ≤ L + 1 := rA.dep
  have leaves : M.DenseLeaves := by
    have := dA ha
    clear_value M
    clear * - this hne
    induction M with
    | dense => trivial
    | lowRank => exact this.elim
    | empty => exact hne.elim
    | hier p q A ih => exact fun i hi j hj => ih i j (hne i hi j hj) (this i hi j hj)
  set N := n0 * b ^ L with hNd
  have N1 : 1 ≤ N := Nat.mul_pos h0 (by omega)
  have ent : ∀ i < N, ∀ j < N, M.entry i j = f i j := by
    intro i hi j hj
    have e1 := eD keepAll_exact i hi j hj
    rw [q2 i (by omega) j (by omega)] at e1
    simpa using e1
  obtain ⟨mem, hmem⟩ := hk' (fun _ => 0) N N N 0 0 (by omega) (by omega)
  have hD : Dense.ofKernel k N N 0 0 = .ok ⟨N, N, fun i j => mem (i * N + j)⟩ := by
    simp only [Dense.ofKernel]
    rw [show k (fun _ => 0) N N N 0 0 = .ok mem from hmem]
    rfl
  set D : Dense ℝ := ⟨N, N, fun i j => mem (i * N + j)⟩ with hDd
  have dv : ∀ i < N, ∀ j < N, D.val i j = f i j := by
    intro i hi j hj
    have := hk _ _ _ _ _ _ _ le_rfl hmem i hi j hj
    simpa using this
  set xd : Dense ℝ := ⟨N, 1, fun i _ => x i⟩ with hxd
  set b0 : Dense ℝ := ⟨N, 1, fun _ _ => 0⟩ with hb0
  -- the right-hand side
  obtain ⟨B, hB, -, Bsh, -⟩ := C75_regular hF.toSound hb (A := M) (B := .dense xd) (C := .dense b0) (α := 1) (β := 1)
    (ta := false) (tb := false) reg ⟨trivial, trivial, trivial⟩ ⟨trivial, trivial, trivial⟩ trivial
    (Mat.TransSafe_ff _ _) fA ⟨one_pos, N1⟩ m0 m1 rfl (fuel := fuel) (by simp only [Mat.depth]; omega)
  have Be := C75_no_lowrank hF.toSound fuel wf (B := .dense xd) (C := .dense b0) trivial trivial leaves trivial trivial
    (Mat.TransSafe_ff _ _) fA ⟨one_pos, N1⟩ hB
  obtain ⟨c, rfl⟩ : ∃ d, B = .dense d := by cases B <;> first | exact Bsh.elim | exact ⟨_, rfl⟩
  have c0 : c.rows = N := Bsh.1.symm
  have c1 : c.cols = 1 := Bsh.2.symm
  have ce : ∀ i < N, |c.val i 0 - ∑ l ∈ range N, f i l * x l| ≤
      ((1 + u) ^ (3 * N) - 1) * ∑ l ∈ range N, |f i l| * |x l| := by
    intro i hi
    have := Be i hi 0 one_pos
    simp only [Bool.false_eq_true, if_false, m1] at this
    have s1 : ∑ l ∈ range N, M.entry i l * (Mat.dense xd).entry l 0 = ∑ l ∈ range N, f i l * x l :=
      Finset.sum_congr rfl fun l hl => by rw [ent i hi l (mem_range.1 hl)]; rfl
    have s2 : ∑ l ∈ range N, |M.entry i l| * |(Mat.dense xd).entry l 0| = ∑ l ∈ range N, |f i l| * |x l| :=
      Finset.sum_congr rfl fun l hl => by rw [ent i hi l (mem_range.1 hl)]; rfl
    rw [s1, s2] at this
    simpa [Mat.entry, hb0] using this
  -- the compression error
  obtain ⟨cp, hcp⟩ : ∃ e, G.l2Error ε fuel (.dense D) M = .ok e := by
    obtain ⟨r, h⟩ := Mat.collectDiffNorm_total fuel (.dense D) M trivial wf trivial hne trivial reg.even
      m0.symm m1.symm (by simp only [Mat.depth]; omega)
    obtain ⟨r', h'⟩ := collectDiffNorm_runs hG fuel (.dense D) M trivial wf h
    exact ⟨_, by simp only [FlArith.l2Error, show (Mat.dense D).nRows = N from rfl,
      show (Mat.dense D).nCols = N from rfl, m0, m1, h', decide_true, assertM, if_true, except_bind_ok]; rfl⟩
  have cz : cp = 0 := (C66_zero_iff hG hε fuel (.dense D) M trivial wf trivial leaves.noLowRank hcp).2
    (fun i hi j hj => (dv i hi j hj).trans (ent i hi j hj).symm)
  have run : F.hLu G ε fuel k compress N n0 (Admis.position a : Admis K) b x = (do
      let f ← F.getrf fuel M
      let b ← F.trsm fuel f.1 (.dense c) .lower .left
      let b ← F.trsm fuel f.2.1 b .upper .left
      let err ← G.l2Error ε fuel (.dense xd) b
      .ok ⟨cp, f.1, f.2.1, f.2.2, b, err⟩) := by
    unfold FlLapack.hLu
    simp only [hD, hA, except_bind_ok]
    rw [← hxd, ← hb0]
    simp only [hB, hcp, except_bind_ok]
  exact ⟨A, c, cp, reg, luA, leaves, fA, dep, wf, m0, m1, ent, c0, c1, ce, cz, hA, run⟩

/-- **C80**.  The program with `n0 * b ^ L` unknowns and an admissibility condition under which
no block is compressed, every operation rounding with relative error `u`: it divides by a pivot
that is zero, or it returns.  In the latter case it prints no compression error, the printed
accuracy is the relative distance of the computed solution from the vector the program started
from, up to the displayed factors, and if no row was interchanged the residual of the computed
solution is as small as displayed. -/
theorem C80_hlu (hF : F.Sound u) (hG : G.Sound u) {ε : ℝ} (hε : 0 < ε) {k : KernelFn ℝ} {f : Int → Int → ℝ}
    (hk : ComputesEntries k f) {n0 L b : Nat} (hk' : KernelReturns k (n0 * b ^ L) (n0 * b ^ L))
    (compress : Dense ℝ → Except Err (LowRank ℝ)) (h0 : 1 ≤ n0) (hb : 2 ≤ b) (hL : 1 ≤ L) {a : Int}
    (ha : ((b ^ L : Nat) : Int) ≤ a + 1) (hu : (1 + u) ^ (3 * (n0 * b ^ L)) < 2) (x : Nat → ℝ)
    {fuel : Nat} (hfuel : 6 * (L + 1) + 2 ≤ fuel) :
    F.hLu G ε fuel k compress (n0 * b ^ L) n0 (Admis.position a : Admis K) b x = .error .ub ∨
    ∃ (r : FlHLuRun) (d : Dense ℝ),
      F.hLu G ε fuel k compress (n0 * b ^ L) n0 (Admis.position a : Admis K) b x = .ok r ∧
      r.comp = 0 ∧ r.sol = .dense d ∧ d.rows = n0 * b ^ L ∧ d.cols = 1 ∧
      (r.swapped = false → ∀ i < n0 * b ^ L,
        |∑ l ∈ range (n0 * b ^ L), f i l * (d.val l 0 - x l)| ≤
          luResidual u (n0 * b ^ L) r.low r.up (fun i l => f i l) (fun l => d.val l 0) x i) ∧
      (let E := Real.sqrt ((∑ i ∈ range (n0 * b ^ L), (x i - d.val i 0) ^ 2) /
          (∑ i ∈ range (n0 * b ^ L), x i ^ 2 + ε))
      (1 - u) * Real.sqrt (((1 - u) / (1 + u)) ^ (n0 * b ^ L + 4)) * E ≤ r.err ∧
      r.err ≤ (1 + u) * Real.sqrt (((1 + u) / (1 - u)) ^ (n0 * b ^ L + 4)) * E) := by
  obtain ⟨A, c, cp, reg, luA, leaves, fA, dep, wf, m0, m1, ent, c0, c1, ce, cz, -, run⟩ := flHLu_start (K := K) hF hG hε
    hk hk' compress h0 hb hL ha x hfuel
  have N1 : 1 ≤ n0 * b ^ L := Nat.mul_pos h0 (Nat.pow_pos (by omega))
  rw [run]
  set M := Mat.hier b b A with hM
  set N := n0 * b ^ L with hNd
  set xd : Dense ℝ := ⟨N, 1, fun i _ => x i⟩ with hxd
  have hSB : Mat.Solvable b .upper .left M (.dense c) := fun h => (nomatch h.2)
  have hGs : Mat.GemmStep (fun _ => False) b M.depth (F.gemm fuel) :=
    Mat.fl_gemmStep F.toFlBlas hb (by omega)
  rcases Mat.fl_getrf_or (F := F) hb reg leaves luA (fuel := fuel) (by omega) with ⟨⟨Lo, Up, s⟩, hf, P⟩ | hf
  swap
  · exact Or.inl (by rw [hf]; rfl)
  have Pl : Lo.depth ≤ M.depth := P.ldep
  have Pu : Up.depth ≤ M.depth := P.udep
  rw [hf, except_bind_ok]
  obtain ⟨Y, hY, sY, tY⟩ := Mat.fl_trsmWith_total (F := F) hGs fuel Lo (.dense c) P.low (fun h => (nomatch h))
    P.ldep (Mat.target_dense _ _) (Nat.zero_le _) (P.ld.solvable hSB.lower) (side := .left)
    (P.lrows.trans (m0.trans c0.symm)) (by omega)
  have hY' : F.trsm fuel Lo (.dense c) .lower .left = .ok Y := hY
  rcases Mat.fl_trsmWith_or (F := F) hGs fuel Up Y P.up P.udep tY (by rw [sY.depth]; exact Nat.zero_le _)
    ((P.ud.solvable hSB).shape sY tY.wf) (side := .left)
    (P.urows.trans (m0.trans (c0.symm.trans (sY.dims trivial).1.symm))) (by omega) with ⟨X, hX, sX, -⟩ | hX
  swap
  · refine Or.inl ?_
    simp only [hY', except_bind_ok]
    rw [show F.trsm fuel Up Y .upper .left = .error .ub from hX]
    rfl
  have hX' : F.trsm fuel Up Y .upper .left = .ok X := hX
  have shX := sY.trans sX
  obtain ⟨d, rfl⟩ : ∃ d, X = .dense d := by cases X <;> first | exact shX.elim | exact ⟨_, rfl⟩
  have d0 : d.rows = N := shX.1.symm.trans c0
  have d1 : d.cols = 1 := shX.2.symm.trans c1
  obtain ⟨er, her⟩ : ∃ e, G.l2Error ε fuel (.dense xd) (.dense d) = .ok e := by
    obtain ⟨r, h⟩ := Mat.collectDiffNorm_total fuel (.dense xd) (.dense d) trivial trivial trivial trivial trivial
      trivial d0.symm d1.symm (by simp only [Mat.depth]; omega)
    obtain ⟨r', h'⟩ := collectDiffNorm_runs hG fuel (.dense xd) (.dense d) trivial trivial h
    exact ⟨_, by simp only [FlArith.l2Error, show (Mat.dense xd).nRows = N from rfl,
      show (Mat.dense xd).nCols = 1 from rfl, show (Mat.dense d).nRows = N from d0,
      show (Mat.dense d).nCols = 1 from d1, h', decide_true, assertM, if_true, except_bind_ok]; rfl⟩
  refine Or.inr ⟨⟨cp, Lo, Up, s, .dense d, er⟩, d, ?_, cz, rfl, d0, d1, ?_, ?_⟩
  · simp only [hY', hX', her, except_bind_ok]
  · rintro rfl i hi
    obtain ⟨-, S⟩ := C77_solve hF fuel wf leaves luA.luFits fA (B := .dense c) trivial trivial
      ⟨by show 0 < c.cols; omega, by show 0 < c.rows; omega⟩ hSB.triFits (m0.trans c0.symm)
      (by rw [m0]; exact hu) hf hY' hX'
    obtain ⟨E, e1, e2⟩ := S 0 (by show 0 < c.cols; omega)
    rw [m0] at e1 e2
    have r1 : ∑ l ∈ range N, f i l * (d.val l 0 - x l) =
        (c.val i 0 - ∑ l ∈ range N, f i l * x l) - ∑ l ∈ range N, E i l * d.val l 0 := by
      have := e2 i hi
      rw [Finset.sum_congr rfl fun l hl => by rw [ent i hi l (mem_range.1 hl)]] at this
      simp only [add_mul, Finset.sum_add_distrib] at this
      change _ + _ = c.val i 0 at this
      rw [← this]
      simp only [mul_sub, Finset.sum_sub_distrib, Mat.entry]
      ring
    have r2 : |∑ l ∈ range N, E i l * d.val l 0| ≤
        luEps u N * ∑ l ∈ range N, (∑ m ∈ range N, |Lo.entry i m| * |Up.entry m l|) * |d.val l 0| := by
      rw [Finset.mul_sum]
      refine (Finset.abs_sum_le_sum_abs _ _).trans (Finset.sum_le_sum fun l hl => ?_)
      rw [abs_mul, ← mul_assoc]
      exact mul_le_mul_of_nonneg_right (e1 i hi l (mem_range.1 hl)) (abs_nonneg _)
    rw [r1]
    refine (abs_sub _ _).trans ?_
    unfold luResidual
    linarith [ce i hi, r2]
  · have e := C66_l2_error_exact_entries hG hε fuel (.dense xd) (.dense d) trivial trivial trivial trivial her
    obtain ⟨p, q, hp, hq, -, -, e⟩ := e
    obtain ⟨p', hp', p0, p1, p2⟩ := Mat.toDense_ok (.dense xd) trivial
    obtain ⟨q', hq', -, -, g2⟩ := Mat.toDense_ok (.dense d) trivial
    obtain rfl : p = p' := Except.ok.inj (hp.symm.trans hp')
    obtain rfl : q = q' := Except.ok.inj (hq.symm.trans hq')
    change p.rows = N at p0
    change p.cols = 1 at p1
    have s1 : ∑ i ∈ range p.rows, ∑ j ∈ range p.cols, (p.val i j - q.val i j) * (p.val i j - q.val i j) =
        ∑ i ∈ range N, (x i - d.val i 0) ^ 2 := by
      rw [p0, p1]
      refine Finset.sum_congr rfl fun i hi => ?_
      have hi := mem_range.1 hi
      rw [Finset.sum_range_one, p2 i hi 0 one_pos, g2 i (by show i < d.rows; omega) 0 (by show 0 < d.cols; omega),
        pow_two]
      rfl
    have s2 : ∑ i ∈ range p.rows, ∑ j ∈ range p.cols, p.val i j * p.val i j = ∑ i ∈ range N, x i ^ 2 := by
      rw [p0, p1]
      refine Finset.sum_congr rfl fun i hi => ?_
      rw [Finset.sum_range_one, p2 i (mem_range.1 hi) 0 one_pos, pow_two]
      rfl
    rw [s1, s2] at e
    simpa [hxd, Mat.nRows, Mat.nCols, Mat.adds] using e

section
variable {ε : ℝ} {k : KernelFn ℝ} {f : Int → Int → ℝ} {n0 L b : Nat} {compress : Dense ℝ → Except Err (LowRank ℝ)}
  {a : Int} {x : Nat → ℝ} {fuel : Nat} {r : FlHLuRun}

/-- C80, error of the solution: if moreover `Z` is an inverse of the kernel's matrix, the
computed solution is as close to the vector the program started from as displayed. -/
theorem C80_inverse (hF : F.Sound u) (hG : G.Sound u) (hε : 0 < ε) (hk : ComputesEntries k f)
    (hk' : KernelReturns k (n0 * b ^ L) (n0 * b ^ L)) (h0 : 1 ≤ n0) (hb : 2 ≤ b) (hL : 1 ≤ L)
    (ha : ((b ^ L : Nat) : Int) ≤ a + 1) (hu : (1 + u) ^ (3 * (n0 * b ^ L)) < 2)
    (hfuel : 6 * (L + 1) + 2 ≤ fuel)
    (h : F.hLu G ε fuel k compress (n0 * b ^ L) n0 (Admis.position a : Admis K) b x = .ok r)
    (hs : r.swapped = false) {Z : Nat → Nat → ℝ}
    (hZ : ∀ i < n0 * b ^ L, ∀ j < n0 * b ^ L,
      ∑ l ∈ range (n0 * b ^ L), Z i l * f l j = if i = j then 1 else 0) :
    ∃ d : Dense ℝ, r.sol = .dense d ∧ ∀ i < n0 * b ^ L, |d.val i 0 - x i| ≤
      ∑ m ∈ range (n0 * b ^ L), |Z i m| *
        luResidual u (n0 * b ^ L) r.low r.up (fun i l => f i l) (fun l => d.val l 0) x m := by
  rcases C80_hlu (K := K) hF hG hε hk hk' compress h0 hb hL ha hu x hfuel with h' | ⟨r', d, h', -, hd, -, -, hr, -⟩
  · rw [h] at h'; cases h'
  obtain rfl : r = r' := Except.ok.inj (h.symm.trans h')
  refine ⟨d, hd, fun i hi => ?_⟩
  generalize n0 * b ^ L = N at *
  have e : d.val i 0 - x i = ∑ m ∈ range N, Z i m * ∑ l ∈ range N, f m l * (d.val l 0 - x l) := by
    have e1 : ∑ m ∈ range N, Z i m * ∑ l ∈ range N, f m l * (d.val l 0 - x l) =
        ∑ l ∈ range N, (∑ m ∈ range N, Z i m * f m l) * (d.val l 0 - x l) := by
      simp only [Finset.mul_sum, Finset.sum_mul]
      rw [Finset.sum_comm]
      exact Finset.sum_congr rfl fun _ _ => Finset.sum_congr rfl fun _ _ => by ring
    rw [e1, Finset.sum_congr rfl fun l hl => by rw [hZ i hi l (mem_range.1 hl)]]
    simp [hi]
  rw [e]
  refine (Finset.abs_sum_le_sum_abs _ _).trans (Finset.sum_le_sum fun m hm => ?_)
  rw [abs_mul]
  exact mul_le_mul_of_nonneg_left (hr hs m (mem_range.1 hm)) (abs_nonneg _)

/-- C80, kernels with dominant diagonal: if the columns of the kernel's matrix are diagonally
dominant by `γ`, the distance of the two vectors in the 1-norm is at most the sum of the
residuals divided by `γ`. -/
theorem C80_dominant (hF : F.Sound u) (hG : G.Sound u) (hε : 0 < ε) (hk : ComputesEntries k f)
    (hk' : KernelReturns k (n0 * b ^ L) (n0 * b ^ L)) (h0 : 1 ≤ n0) (hb : 2 ≤ b) (hL : 1 ≤ L)
    (ha : ((b ^ L : Nat) : Int) ≤ a + 1) (hu : (1 + u) ^ (3 * (n0 * b ^ L)) < 2)
    (hfuel : 6 * (L + 1) + 2 ≤ fuel)
    (h : F.hLu G ε fuel k compress (n0 * b ^ L) n0 (Admis.position a : Admis K) b x = .ok r)
    (hs : r.swapped = false) {γ : ℝ}
    (hγ : ∀ j < n0 * b ^ L, ∑ i ∈ (range (n0 * b ^ L)).erase j, |f i j| + γ ≤ |f j j|) :
    ∃ d : Dense ℝ, r.sol = .dense d ∧ γ * ∑ i ∈ range (n0 * b ^ L), |d.val i 0 - x i| ≤
      ∑ i ∈ range (n0 * b ^ L),
        luResidual u (n0 * b ^ L) r.low r.up (fun i l => f i l) (fun l => d.val l 0) x i := by
  rcases C80_hlu (K := K) hF hG hε hk hk' compress h0 hb hL ha hu x hfuel with h' | ⟨r', d, h', -, hd, -, -, hr, -⟩
  · rw [h] at h'; cases h'
  obtain rfl : r = r' := Except.ok.inj (h.symm.trans h')
  refine ⟨d, hd, ?_⟩
  exact (dominant_bound (a := fun i j : Nat => f i j) hγ (fun l => d.val l 0 - x l)).trans
    (Finset.sum_le_sum fun i hi => hr hs i (mem_range.1 hi))

end

/-! ### examples -/

/-- Every operation rounds its exact result; inner products are accumulated exactly. -/
noncomputable def FlArith.ofRounding (fl : ℝ → ℝ) : FlArith where
  add x y := fl (x + y)
  sub x y := fl (x - y)
  div x y := fl (x / y)
  sqrt x := fl (Real.sqrt x)
  sqAdd s x := fl (s + fl (x * x))
  gemm k a b i j := fl (∑ l ∈ range k, a i l * b l j)

theorem FlArith.ofRounding_sound {fl : ℝ → ℝ} (u0 : 0 ≤ u) (u1 : u < 1) (hfl : ∀ x, |fl x - x| ≤ u * |x|) :
    (FlArith.ofRounding fl).Sound u := by
  have rel : ∀ x, ∃ δ, |δ| ≤ u ∧ fl x = x * (1 + δ) := by
    intro x
    rcases eq_or_ne x 0 with rfl | hx
    · have := hfl 0
      simp only [abs_zero, mul_zero, sub_zero] at this
      exact ⟨0, by simpa using u0, by rw [zero_mul]; exact abs_nonpos_iff.1 this⟩
    · refine ⟨(fl x - x) / x, ?_, by field_simp; ring⟩
      rw [abs_div, div_le_iff₀ (abs_pos.2 hx)]
      exact hfl x
  refine ⟨u0, u1, fun x y => hfl _, fun x y => hfl _, fun x y _ => hfl _, fun x _ => ?_, fun s x => ?_,
    fun k a b i j => ?_⟩
  · have := hfl (Real.sqrt x)
    rwa [abs_of_nonneg (Real.sqrt_nonneg x)] at this
  · obtain ⟨δ, h1, h2⟩ := rel (x * x)
    obtain ⟨η, h3, h4⟩ := rel (s + fl (x * x))
    exact ⟨δ, η, h1, h3, by simp only [FlArith.ofRounding]; rw [h4, h2]⟩
  · refine (hfl _).trans ?_
    have h1 : |∑ l ∈ range k, a i l * b l j| ≤ ∑ l ∈ range k, |a i l| * |b l j| :=
      le_trans (Finset.abs_sum_le_sum_abs _ _)
        (le_of_eq (Finset.sum_congr rfl fun l _ => abs_mul _ _))
    have h2 : 1 + u ≤ (1 + u) ^ (k + 1) := le_self_pow₀ (by linarith) (by omega)
    exact mul_le_mul (by linarith) h1 (abs_nonneg _) (by linarith)

/-- Eight unknowns in nested blocks, any kernel given by a function of the indices. -/
example (f : Int → Int → ℝ) (compress : Dense ℝ → Except Err (LowRank ℝ)) (x : Nat → ℝ) :
    (FlLapack.ofRounding nearest53).hLu (FlArith.ofRounding nearest53) (2 ^ (-52 : ℤ)) 20 (indexKernel f) compress 8 2
        (Admis.position 3 : Admis ℚ) 2 x = .error .ub ∨
    ∃ (r : FlHLuRun) (d : Dense ℝ),
      (FlLapack.ofRounding nearest53).hLu (FlArith.ofRounding nearest53) (2 ^ (-52 : ℤ)) 20 (indexKernel f) compress 8 2
        (Admis.position 3 : Admis ℚ) 2 x = .ok r ∧
      r.comp = 0 ∧ r.sol = .dense d ∧ (r.swapped = false → ∀ i : Nat, i < 8 →
        |∑ l ∈ range 8, f i l * (d.val l 0 - x l)| ≤
          luResidual (2 ^ (-53 : ℤ)) 8 r.low r.up (fun i l => f i l) (fun l => d.val l 0) x i) := by
  rcases C80_hlu (K := ℚ) (C76_rounding (by positivity) nearest53_error)
    (FlArith.ofRounding_sound (by positivity) (by norm_num) nearest53_error) (ε := 2 ^ (-52 : ℤ)) (by positivity)
    (indexKernel_computes f) (n0 := 2) (L := 2) (b := 2) (fun _ _ _ _ _ _ _ _ => ⟨_, rfl⟩) compress (by omega) (by omega)
    (by omega) (a := 3) (by norm_num) (by norm_num) x (fuel := 20) (by omega) with h | ⟨r, d, h, h1, h2, -, -, h3, -⟩
  · exact Or.inl h
  · exact Or.inr ⟨r, d, h, h1, h2, h3⟩

/-- With two on the diagonal and ones beside it the program returns, no row is interchanged,
and the computed solution is close to the vector the program started from. -/
example (compress : Dense ℝ → Except Err (LowRank ℝ)) (x : Nat → ℝ) :
    ∃ (r : FlHLuRun) (d : Dense ℝ),
      (FlLapack.ofRounding nearest53).hLu (FlArith.ofRounding nearest53) (2 ^ (-52 : ℤ)) 14
        (indexKernel fun i j => if i = j then 2 else 1) compress 2 1 (Admis.position 1 : Admis ℚ) 2 x = .ok r ∧
      r.swapped = false ∧ r.sol = .dense d ∧ |d.val 0 0 - x 0| + |d.val 1 0 - x 1| ≤
        ∑ i ∈ range 2, luResidual (2 ^ (-53 : ℤ)) 2 r.low r.up (fun i l => if (i : Int) = l then 2 else 1)
          (fun l => d.val l 0) x i := by
  have hF := C76_rounding (by positivity) nearest53_error
  have hG := FlArith.ofRounding_sound (by positivity) (by norm_num) nearest53_error
  have hk := indexKernel_computes (R := ℝ) (fun i j : Int => if i = j then 2 else 1)
  have hk' : KernelReturns (indexKernel (R := ℝ) fun i j => if i = j then 2 else 1) (1 * 2 ^ 1) (1 * 2 ^ 1) :=
    fun _ _ _ _ _ _ _ _ => ⟨_, rfl⟩
  have he : (0 : ℝ) < 2 ^ (-52 : ℤ) := by positivity
  obtain ⟨A, c, cp, -, -, -, -, -, -, -, -, ent, c0, c1, -, -, hA, run⟩ := flHLu_start (K := ℚ) hF hG he hk hk' compress
    le_rfl le_rfl le_rfl (a := 1) (by norm_num) x (fuel := 14) (by omega)
  obtain ⟨B, d00, d01, d10, d11, hB, e00, e01, e10, e11, hd, v00, v01, v10, v11⟩ :
      ∃ (B : Nat → Nat → Mat ℝ) (d00 d01 d10 d11 : Dense ℝ),
        hierOfKernel 14 (indexKernel (R := ℝ) fun i j => if i = j then 2 else 1) compress (1 * 2 ^ 1) (1 * 2 ^ 1)
          (1 : Nat) (Admis.position 1 : Admis ℚ) 2 2 0 0 = .ok (.hier 2 2 B) ∧
        B 0 0 = .dense d00 ∧ B 0 1 = .dense d01 ∧ B 1 0 = .dense d10 ∧ B 1 1 = .dense d11 ∧
        (∀ d ∈ [d00, d01, d10, d11], d.rows = 1 ∧ d.cols = 1) ∧
        d00.val 0 0 = 2 ∧ d01.val 0 0 = 1 ∧ d10.val 0 0 = 1 ∧ d11.val 0 0 = 2 := by
    refine ⟨_, _, _, _, _, rfl, rfl, rfl, rfl, rfl, ?_, rfl, rfl, rfl, rfl⟩
    intro d hd
    simp only [List.mem_cons, List.not_mem_nil, or_false] at hd
    rcases hd with rfl | rfl | rfl | rfl <;> exact ⟨rfl, rfl⟩
  obtain rfl : A = B := by
    have := Except.ok.inj (hA.symm.trans hB)
    injection this
  obtain ⟨L, U, y, z, g, hY, hZ, z0, z1⟩ := four_solve' e00 e01 e10 e11 hd v00 v01 v10 v11 6 c c0
  have n : ∀ r, (FlLapack.ofRounding nearest53).hLu (FlArith.ofRounding nearest53) (2 ^ (-52 : ℤ)) 14
      (indexKernel fun i j => if i = j then 2 else 1) compress (1 * 2 ^ 1) (1 : Nat) (Admis.position 1 : Admis ℚ) 2 x =
        .ok r → r.swapped = false := by
    intro r h
    rw [run] at h
    simp only [g, hY, hZ, except_bind_ok] at h
    obtain ⟨e, -, h⟩ := except_bind_eq_ok.1 h
    cases h
    rfl
  rcases C80_hlu (K := ℚ) hF hG he hk hk' compress le_rfl le_rfl le_rfl (a := 1) (by norm_num) (by norm_num) x
    (fuel := 14) (by omega) with h | ⟨r, d, h, -⟩
  · rw [run] at h
    obtain ⟨e, he⟩ : ∃ e, (FlArith.ofRounding nearest53).l2Error (2 ^ (-52 : ℤ)) 14
        (.dense ⟨1 * 2 ^ 1, 1, fun i _ => x i⟩) (.dense z) = .ok e := by
      have d0 : (Mat.dense ⟨1 * 2 ^ 1, 1, fun i _ => x i⟩ : Mat ℝ).nRows = (Mat.dense z).nRows := by
        simp [Mat.nRows, z0]
      have d1 : (Mat.dense ⟨1 * 2 ^ 1, 1, fun i _ => x i⟩ : Mat ℝ).nCols = (Mat.dense z).nCols := by
        simp [Mat.nCols, z1, c1]
      obtain ⟨r, h⟩ := Mat.collectDiffNorm_total 14 (.dense ⟨1 * 2 ^ 1, 1, fun i _ => x i⟩) (.dense z) trivial trivial
        trivial trivial trivial trivial d0 d1 (by simp only [Mat.depth]; omega)
      obtain ⟨r', h'⟩ := collectDiffNorm_runs hG 14 (.dense ⟨1 * 2 ^ 1, 1, fun i _ => x i⟩) (.dense z) trivial trivial h
      exact ⟨_, by simp only [FlArith.l2Error, d0, d1, h', decide_true, assertM, if_true, except_bind_ok]; rfl⟩
    simp only [g, hY, hZ, he, except_bind_ok] at h
    cases h
  obtain ⟨d, h1, h2⟩ := C80_dominant (K := ℚ) hF hG he hk hk' le_rfl le_rfl le_rfl (by norm_num) (by norm_num)
    (by omega) h (n r h) (γ := 1) (by
      intro j hj
      rcases two_cases hj with rfl | rfl
      · rw [show (range (1 * 2 ^ 1)).erase 0 = {1} by decide]
        norm_num
      · rw [show (range (1 * 2 ^ 1)).erase 1 = {0} by decide]
        norm_num)
  refine ⟨r, d, h, n r h, h1, ?_⟩
  rw [one_mul] at h2
  change ∑ i ∈ range 2, _ ≤ _ at h2
  rw [Finset.sum_range_succ, Finset.sum_range_one] at h2
  exact h2

end Verif
