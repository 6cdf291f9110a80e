import Verif.Model.HQr
import Verif.Lemmas.BuiltQr
import Verif.Props.MgsProgram
import Verif.Props.HLu

/-
C57: the hierarchical Gram-Schmidt QR example program (examples/blocked_mgs_h_qr.cpp).
-/

set_option linter.unusedSectionVars false

namespace Verif
open Finset

variable {R : Type} {K : Type} [Field K] [LinearOrder K]

namespace Mat

theorem triSubdiv_of_lu {b : Nat} {uplo : Uplo} {M N : Mat R} (hM : M.LuSolvable b) (hs : M.SameShape N) (hN : N.Subdiv b) :
    N.TriSubdiv b uplo := by
  induction M generalizing N with
  | dense d =>
    cases N with
    | dense e => exact hs.1.symm.trans (hM.trans hs.2)
    | _ => exact hs.elim
  | lowRank => exact hM.elim
  | empty => exact hM.elim
  | hier p q A ih =>
    cases N with
    | hier p' q' B =>
      obtain ⟨rfl, rfl, hs⟩ := hs
      obtain ⟨e, h1, -⟩ := hM
      subst e
      exact ⟨hN.1, hN.2.1, fun i hi => ih i i (h1 i hi) (hs i hi i hi) (hN.2.2 i hi i hi),
        fun i hi k hk _ => hN.2.2 i hi k hk⟩
    | _ => exact hs.elim

theorem denseLeaves_of_all {M : Mat R} (h : M.All (fun _ => False)) (hn : M.NoEmpty) : M.DenseLeaves := by
  induction M with
  | dense => trivial
  | lowRank => exact h.elim
  | empty => exact hn.elim
  | hier p q A ih => exact fun i hi j hj => ih i j (h i hi j hj) (hn i hi j hj)

theorem l2_run [CommRing R] [Inhabited R] {fuel : Nat} {A B : Mat R} (hA : A.WF) (hB : B.WF) (nA : A.NoEmpty)
    (nB : B.NoEmpty) (eA : A.Even) (eB : B.Even) (hr : A.nRows = B.nRows) (hc : A.nCols = B.nCols)
    (hf : 2 * (A.depth + B.depth) + 1 ≤ fuel) : l2ErrorParts fuel A B = .ok (sumSqDiff A B, sumSq A) := by
  obtain ⟨r, h⟩ := collectDiffNorm_total fuel A B hA hB nA nB eA eB hr hc hf
  obtain ⟨-, h1, h2⟩ := collectDiffNorm_correct fuel A B hA hB r.1 r.2 h
  rw [l2ErrorParts, hr, hc]
  simp only [decide_true, assertM, if_true, except_bind_ok]
  rw [h, ← h1, ← h2]

end Mat

theorem mixStable_false [Zero R] [One R] : Mat.MixStable (R := R) (fun _ => False) := fun _ _ _ h => h.elim

theorem mixStable_tolerance [CommRing R] : Mat.MixStable (R := R) LowRank.WithTolerance := by
  rintro l a X ⟨w, s, -, d0, d1, r⟩ ⟨-, -, e, -⟩ - - - x0 x1
  refine ⟨⟨rfl, ?_, rfl, ?_, rfl⟩, rfl, e, ?_, ?_, r⟩
  · exact w.ucols
  · exact x0
  · show 0 < l.U.rows
    rw [w.urows]
    exact d0
  · show 0 < X.cols
    rw [x1]
    exact d1

section
variable [CommRing R] [DecidableEq R] [Inhabited R] {o : LrOps R} {Q : LowRank R → Prop} {W : Lapack R}
variable {k kz kid : KernelFn R} {f : Int → Int → R} {compressD compress : Dense R → Except Err (LowRank R)}
  {n0 L b : Nat} {a : Int}

/-- The compression returns square-cored blocks with `Q` for all square blocks; or nothing is
compressed. -/
def HQrCompressor (Q : LowRank R → Prop) (compress : Dense R → Except Err (LowRank R)) (L b : Nat) (a : Int) : Prop :=
  (∀ d : Dense R, 0 < d.rows → d.cols = d.rows → ∃ l, compress d = .ok l ∧ l.Square ∧ Q l) ∨ ((b ^ L : Nat) : Int) ≤ a + 1

/-- **C57**, structure: constructing a matrix on `n0·b^L` rows and columns with leaf size `n0`
returns, and gives a matrix of regular subdivisions that block Gram-Schmidt QR and
triangular multiplication accept. -/
theorem C57_structure (hk : ComputesEntries k f) (hk' : KernelReturns k (n0 * b ^ L) (n0 * b ^ L))
    (hc : FittingCompressor compress) (hq : HQrCompressor Q compress L b a) (h0 : 1 ≤ n0) (hb : 2 ≤ b) (hL : 1 ≤ L)
    (ha : 0 ≤ a) {fuel : Nat} (hfu : L + 1 ≤ fuel) :
    ∃ A : Nat → Nat → Mat R,
      hierOfKernel fuel k compress (n0 * b ^ L) (n0 * b ^ L) n0 (Admis.position a : Admis K) b b 0 0 = .ok (.hier b b A) ∧
      Mat.RegOk Q b (L + 1) (n0 * b ^ L) (n0 * b ^ L) (.hier b b A) ∧
      (Mat.hier b b A).ColFits (.hier b b A) ∧ (Mat.hier b b A).ColFull (.hier b b A) ∧ (Mat.hier b b A).LuSolvable b ∧
      (((b ^ L : Nat) : Int) ≤ a + 1 → (Mat.hier b b A).All (fun _ => False)) ∧
      ∀ P : LowRank R → Prop, (∀ d l, compress d = .ok l → P l) → (Mat.hier b b A).All P := by
  have u := ClusterTree.uniform_root n0 L b
  set t := ClusterTree.rootInfo ⟨0, ((n0 * b ^ L : Nat) : Int)⟩ ⟨0, ((n0 * b ^ L : Nat) : Int)⟩ b b n0 with ht
  obtain ⟨tr, htr⟩ := ClusterTree.uniform_build h0 hb u (isRoot := true) (fun _ => hL) (fuel := L + 1) (by omega)
  obtain ⟨ch, rfl⟩ := build_root_node htr
  have hfill : ∀ k' t', ClusterTree.UniformNode n0 L b k' t' → ∃ d, kernelFill k t'.rows t'.cols = .ok d := by
    intro k' t' u'
    obtain ⟨r, c, m, e1, e2, -, h1, h2⟩ := u'.inside
    obtain ⟨mem, hm⟩ := hk' (fun _ => 0) m m m r c h1 h2
    rw [e1, e2, kernelFill, if_pos ⟨Int.natCast_nonneg _, Int.natCast_nonneg _⟩]
    simp only [Int.toNat_natCast, Dense.ofKernel, hm, except_bind_ok]
    exact ⟨_, rfl⟩
  have hadm : ∀ t', ∃ x, isAdmissible (Admis.position a : Admis K) t' = .ok x := fun _ => ⟨_, rfl⟩
  have key : ∃ M, ClusterTree.toMat (Admis.position a : Admis K) (kernelFill k) compress (.node t ch) = .ok M ∧
      M.All (fun l => l.Square ∧ Q l) ∧ (((b ^ L : Nat) : Int) ≤ a + 1 → M.All (fun _ => False)) := by
    by_cases hn : ((b ^ L : Nat) : Int) ≤ a + 1
    · obtain ⟨M, hM, hall⟩ := ClusterTree.uniform_toMat (Q := fun _ => False) h0 hb hadm hfill (compress := compress)
        (fun k' t' d u' h _ => by rw [ClusterTree.position_never hn hb k' t' u'] at h; cases h) u hL htr
      exact ⟨M, hM, hall.mono (fun _ h => h.elim), fun _ => hall⟩
    · obtain ⟨M, hM, hall⟩ := ClusterTree.uniform_toMat (Q := fun l => l.Square ∧ Q l) h0 hb hadm hfill
        (compress := compress) (fun k' t' d u' _ hd => by
          obtain ⟨e0, e1⟩ := kernelFill_dims hk _ _ _ hd
          rw [u'.rowsN] at e0
          rw [u'.colsN] at e1
          have : 0 < n0 * b ^ (L - k') := Nat.mul_pos h0 (Nat.pow_pos (by omega))
          exact (hq.resolve_right hn) d (by omega) (by omega)) u hL htr
      exact ⟨M, hM, hall, fun h => absurd h hn⟩
  obtain ⟨M, hM, hall, hnone⟩ := key
  have hMk : ∀ g, L + 1 ≤ g →
      hierOfKernel g k compress (n0 * b ^ L) (n0 * b ^ L) n0 (Admis.position a : Admis K) b b 0 0 = .ok M := by
    intro g hg
    rw [hierOfKernel, ← ht, ClusterTree.build_mono htr hg, except_bind_ok, hM]
  obtain ⟨fits, full⟩ := ClusterTree.uniform_mgs (kernelFill_dims hk) h0 hb (ClusterTree.diagNever_position ha) u hL htr hM
    rfl rfl
  obtain ⟨reg, lu, dep⟩ := C53_structure hk hc (fuel := L + 1) (N := n0 * b ^ L) (nleaf := n0) (by omega)
    (a := (Admis.position a : Admis K)) hb (Or.inl ⟨ClusterTree.diagNever_position ha, n0, L, rfl, le_rfl, hL⟩)
    (hMk (L + 1) le_rfl)
  obtain ⟨wf, m0, m1, -⟩ := C08_kernel_matrix hk hc (by omega : 1 ≤ b) (by omega : 1 ≤ b) (hMk (L + 1) le_rfl)
  have hP : ∀ P : LowRank R → Prop, (∀ d l, compress d = .ok l → P l) → M.All P := fun P hP =>
    (ClusterTree.toMat_regular hc (kernelFill_dims hk) (by omega : 1 ≤ b) hP htr rfl rfl hM).2.1
  obtain ⟨A, rfl⟩ : ∃ A, M = .hier b b A := by
    obtain ⟨_, blk, -, e, -⟩ := ClusterTree.toMat_level htr hM
    exact ⟨blk, e⟩
  exact ⟨A, hMk fuel hfu, ⟨reg, square_of_all (hall.mono fun _ h => h.1), hall.mono fun _ h => h.2, dep, m0, m1⟩, fits, full,
    lu, hnone, hP⟩

/-- Where nothing is admissible the constructed matrix does not depend on the compression. -/
theorem hierOfKernel_never (h0 : 1 ≤ n0) (hb : 2 ≤ b) (hL : 1 ≤ L) {c1 c2 : Dense R → Except Err (LowRank R)}
    (ha : ((b ^ L : Nat) : Int) ≤ a + 1) (fuel : Nat) :
    hierOfKernel fuel k c1 (n0 * b ^ L) (n0 * b ^ L) n0 (Admis.position a : Admis K) b b 0 0 =
      hierOfKernel fuel k c2 (n0 * b ^ L) (n0 * b ^ L) n0 (Admis.position a : Admis K) b b 0 0 := by
  rw [hierOfKernel, hierOfKernel]
  cases htr : ClusterTree.build fuel true
    (ClusterTree.rootInfo ⟨0, ((n0 * b ^ L : Nat) : Int)⟩ ⟨0, ((n0 * b ^ L : Nat) : Int)⟩ b b n0) with
  | error e => rfl
  | ok tr =>
    obtain ⟨ch, rfl⟩ := build_root_node htr
    exact ClusterTree.uniform_never h0 hb (ClusterTree.position_never ha hb) (ClusterTree.uniform_root n0 L b) hL htr

/-- Arguments of the program: a kernel with entries `f` that returns on all blocks of the
matrix, `zeros` and `identity`; `N = n0·b^L` rows and columns with leaf size `n0 ≥ 1`, `b ≥ 2`
blocks per direction and `L ≥ 1` levels; `admis ≥ 0`; low-rank operations that return on operands
with `Q`; and a compression that gives such operands, unless nothing is compressed
(`b^L ≤ admis + 1`). -/
structure HQrInput (Q : LowRank R → Prop) (f : Int → Int → R) (k kz kid : KernelFn R) (o : LrOps R)
    (compress : Dense R → Except Err (LowRank R)) (n0 L b : Nat) (a : Int) : Prop where
  kernel : ComputesEntries k f
  kernelRet : KernelReturns k (n0 * b ^ L) (n0 * b ^ L)
  ident : ComputesEntries kid (fun i j => if i = j then 1 else 0)
  identRet : KernelReturns kid (n0 * b ^ L) (n0 * b ^ L)
  zeros : ComputesEntries kz (fun _ _ => 0)
  zerosRet : KernelReturns kz (n0 * b ^ L) (n0 * b ^ L)
  fits : o.Fits False
  total : o.Total False Q
  outer : Mat.OuterStable Q
  mix : Mat.MixStable Q
  fitting : FittingCompressor compress
  comp : HQrCompressor Q compress L b a
  leaf : 1 ≤ n0
  blocks : 2 ≤ b
  levels : 1 ≤ L
  adm : 0 ≤ a

/-- What the program does, step by step. -/
theorem hQr_runs (h : HQrInput Q f k kz kid o compress n0 L b a) {fuel : Nat} (hfu : 6 * L + 7 ≤ fuel) :
    ∃ (D : Mat R) (A X Y : Nat → Nat → Mat R) (B T Z E : Mat R) (I : Dense R),
      hQrProgram (K := K) fuel k kz kid compressD compress W o (n0 * b ^ L) n0 b a = .ok
        ⟨(Mat.sumSqDiff D (.hier b b A), Mat.sumSq D), (Mat.sumSqDiff D B, Mat.sumSq D),
         (Mat.sumSqDiff (.dense I) E, Mat.sumSq (.dense I))⟩ ∧
      -- `D`
      D.WF ∧ D.nRows = n0 * b ^ L ∧ D.nCols = n0 * b ^ L ∧ (∀ x < n0 * b ^ L, ∀ y < n0 * b ^ L, D.entry x y = f x y) ∧
      -- `A`
      hierOfKernel fuel k compress (n0 * b ^ L) (n0 * b ^ L) n0 (Admis.position a : Admis K) b b 0 0 = .ok (.hier b b A) ∧
      Mat.RegOk Q b (L + 1) (n0 * b ^ L) (n0 * b ^ L) (.hier b b A) ∧
      (((b ^ L : Nat) : Int) ≤ a + 1 → (Mat.hier b b A).All (fun _ => False) ∧ Z.All (fun _ => False)) ∧
      (∀ P : LowRank R → Prop, (∀ d l, compress d = .ok l → P l) → (Mat.hier b b A).All P) ∧
      -- `Z`, `I`
      Mat.RegOk Q b (L + 1) (n0 * b ^ L) (n0 * b ^ L) Z ∧
      I.rows = n0 * b ^ L ∧ I.cols = n0 * b ^ L ∧
      (∀ i < n0 * b ^ L, ∀ j < n0 * b ^ L, I.val i j = if i = j then 1 else 0) ∧
      -- the steps
      Mat.mgsHier W o fuel fuel b b A b b A b b A = .ok (X, Y) ∧
      Mat.RegOk Q b (L + 1) (n0 * b ^ L) (n0 * b ^ L) (.hier b b X) ∧ (Mat.hier b b A).SameShape (.hier b b X) ∧
      (Mat.hier b b Y).TriRegular b .upper ∧ (Mat.hier b b Y).nRows = n0 * b ^ L ∧
      Mat.trmm o fuel (.hier b b Y) (.hier b b X) .right .upper false false 1 = .ok B ∧ (Mat.hier b b X).SameShape B ∧
      (Mat.hier b b X).transpose = .ok T ∧
      Mat.gemm o fuel T (.hier b b X) Z 1 0 false false = .ok E ∧ Z.SameShape E := by
  obtain ⟨hk, hk', hi, hi', hz, hz', hf, hT, hO, hM, hc, hq, h0, hb, hL, ha⟩ := h
  have hNn : (n0 * b ^ L) / n0 = b ^ L := Nat.mul_div_cancel_left _ h0
  obtain ⟨A, hA, rA, fit, full, luA, dA, pA⟩ := C57_structure (K := K) hk hk' hc hq h0 hb hL ha (fuel := fuel) (by omega)
  obtain ⟨Z', hZ, rZ, -, -, -, dZ, -⟩ := C57_structure (K := K) hz hz' hc hq h0 hb hL ha (fuel := fuel) (by omega)
  -- `D`
  have hnev : ((b ^ L : Nat) : Int) ≤ ((b ^ L : Nat) : Int) + 1 := by omega
  obtain ⟨D, hD, rD, -, -, -, -, -⟩ := C57_structure (K := K) (Q := fun _ => True) (compress := keepAll) (a := ((b ^ L : Nat) : Int))
    hk hk' keepAll_fitting (Or.inr hnev) h0 hb hL (Int.natCast_nonneg _) (fuel := fuel) (by omega)
  obtain ⟨wD, rD0, rD1, DD, hDD, d0, d1, -, eD⟩ := C08_kernel_matrix hk keepAll_fitting (by omega : 1 ≤ b) (by omega : 1 ≤ b) hD
  have entD : ∀ x < (n0 * b ^ L), ∀ y < (n0 * b ^ L), (Mat.hier b b D).entry x y = f x y := by
    intro x hx y hy
    obtain ⟨DM', hDM', -, -, ev⟩ := Mat.toDense_ok _ wD
    rw [hDD] at hDM'
    cases hDM'
    rw [← ev x (by omega) y (by omega), eD keepAll_exact x hx y hy]
    simp
  have hD' : hierOfKernel fuel k compressD (n0 * b ^ L) (n0 * b ^ L) n0 (Admis.position (((n0 * b ^ L) / n0 : Nat) : Int) : Admis K) b b 0 0 =
      .ok (.hier b b D) := by
    rw [hNn, ← hD]
    exact hierOfKernel_never h0 hb hL hnev fuel
  -- the factorization
  have blk : ∀ i < b, ∀ j < b, Mat.RegOk Q b (L + 1) (A i 0).nRows (A 0 j).nCols (A i j) := by
    intro i hi j hj
    have w := rA.reg.wf.2.2 i hi j hj
    have g := (rA.block hi hj).mono (Nat.sub_le (L + 1) 1)
    rw [w.2.1, w.2.2] at g
    exact g
  have e1 : ∀ i < b, (A i 0).nRows = (A 0 i).nCols := by
    intro i hi
    have h1 := (rA.reg.even i hi 0 (by omega)).2.1
    have h2 := (rA.reg.even 0 (by omega) i hi).2.2
    rw [show ∑ i ∈ range b, (A i 0).nRows = n0 * b ^ L from rA.rows] at h1
    rw [show ∑ i ∈ range b, (A 0 i).nCols = n0 * b ^ L from rA.cols] at h2
    exact_mod_cast h1.trans h2.symm
  obtain ⟨⟨X, Y⟩, hXY, oQ, oR⟩ := Mat.mgsHier_nest (L := W) hf hT hM hb (d := L + 1) (gfuel := fuel) (by omega) (L + 2) fuel
    (by omega) b b (fun i => (A i 0).nRows) (fun j => (A 0 j).nCols) A A A
    ⟨by omega, by omega, blk, blk, fun i hi j hj => by rw [← e1 i hi]; exact blk i hi j hj, fit.2.2, fun j hj => full.2.2 j hj,
      fun j hj _ i hi => Mat.SameShape.refl _, fun j hj => by
        have := (blk j hj j hj).dep
        omega⟩
  have sX : (Mat.hier b b A).SameShape (.hier b b X) := ⟨rfl, rfl, fun i hi j hj => (oQ i hi j hj).2⟩
  have sY : (Mat.hier b b A).SameShape (.hier b b Y) := ⟨rfl, rfl, fun i hi j hj => (oR i hi j hj).2⟩
  have b0 : 0 < b := by omega
  have wX : (Mat.hier b b X).WF := ⟨b0, b0, fun i hi j hj => ⟨(oQ i hi j hj).1.reg.wf, by
    rw [(oQ i hi j hj).1.rows, (oQ i hi 0 b0).1.rows], by rw [(oQ i hi j hj).1.cols, (oQ 0 b0 j hj).1.cols]⟩⟩
  have wY : (Mat.hier b b Y).WF := ⟨b0, b0, fun i hi j hj => ⟨(oR i hi j hj).1.reg.wf, by
    rw [(oR i hi j hj).1.rows, (oR i hi 0 b0).1.rows], by rw [(oR i hi j hj).1.cols, (oR 0 b0 j hj).1.cols]⟩⟩
  have rX := rA.shape sX wX (fun i hi j hj => (oQ i hi j hj).1.sqr) (fun i hi j hj => (oQ i hi j hj).1.all)
  have rY := rA.shape sY wY (fun i hi j hj => (oR i hi j hj).1.sqr) (fun i hi j hj => (oR i hi j hj).1.all)
  have tY : (Mat.hier b b Y).TriRegular b .upper := ⟨wY, rY.reg.even, Mat.triSubdiv_of_lu luA sY rY.reg.sub⟩
  -- the product
  obtain ⟨B, hB, sB, -⟩ := C28_trmm_returns hf hT hO hb (A := .hier b b Y) (B := .hier b b X) (side := .right) (uplo := .upper)
    (trans := false) (unit := false) (α := 1) tY rX.reg rX.sqr rX.all (rY.rows.trans rX.cols.symm) (fun h => (nomatch h))
    (fuel := fuel) (by
      have h1 := rY.dep
      have h2 := rX.dep
      omega)
  have pB := C28_trmm hf fuel wY wX rX.sqr tY.sub.diagSquare hB
  obtain ⟨T, hTr, gT, dT, T0, T1⟩ := rX.transpose
  obtain ⟨E, hE, rE, sE⟩ := Mat.RegOk.gemm hf hT hb (d := L + 1) (fuel := fuel) (by omega) gT dT T0 T1 rX.reg rX.dep rX.rows
    rX.cols rZ 1 0
  obtain ⟨mem, hm⟩ := hi' (fun _ => 0) (n0 * b ^ L) (n0 * b ^ L) (n0 * b ^ L) 0 0 (by omega) (by omega)
  rw [Nat.cast_zero] at hm
  obtain ⟨I, hI, I0, I1, I2⟩ : ∃ I : Dense R, Dense.ofKernel kid (n0 * b ^ L) (n0 * b ^ L) 0 0 = .ok I ∧ I.rows = (n0 * b ^ L) ∧
      I.cols = (n0 * b ^ L) ∧ ∀ i < (n0 * b ^ L), ∀ j < (n0 * b ^ L), I.val i j = if i = j then 1 else 0 := by
    refine ⟨_, by rw [Dense.ofKernel, hm, except_bind_ok], rfl, rfl, fun i hi2 j hj2 => ?_⟩
    have := hi _ _ _ _ _ _ _ (le_refl _) hm i hi2 j hj2
    simp only [zero_add, Nat.cast_inj] at this
    exact this
  have dep1 := rD.dep
  have dep2 := rA.dep
  have dep3 := rX.dep
  have dep4 := rE.dep
  have bd := sB.dims wX
  have l1 := Mat.l2_run (fuel := fuel) rD.reg.wf rA.reg.wf rD.reg.sub.noEmpty rA.reg.sub.noEmpty rD.reg.even rA.reg.even
    (rD.rows.trans rA.rows.symm) (rD.cols.trans rA.cols.symm) (by omega)
  have l2 := Mat.l2_run (fuel := fuel) rD.reg.wf pB.2.2.1 rD.reg.sub.noEmpty (sB.noEmpty rX.reg.sub.noEmpty) rD.reg.even
    (sB.even wX rX.reg.even) (rD.rows.trans (bd.1.trans rX.rows).symm) (rD.cols.trans (bd.2.trans rX.cols).symm)
    (by rw [sB.depth]; omega)
  have l3 := Mat.l2_run (fuel := fuel) (A := .dense I) trivial rE.reg.wf trivial rE.reg.sub.noEmpty trivial rE.reg.even
    (I0.trans rE.rows.symm) (I1.trans rE.cols.symm) (by simp only [Mat.depth]; omega)
  refine ⟨.hier b b D, A, X, Y, B, T, .hier b b Z', E, I, ?_, wD, rD0, rD1, entD, hA, rA, fun hd => ⟨dA hd, dZ hd⟩, pA, rZ, I0, I1,
    I2, hXY, rX, sX, tY, rY.rows, hB, sB, hTr, hE, sE⟩
  unfold hQrProgram
  simp only [if_neg (show n0 ≠ 0 by omega), except_bind_ok, hD', hA, l1, Mat.grid, hXY, hB, l2, hZ, hTr, hE, hI, l3]

/-- **C57**: the program returns, whatever the rounding of the low-rank operations and whatever
the QR routine computes. -/
theorem C57_program_returns (h : HQrInput Q f k kz kid o compress n0 L b a) {fuel : Nat} (hfu : 6 * L + 7 ≤ fuel) :
    ∃ r, hQrProgram (K := K) fuel k kz kid compressD compress W o (n0 * b ^ L) n0 b a = .ok r := by
  obtain ⟨_, _, _, _, _, _, _, _, _, hr, -⟩ := hQr_runs (K := K) (compressD := compressD) (W := W) h hfu
  exact ⟨_, hr⟩

end

theorem Mat.not_lowRankAt_of_denseAt : ∀ {M : Mat R} {x y : Nat}, M.denseAt x y → ¬ M.lowRankAt x y
  | .dense _, _, _, _, h => h
  | .lowRank _, _, _, h, _ => h
  | .hier br bc blk, x, y, h, h' => by
    rw [denseAt_hier] at h
    rw [lowRankAt_hier] at h'
    exact not_lowRankAt_of_denseAt h h'
  | .empty _ _, _, _, h, _ => h

/-- No rounding: the low-rank operations are exact and give orthonormal left factors, and so
does the compression; or nothing is compressed. -/
def NoRoundingHQr [CommRing R] (o : LrOps R) (compress : Dense R → Except Err (LowRank R)) (L b : Nat) (a : Int) : Prop :=
  (o.Exact False ∧ o.OrthoResults ∧ ∀ d : Dense R, ∀ l, compress d = .ok l → l.LeftOrth) ∨ ((b ^ L : Nat) : Int) ≤ a + 1

/-- What the program prints without rounding, for the entries `f` and the compressed matrix
`A` of order `N`: the compression error sums the squares of `f - A`; the residual `‖f - Q·R‖` is
the same numbers; `QᵀQ` is the identity if the columns of `A` are linearly independent; and
there is no error at all if the compression is exact or nothing is compressed. -/
structure HQrReport [CommRing R] (f : Int → Int → R) (A : Mat R) (compress : Dense R → Except Err (LowRank R))
    (N : Nat) (none : Prop) (r : BlrQrRun R) : Prop where
  rows : A.nRows = N
  cols : A.nCols = N
  comp : r.comp = (∑ x ∈ range N, ∑ y ∈ range N, (f x y - A.entry x y) * (f x y - A.entry x y),
    ∑ x ∈ range N, ∑ y ∈ range N, f x y * f x y)
  resid : r.resid = r.comp
  orth : A.IndepCols → r.orth = (0, (N : R))
  none : ExactCompressor compress ∨ none → r.comp.1 = 0

section
variable [Field R] [DecidableEq R] [Inhabited R] {o : LrOps R} {Q : LowRank R → Prop} {W : Lapack R}
variable {k kz kid : KernelFn R} {f : Int → Int → R} {compressD compress : Dense R → Except Err (LowRank R)}
  {n0 L b : Nat} {a : Int}

/-- **C57**: without rounding the program reports the compression error as residual, and a
perfectly orthogonal `Q` if the columns of the compressed matrix are linearly independent. -/
theorem C57_program_exact (hW : W.Qr) (hWo : W.QrOrtho) (h : HQrInput Q f k kz kid o compress n0 L b a)
    (hx : NoRoundingHQr o compress L b a) {fuel : Nat} (hfu : 6 * L + 7 ≤ fuel) :
    ∃ r A, hQrProgram (K := K) fuel k kz kid compressD compress W o (n0 * b ^ L) n0 b a = .ok r ∧
      hierOfKernel fuel k compress (n0 * b ^ L) (n0 * b ^ L) n0 (Admis.position a : Admis K) b b 0 0 = .ok A ∧
      HQrReport f A compress (n0 * b ^ L) (((b ^ L : Nat) : Int) ≤ a + 1) r := by
  obtain ⟨D, A, X, Y, B, T, Z, E, I, hrun, wD, rD, cD, entD, hA, rA, hdense, pA, rZ, I0, I1, I2, hXY, rX, sX, tY, rY, hB, sB,
    hTr, hE, sE⟩ := hQr_runs (K := K) (compressD := compressD) (W := W) h hfu
  obtain ⟨hk, hk', hi, hi', hz, hz', hf, hT, hO, hM, hc, hq, h0, hb, hL, ha⟩ := h
  have b0 : 0 < b := by omega
  have leavesA : ((b ^ L : Nat) : Int) ≤ a + 1 → (Mat.hier b b A).DenseLeaves := fun hd =>
    Mat.denseLeaves_of_all (hdense hd).1 rA.reg.sub.noEmpty
  have leavesZ : ((b ^ L : Nat) : Int) ≤ a + 1 → Z.DenseLeaves := fun hd =>
    Mat.denseLeaves_of_all (hdense hd).2 rZ.reg.sub.noEmpty
  have fine : ∀ {P : Prop}, (((b ^ L : Nat) : Int) ≤ a + 1 → P) → P ∨ o.Exact False := fun h =>
    hx.elim (fun h => Or.inr h.1) (fun hd => Or.inl (h hd))
  have blkE : ∀ i < b, ∀ j < b, (A i j).EvenBlock (o.Exact False) := by
    intro i hi j hj
    have g := rA.block hi hj
    refine ⟨g.reg.wf, g.sqr, fine fun hd => ?_, g.reg.even⟩
    intro x hx y hy
    exact (leavesA hd i hi j hj).denseAt hx hy g.reg.wf
  have e1 : ∀ i < b, (A i 0).nRows = (A 0 i).nCols := by
    intro i hi
    have h1 := (rA.reg.even i hi 0 b0).2.1
    have h2 := (rA.reg.even 0 b0 i hi).2.2
    rw [show ∑ i ∈ range b, (A i 0).nRows = n0 * b ^ L from rA.rows] at h1
    rw [show ∑ i ∈ range b, (A 0 i).nCols = n0 * b ^ L from rA.cols] at h2
    exact_mod_cast h1.trans h2.symm
  have wA := rA.reg.wf.2.2
  have hI : Mat.MgsInput (o.Exact False) b b A A A :=
    ⟨rA.reg.wf, blkE, fun i hi j hj => ⟨blkE i hi j hj, rfl, rfl⟩,
      fun i hi j hj => ⟨blkE i hi j hj, (wA i hi j hj).2.1.trans (e1 i hi), (wA i hi j hj).2.2⟩,
      fun _ _ _ _ _ => Mat.SameShape.refl _⟩
  have wX := rX.reg.wf
  -- `Q*R = A`
  have pB := C28_trmm hf fuel tY.wf wX rX.sqr tY.sub.diagSquare hB
  have bd := sB.dims wX
  have eB : ∀ x < n0 * b ^ L, ∀ y < n0 * b ^ L, B.entry x y = (Mat.hier b b A).entry x y := by
    intro x hx y hy
    have := pB.2.2.2.2.2 x (by rw [rX.rows]; exact hx) y (by rw [rX.cols]; exact hy) (fine fun hd =>
      ((leavesA hd).shape sX).denseAt (by rw [rX.rows]; exact hx) (by rw [rX.cols]; exact hy) wX)
    rw [← ((Mat.entryIs_iff _ pB.2.2.1 x y _).1 this).2.2, Mat.C34_factor hW hf (ex := o.Exact False) id hI hXY x
      (by rw [rA.rows]; exact hx) y (by rw [rA.cols]; exact hy), one_mul, Mat.sideProd, rY]
    symm
    refine (Finset.sum_congr rfl fun c hc => ?_).trans (Finset.sum_subset (s₁ := range (y + 1)) (fun c hc => ?_) fun c hc hn => ?_)
    · have hc := mem_range.1 hc
      simp only [Bool.false_eq_true, if_false, Mat.triEntry]
      by_cases e : c = y
      · rw [if_pos e]
      · rw [if_neg e, if_pos (by omega)]
    · rw [mem_range] at hc ⊢
      omega
    · rw [mem_range] at hc hn
      simp only [Bool.false_eq_true, if_false, Mat.triEntry]
      rw [if_neg (by omega), if_neg (by omega), mul_zero]
  have hrB : B.nRows = n0 * b ^ L := bd.1.trans rX.rows
  have hcB : B.nCols = n0 * b ^ L := bd.2.trans rX.cols
  have sBA : B.SameEntries (Mat.hier b b A) :=
    ⟨hrB.trans rA.rows.symm, hcB.trans rA.cols.symm, fun x hx y hy => eB x (by omega) y (by omega)⟩
  refine ⟨_, _, hrun, hA, rA.rows, rA.cols, ?_, ?_, fun hind => ?_, ?_⟩
  · simp only [Mat.sumSqDiff, Mat.sumSq, rD, cD]
    refine congrArg₂ Prod.mk (Finset.sum_congr rfl fun x hx => Finset.sum_congr rfl fun y hy => ?_)
      (Finset.sum_congr rfl fun x hx => Finset.sum_congr rfl fun y hy => ?_) <;>
    rw [entD x (mem_range.1 hx) y (mem_range.1 hy)]
  · refine Prod.ext ?_ rfl
    exact Mat.sumSqDiff_congr (Mat.SameEntries.refl _) sBA (rD.trans rA.rows.symm) (cD.trans rA.cols.symm)
  · have O := Mat.C55_orthonormal hW hWo hf (ex := o.Exact False) id hI (by
      rcases hx with hx | hx
      · exact pA _ hx.2.2
      · exact fun i hi j hj => ((hdense hx).1 i hi j hj).mono fun _ h => h.elim) (by
      rcases hx with hx | hx
      · exact Or.inr hx.2.1
      · exact Or.inl (hdense hx).1) hind hXY
    rw [rA.rows, rA.cols] at O
    obtain ⟨wT, rT, cT, -, eT⟩ := Mat.transpose_spec wX hTr
    rw [rX.rows] at cT eT
    rw [rX.cols] at rT eT
    obtain ⟨-, -, -, -, -, eE⟩ := Mat.gemm_good hf (ex := o.Exact False) id wT wX ⟨rZ.reg.wf, rZ.sqr, fine fun hd =>
      fun x hx y hy => (leavesZ hd).denseAt hx hy rZ.reg.wf⟩ (Mat.TransSafe_ff _ _) hE
    rw [rZ.rows, rZ.cols, rX.rows] at eE
    have ent : ∀ x < n0 * b ^ L, ∀ y < n0 * b ^ L, E.entry x y = if x = y then 1 else 0 := by
      intro x hx y hy
      rw [eE x hx y hy, zero_mul, add_zero, one_mul, ← O x hx y hy]
      refine Finset.sum_congr rfl fun l hl => ?_
      rw [show Mat.opEntry false T x l = T.entry x l from rfl, eT l (mem_range.1 hl) x hx]
    simp only [Mat.sumSqDiff, Mat.sumSq, Mat.nRows, Mat.nCols, I0, I1]
    refine congrArg₂ Prod.mk ?_ ?_
    · refine Finset.sum_eq_zero fun x hx => Finset.sum_eq_zero fun y hy => ?_
      rw [ent x (mem_range.1 hx) y (mem_range.1 hy), show (Mat.dense I).entry x y = I.val x y from rfl,
        I2 x (mem_range.1 hx) y (mem_range.1 hy), sub_self, zero_mul]
    · have : ∀ x ∈ range (n0 * b ^ L), ∑ y ∈ range (n0 * b ^ L), (Mat.dense I).entry x y * (Mat.dense I).entry x y = 1 := by
        intro x hx
        rw [Finset.sum_eq_single_of_mem x hx]
        · rw [show (Mat.dense I).entry x x = I.val x x from rfl, I2 x (mem_range.1 hx) x (mem_range.1 hx)]
          simp
        · intro y hy hne
          rw [show (Mat.dense I).entry x y = I.val x y from rfl, I2 x (mem_range.1 hx) y (mem_range.1 hy),
            if_neg hne.symm, zero_mul]
      rw [Finset.sum_congr rfl this]
      simp
  · intro hn
    obtain ⟨-, -, -, DM, hDM, -, -, eN, eX⟩ := C08_kernel_matrix hk hc (by omega : 1 ≤ b) (by omega : 1 ≤ b) hA
    obtain ⟨DM', hDM', -, -, ev⟩ := Mat.toDense_ok _ rA.reg.wf
    rw [hDM] at hDM'
    cases hDM'
    have entA : ∀ x < n0 * b ^ L, ∀ y < n0 * b ^ L, (Mat.hier b b A).entry x y = f x y := by
      intro x hx y hy
      rw [← ev x (by rw [rA.rows]; exact hx) y (by rw [rA.cols]; exact hy)]
      rcases hn with hn | hn
      · rw [eX hn x hx y hy]
        simp
      · rw [eN x hx y hy (fun hl => Mat.not_lowRankAt_of_denseAt
          ((leavesA hn).denseAt (by rw [rA.rows]; exact hx) (by rw [rA.cols]; exact hy) rA.reg.wf) hl)]
        simp
    simp only [Mat.sumSqDiff, rD, cD]
    refine Finset.sum_eq_zero fun x hx => Finset.sum_eq_zero fun y hy => ?_
    rw [entD x (mem_range.1 hx) y (mem_range.1 hy), entA x (mem_range.1 hx) y (mem_range.1 hy), sub_self, zero_mul]

end

/-! ### the program as shipped, in real arithmetic -/

section
variable {W : Lapack ℝ}

/-- The entries of the program's matrix for points `pts` on a line. -/
noncomputable def lineLaplace (pts : List ℝ) (i j : Int) : ℝ :=
  match Builtin.laplacend.entry [pts] i j with
  | .ok v => v
  | .error _ => 0

theorem lineLaplace_returns {pts : List ℝ} {m n : Nat} (hm : m ≤ pts.length) (hn : n ≤ pts.length) :
    KernelReturns (Builtin.laplacend.kernel [pts]) m n := by
  intro mem m' n' stride r c h1 h2
  refine kernelLoop_exists fun i hi j hj => ?_
  have h := (C10_values [pts] (r + i) (c + j)
    (by simp only [List.mem_singleton]; rintro p rfl; omega)
    (by simp only [List.mem_singleton]; rintro p rfl; omega)).2.2.1
  rw [Nat.cast_add, Nat.cast_add] at h
  exact ⟨_, h⟩

theorem ofEps_fitting {eps : ℝ} : FittingCompressor (fun d => W.ofEps d eps) := by
  intro d l hl
  obtain ⟨w, -, l0, l1, -⟩ := Lapack.ofEps_ok hl
  exact ⟨w, l0, l1⟩

/-- **C57**: with the library's own routines (`laplacend`, `zeros`, `identity`, compression with
a tolerance, rounded or fast low-rank addition), for any points on a line, every
`N = n0·b^L` with leaf size `n0`, every non-zero tolerance and every `admis ≥ 0`, the program
returns. -/
theorem C57_library_returns (hW : W.Ranks) {mode : LraMode} (hm : mode ≠ .naive) {n0 L b : Nat} (h0 : 1 ≤ n0) (hb : 2 ≤ b)
    (hL : 1 ≤ L) {pts : List ℝ} (hp : n0 * b ^ L ≤ pts.length) {eps : ℝ} (he : eps ≠ 0) {a : Int} (ha : 0 ≤ a)
    {fuel : Nat} (hfu : 6 * L + 7 ≤ fuel) :
    ∃ r, hQrProgram (K := ℝ) fuel (Builtin.laplacend.kernel [pts]) (Builtin.zeros.kernel []) (Builtin.identity.kernel [])
      (fun d => W.ofRank d n0) (fun d => W.ofEps d eps) W (W.ops mode fuel) (n0 * b ^ L) n0 b a = .ok r :=
  C57_program_returns (Q := LowRank.WithTolerance) (f := lineLaplace pts)
    ⟨C10_computes_entries _ _, lineLaplace_returns hp hp, identity_computes, identity_returns _ _, zeros_computes,
      zeros_returns _ _, W.ops_fits mode fuel, Lapack.ops_total_false hW hm fuel, outerStable_tolerance, mixStable_tolerance,
      ofEps_fitting, Or.inl fun d h1 h2 => by
        obtain ⟨l, hl⟩ := W.ofEps_total d eps
        obtain ⟨w, s, l0, l1, hr, e, -⟩ := Lapack.ofEps_ok hl
        have := hW.geqp3 d eps
        exact ⟨l, hl, s, w, s, e ▸ he, by omega, by omega, by omega⟩, h0, hb, hL, ha⟩ hfu

/-- The choices the program offers. -/
theorem hQrSelect_cases (arg : Int) :
    ∃ L : Nat, 1 ≤ L ∧ L ≤ 3 ∧ 2 ≤ (hQrSelect 128 16 arg).1 ∧ 16 * (hQrSelect 128 16 arg).1 ^ L = 128 ∧
      0 ≤ (hQrSelect 128 16 arg).2 ∧
      (arg = 0 ∨ arg = 1 → (((hQrSelect 128 16 arg).1 ^ L : Nat) : Int) ≤ (hQrSelect 128 16 arg).2 + 1) := by
  unfold hQrSelect
  split_ifs with h1 h2 h3 h4 h5
  · exact ⟨1, by norm_num, by norm_num, by norm_num, by norm_num, by norm_num, fun _ => by norm_num⟩
  · exact ⟨3, by norm_num, by norm_num, by norm_num, by norm_num, by norm_num, fun _ => by norm_num⟩
  · exact ⟨1, by norm_num, by norm_num, by norm_num, by norm_num, by norm_num, fun h => by omega⟩
  · exact ⟨1, by norm_num, by norm_num, by norm_num, by norm_num, by norm_num, fun h => by omega⟩
  · exact ⟨3, by norm_num, by norm_num, by norm_num, by norm_num, by norm_num, fun h => by omega⟩
  · exact ⟨3, by norm_num, by norm_num, by norm_num, by norm_num, by norm_num, fun h => by omega⟩

/-- **C57**: the program as shipped returns for every command line argument and all points. -/
theorem C57_main_returns (hW : W.Ranks) {mode : LraMode} (hm : mode ≠ .naive) {pts : List ℝ} (hp : pts.length = 128)
    {eps : ℝ} (he : eps ≠ 0) (arg : Int) {fuel : Nat} (hfu : 25 ≤ fuel) :
    ∃ r, hQrMain (K := ℝ) fuel (Builtin.laplacend.kernel [pts]) (Builtin.zeros.kernel []) (Builtin.identity.kernel [])
      (fun d => W.ofRank d 16) (fun d => W.ofEps d eps) W (W.ops mode fuel) arg = .ok r := by
  obtain ⟨L, h1, h2, h3, h4, h5, -⟩ := hQrSelect_cases arg
  have := C57_library_returns hW hm (n0 := 16) (L := L) (by omega) h3 h1 (pts := pts) (by rw [h4, hp]) he h5
    (fuel := fuel) (by omega)
  rw [h4] at this
  exact this

/-- The matrix of distinct points on a line has linearly independent columns (C56). -/
theorem lineLaplace_indep {pts : List ℝ} {n : Nat} (hn : n ≤ pts.length) (hd : pts.Nodup) {c : Nat → ℝ}
    (h : ∀ x < n, ∑ y ∈ range n, lineLaplace pts x y * c y = 0) : ∀ y < n, c y = 0 := by
  have hlen : ∀ p ∈ [pts], 0 + n ≤ p.length := by
    simp only [List.mem_singleton]
    rintro p rfl
    omega
  have hdist : DistinctPoints [pts] 0 n := by
    intro i hi j hj hij
    refine ⟨pts, List.mem_singleton_self _, fun e => hij ?_⟩
    rw [zero_add, zero_add, List.getD_eq_getElem?_getD, List.getD_eq_getElem?_getD,
      List.getElem?_eq_getElem (by omega), List.getElem?_eq_getElem (by omega)] at e
    exact (hd.getElem_inj_iff).1 e
  obtain ⟨mem, hm⟩ := lineLaplace_returns hn hn (fun _ => 0) n n n 0 0 (by omega) (by omega)
  have hD : Dense.ofKernel (Builtin.laplacend.kernel [pts]) n n
      ((0 : Nat) : Int) ((0 : Nat) : Int) = .ok ⟨n, n, fun i j => mem (i * n + j)⟩ := by
    rw [Dense.ofKernel, hm, except_bind_ok]
  refine (C56_nonsingular_iff (Or.inl rfl) hlen hD).2 hdist c fun i hi => ?_
  rw [← h i (by omega)]
  refine Finset.sum_congr rfl fun j hj => ?_
  have := C10_computes_entries _ _ _ _ _ _ _ _ _ (le_refl n) hm i hi j (mem_range.1 hj)
  simp only [Nat.cast_zero, zero_add] at this
  rw [show (⟨n, n, fun i j => mem (i * n + j)⟩ : Dense ℝ).val i j = mem (i * n + j) from rfl, this]
  rfl

/-- **C57**: if `admis` keeps all blocks dense, the program reports no compression error, no
residual and a perfectly orthogonal `Q` for all distinct points, whatever the routines for
low-rank blocks do. -/
theorem C57_library_dense (hW : W.Qr) (hWo : W.QrOrtho) (mode : LraMode) {n0 L b : Nat} (h0 : 1 ≤ n0) (hb : 2 ≤ b)
    (hL : 1 ≤ L) {pts : List ℝ} (hp : n0 * b ^ L ≤ pts.length) (hd : pts.Nodup) (eps : ℝ) {a : Int}
    (ha : ((b ^ L : Nat) : Int) ≤ a + 1) {fuel : Nat} (hfu : 6 * L + 7 ≤ fuel) :
    ∃ r, hQrProgram (K := ℝ) fuel (Builtin.laplacend.kernel [pts]) (Builtin.zeros.kernel []) (Builtin.identity.kernel [])
      (fun d => W.ofRank d n0) (fun d => W.ofEps d eps) W (W.ops mode fuel) (n0 * b ^ L) n0 b a = .ok r ∧
      r.comp.1 = 0 ∧ r.resid.1 = 0 ∧ r.orth = (0, ((n0 * b ^ L : Nat) : ℝ)) := by
  have hpow : 1 ≤ b ^ L := Nat.one_le_pow _ _ (by omega)
  have h : HQrInput (fun _ => False) (lineLaplace pts) (Builtin.laplacend.kernel [pts]) (Builtin.zeros.kernel [])
      (Builtin.identity.kernel []) (W.ops mode fuel) (fun d => W.ofEps d eps) n0 L b a :=
    ⟨C10_computes_entries _ _, lineLaplace_returns hp hp, identity_computes, identity_returns _ _, zeros_computes,
      zeros_returns _ _, W.ops_fits mode fuel, LrOps.total_false _ _, outerStable_false, mixStable_false, ofEps_fitting,
      Or.inr ha, h0, hb, hL, by omega⟩
  obtain ⟨r, A, h1, -, P⟩ := C57_program_exact (K := ℝ) (compressD := fun d => W.ofRank d n0) hW hWo h (Or.inr ha) hfu
  have c0 := P.none (Or.inr ha)
  refine ⟨r, h1, c0, by rw [P.resid, c0], P.orth fun c hc => ?_⟩
  have ent : ∀ x < n0 * b ^ L, ∀ y < n0 * b ^ L, lineLaplace pts x y = A.entry x y := by
    have e := P.comp
    rw [e] at c0
    simp only at c0
    intro x hx y hy
    have s1 := (Finset.sum_eq_zero_iff_of_nonneg fun x _ => Finset.sum_nonneg fun y _ => mul_self_nonneg _).1 c0 x
      (mem_range.2 hx)
    have s2 := (Finset.sum_eq_zero_iff_of_nonneg fun y _ => mul_self_nonneg _).1 s1 y (mem_range.2 hy)
    linarith [mul_self_eq_zero.1 s2]
  rw [P.rows, P.cols] at hc
  rw [P.cols]
  refine lineLaplace_indep hp hd fun x hx => ?_
  rw [← hc x hx]
  exact Finset.sum_congr rfl fun y hy => by rw [ent x hx y (mem_range.1 hy)]

/-- **C57**: arguments 0 and 1 of the program as shipped. -/
theorem C57_main_dense (hW : W.Qr) (hWo : W.QrOrtho) (mode : LraMode) {pts : List ℝ} (hp : pts.length = 128)
    (hd : pts.Nodup) (eps : ℝ) {arg : Int} (harg : arg = 0 ∨ arg = 1) {fuel : Nat} (hfu : 25 ≤ fuel) :
    ∃ r, hQrMain (K := ℝ) fuel (Builtin.laplacend.kernel [pts]) (Builtin.zeros.kernel []) (Builtin.identity.kernel [])
      (fun d => W.ofRank d 16) (fun d => W.ofEps d eps) W (W.ops mode fuel) arg = .ok r ∧
      r.comp.1 = 0 ∧ r.resid.1 = 0 ∧ r.orth = (0, 128) := by
  obtain ⟨L, h1, h2, h3, h4, h5, h6⟩ := hQrSelect_cases arg
  obtain ⟨r, hr, c1, c2, c3⟩ := C57_library_dense hW hWo mode (n0 := 16) (L := L) (by omega) h3 h1 (pts := pts)
    (by rw [h4, hp]) hd eps (h6 harg) (fuel := fuel) (by omega)
  rw [h4] at hr c3
  exact ⟨r, hr, c1, c2, by rw [c3]; norm_num⟩

end

/-! ### the hypotheses can be met -/

section Examples

/-- Three levels of two blocks, weak admissibility (argument 4), with some low-rank routines. -/
example (pts : List ℝ) (hp : pts.length = 128) : ∃ (W : Lapack ℝ) (r : BlrQrRun ℝ),
    hQrMain (K := ℝ) 25 (Builtin.laplacend.kernel [pts]) (Builtin.zeros.kernel []) (Builtin.identity.kernel [])
      (fun d => W.ofRank d 16) (fun d => W.ofEps d (1 / 10 ^ 6)) W (W.ops .rounded 25) 4 = .ok r := by
  have hW : Lapack.Ranks (R := ℝ) { plainLapack ℝ with geqp3 := fun A e =>
      (max 1 ((plainLapack ℝ).geqp3 A e).1, ((plainLapack ℝ).geqp3 A e).2) } :=
    ⟨fun _ _ h => ⟨h, le_rfl⟩, fun _ _ => le_max_left _ _⟩
  obtain ⟨r, hr⟩ := C57_main_returns hW (mode := .rounded) (by simp) hp (eps := 1 / 10 ^ 6) (by norm_num) 4 (le_refl 25)
  exact ⟨_, r, hr⟩

/-- All blocks dense (argument 1), points 0 to 127, and a QR factorization that exists. -/
example : ∃ (W : Lapack ℝ) (r : BlrQrRun ℝ),
    hQrMain (K := ℝ) 25 (Builtin.laplacend.kernel [(List.range 128).map fun i : Nat => (i : ℝ)]) (Builtin.zeros.kernel [])
      (Builtin.identity.kernel []) (fun d => W.ofRank d 16) (fun d => W.ofEps d (1 / 10 ^ 6)) W (W.ops .rounded 25) 1 =
      .ok r ∧ r.comp.1 = 0 ∧ r.resid.1 = 0 ∧ r.orth = (0, 128) := by
  obtain ⟨W, h1, h2⟩ := Lapack.exists_qr
  obtain ⟨r, hr⟩ := C57_main_dense h1 h2 .rounded (pts := (List.range 128).map fun i : Nat => (i : ℝ)) (by simp)
    (List.nodup_range.map Nat.cast_injective) (1 / 10 ^ 6) (arg := 1) (Or.inr rfl) (le_refl 25)
  exact ⟨W, r, hr⟩

/-- A compressed matrix without rounding, two levels of two blocks of leaf size 2: the identity
plus any values below the diagonal block. -/
example (g : Int → Int → ℝ) : ∃ (W : Lapack ℝ) (r : BlrQrRun ℝ),
    hQrProgram (K := ℝ) 19 (indexKernel fun i j => if 4 ≤ i ∧ j < 4 then g i j else if i = j then 1 else 0)
      (Builtin.zeros.kernel []) (Builtin.identity.kernel []) (fun d => .ok (keepRight d)) (fun d => .ok (keepRight d)) W
      (orthOps ℝ) 8 2 2 0 = .ok r ∧ r.comp.1 = 0 ∧ r.resid.1 = 0 ∧ r.orth = (0, 8) := by
  obtain ⟨W, h1, h2⟩ := Lapack.exists_qr
  have hx : NoRoundingHQr (orthOps ℝ) (fun d => .ok (keepRight d)) 2 2 0 := by
    refine Or.inl ⟨orthOps_exact, orthOps_results, fun d l hl => ?_⟩
    cases Except.ok.inj hl
    exact keepRight_leftOrth d
  have he : ExactCompressor (fun d : Dense ℝ => .ok (keepRight d)) := by
    intro d l hl r hr s hs
    cases Except.ok.inj hl
    exact keepRight_entry d hr s
  have hI : HQrInput (fun _ => True) (fun i j => if 4 ≤ i ∧ j < 4 then g i j else if i = j then (1 : ℝ) else 0)
      (indexKernel fun i j => if 4 ≤ i ∧ j < 4 then g i j else if i = j then 1 else 0)
      (Builtin.zeros.kernel []) (Builtin.identity.kernel []) (orthOps ℝ) (fun d => .ok (keepRight d)) 2 2 2 0 :=
    ⟨indexKernel_computes _, fun _ _ _ _ _ _ _ _ => ⟨_, rfl⟩, identity_computes, identity_returns _ _, zeros_computes,
      zeros_returns _ _, orthOps_fits, orthOps_total, fun _ _ _ _ _ _ => trivial, fun _ _ _ _ _ _ _ _ _ _ => trivial,
      fun d l hl => by
        cases Except.ok.inj hl
        exact ⟨⟨rfl, rfl, rfl, rfl, rfl⟩, rfl, rfl⟩,
      Or.inl fun d d0 d1 => ⟨_, rfl, rfl, trivial⟩, by omega, by omega, by omega, le_refl 0⟩
  obtain ⟨r, A, h, -, P⟩ := C57_program_exact (K := ℝ) (compressD := fun d => .ok (keepRight d)) h1 h2 hI hx
    (fuel := 19) (by omega)
  have c0 := P.none (Or.inl he)
  have hN : 2 * 2 ^ 2 = 8 := rfl
  rw [hN] at h P
  have ind : A.IndepCols := by
    have e := P.comp
    rw [e] at c0
    simp only at c0
    have ent : ∀ x < 8, ∀ y < 8, A.entry x y = if 4 ≤ x ∧ y < 4 then g x y else if x = y then 1 else 0 := by
      intro x hx y hy
      have s1 := (Finset.sum_eq_zero_iff_of_nonneg fun x _ => Finset.sum_nonneg fun y _ => mul_self_nonneg _).1 c0 x
        (mem_range.2 (by omega))
      have s2 := (Finset.sum_eq_zero_iff_of_nonneg fun y _ => mul_self_nonneg _).1 s1 y (mem_range.2 hy)
      rw [← sub_eq_zero.1 (mul_self_eq_zero.1 s2)]
      refine if_congr (by omega) rfl (if_congr Nat.cast_inj rfl rfl)
    intro c hc
    rw [P.rows, P.cols] at hc
    rw [P.cols]
    have low : ∀ y < 4, c y = 0 := by
      intro y hy
      have := hc y (by omega)
      rw [Finset.sum_eq_single_of_mem y (mem_range.2 (by omega))] at this
      · rwa [ent y (by omega) y (by omega), if_neg (by omega), if_pos rfl, one_mul] at this
      · intro z hz hne
        rw [ent y (by omega) z (mem_range.1 hz), if_neg (by omega), if_neg (Ne.symm hne), zero_mul]
    intro y hy
    by_cases h4 : y < 4
    · exact low y h4
    have := hc y hy
    rw [Finset.sum_eq_single_of_mem y (mem_range.2 hy)] at this
    · rwa [ent y hy y hy, if_neg (by omega), if_pos rfl, one_mul] at this
    · intro z hz hne
      by_cases z4 : z < 4
      · rw [low z z4, mul_zero]
      · rw [ent y hy z (mem_range.1 hz), if_neg (by omega), if_neg (Ne.symm hne), zero_mul]
  exact ⟨W, r, h, c0, by rw [P.resid, c0], by rw [P.orth ind]; norm_num⟩

end Examples

end Verif
