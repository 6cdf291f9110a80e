import Verif.Spec.Built
import Verif.Lemmas.FitOps
import Verif.Props.Construct
import Verif.Props.LrAdd

/-
C52: low-rank factors always fit together.
-/

namespace Verif
variable {R : Type} [Field R] [DecidableEq R] [Inhabited R] {K : Type} [Field K] [LinearOrder K]

omit [DecidableEq R] [Inhabited R] in
theorem kernelFill_size {k : KernelFn R}
    (rows cols : IndexRange) (d : Dense R) (h : kernelFill k rows cols = .ok d) :
    (d.rows : Int) = rows.n ∧ (d.cols : Int) = cols.n := by
  unfold kernelFill at h
  split at h
  · rw [Dense.ofKernel, except_bind_eq_ok] at h
    obtain ⟨mem, hm, h⟩ := h
    cases h
    exact ⟨by simp; omega, by simp; omega⟩
  · cases h

theorem Built.wf {L : Lapack R} {lu : Dense R → Dense R × Bool} {A : Mat R} (h : Built K L lu A) :
    A.WF ∧ A.Square := by
  have rk : ∀ rank, ∀ d l, L.ofRank d rank = .ok l → l.WF ∧ l.Square ∧ l.dim0 = d.rows ∧ l.dim1 = d.cols :=
    fun rank d l h =>
      let g := Lapack.ofRank_ok h
      ⟨g.2.1, g.2.2.1, g.2.2.2.1, g.2.2.2.2.1⟩
  have ep : ∀ eps, ∀ d l, L.ofEps d eps = .ok l → l.WF ∧ l.Square ∧ l.dim0 = d.rows ∧ l.dim1 = d.cols :=
    fun eps d l h =>
      let g := Lapack.ofEps_ok h
      ⟨g.1, g.2.1, g.2.2.1, g.2.2.2.1⟩
  have ker : ∀ {fuel k compress m n nleaf} {a : Admis K} {br bc rs cs} {A : Mat R},
      (∀ d l, compress d = .ok l → l.WF ∧ l.Square ∧ l.dim0 = d.rows ∧ l.dim1 = d.cols) →
      1 ≤ br → 1 ≤ bc → hierOfKernel fuel k compress m n nleaf a br bc rs cs = .ok A →
      A.WF ∧ A.Square := by
    intro fuel k compress m n nleaf a br bc rs cs A hc hbr hbc h
    simp only [hierOfKernel, except_bind_eq_ok] at h
    obtain ⟨tr, htr, hM⟩ := h
    have sq := Mat.toMat_square (fun d l h => (hc d l h).2.1) tr hM
    obtain ⟨ch, rfl⟩ := build_root_node htr
    exact ⟨(ClusterTree.toMat_spec (fun d l h => ⟨(hc d l h).1, (hc d l h).2.2⟩) kernelFill_size htr
      hbr hbc hM).1, sq⟩
  have den : ∀ {fuel d compress nleaf} {a : Admis K} {br bc rs cs} {A : Mat R},
      (∀ d l, compress d = .ok l → l.WF ∧ l.Square ∧ l.dim0 = d.rows ∧ l.dim1 = d.cols) →
      1 ≤ br → 1 ≤ bc → hierOfDense fuel d compress nleaf a br bc rs cs = .ok A →
      A.WF ∧ A.Square := by
    intro fuel k compress nleaf a br bc rs cs A hc hbr hbc h
    simp only [hierOfDense, except_bind_eq_ok] at h
    obtain ⟨tr, htr, hM⟩ := h
    have sq := Mat.toMat_square (fun d l h => (hc d l h).2.1) tr hM
    obtain ⟨ch, rfl⟩ := build_root_node htr
    exact ⟨(ClusterTree.toMat_spec (fun d l h => ⟨(hc d l h).1, (hc d l h).2.2⟩) blockFill_dims htr
      hbr hbc hM).1, sq⟩
  have fin : ∀ {A M : Mat R}, A.WF → A.SameShape M ∧ M.Fit → M.WF ∧ M.Square :=
    fun hA h => Mat.Fit.wf hA h.1 h.2
  have gm : ∀ mode f fuel, Mat.GemmFit (Mat.gemm (L.ops mode f) fuel) := fun mode f fuel =>
    (Mat.gemmBoth_fit (L.ops_fits mode f) fuel).1
  have gk : ∀ mode f fuel, Mat.GemmOk ((L.ops mode f).Exact False) False (Mat.gemm (L.ops mode f) fuel) :=
    fun mode f fuel => (Mat.gemmBoth_ok (L.ops_fits mode f) fuel).1
  induction h with
  | dense d => exact ⟨trivial, trivial⟩
  | empty m n => exact ⟨trivial, trivial⟩
  | factors U S V h1 h2 h3 =>
    exact ⟨⟨rfl, h1, rfl, h3.symm, rfl⟩, h2.symm⟩
  | ofRank d rank h => exact ⟨(rk _ _ _ h).1, (rk _ _ _ h).2.1⟩
  | ofEps d eps h => exact ⟨(ep _ _ _ h).1, (ep _ _ _ h).2.1⟩
  | ofHier fuel rank hA h => exact ⟨(Lapack.ofHier_ok h).1, (Lapack.ofHier_ok h).2.1⟩
  | kernelRank fuel k rank m n nleaf a br bc rs cs hr hc h => exact ker (rk rank) hr hc h
  | kernelEps fuel k eps m n nleaf a br bc rs cs hr hc h => exact ker (ep eps) hr hc h
  | denseRank fuel d rank nleaf a br bc rs cs hr hc h => exact den (rk rank) hr hc h
  | denseEps fuel d eps nleaf a br bc rs cs hr hc h => exact den (ep eps) hr hc h
  | block h i j hi hj ih =>
    simp only [Mat.WF] at ih
    exact ⟨(ih.1.2.2 i hi j hj).1, ih.2 i hi j hj⟩
  | container hr hc h rows cols ih =>
    refine ⟨?_, fun i hi j hj => (ih i hi j hj).2⟩
    simp only [Mat.WF]
    exact ⟨hr, hc, fun i hi j hj => ⟨(ih i hi j hj).1, rows i hi j hj, cols i hi j hj⟩⟩
  | split hA rs cs hr hc h ih => exact Mat.splitOmm_fit hr hc ih.1 ih.2 h
  | transpose hA h ih =>
    have := Mat.transpose_fit ih.1 ih.2 h
    exact ⟨this.1, this.2.1⟩
  | scale hA b h ih => exact fin ih.1 (Mat.scale_fit (Mat.Fit.of ih.1 ih.2) h)
  | zeroAll hA h ih => exact fin ih.1 (Mat.zeroAll_fit (Mat.Fit.of ih.1 ih.2) h)
  | zeroLower hA h ih => exact fin ih.1 (Mat.zeroLower_fit (Mat.Fit.of ih.1 ih.2) h)
  | zeroUpper hA h ih => exact fin ih.1 (Mat.zeroUpper_fit (Mat.Fit.of ih.1 ih.2) h)
  | shallowCopy hA h ih => exact fin ih.1 (Mat.shallowCopy_fit (Mat.Fit.of ih.1 ih.2) h)
  | add mode fuel hA hB h ihA ihB =>
    exact fin ihA.1 (Mat.addAssign_fit (L.ops_fits mode fuel) (Mat.Fit.of ihA.1 ihA.2) ihB.1 h)
  | gemm mode f fuel hA hB hC α β ta tb h ihA ihB ihC =>
    exact fin ihC.1 (gm mode f fuel _ _ _ _ _ _ _ _ ihA.1 ihA.2 ihB.1 ihB.2 ihC.1 ihC.2 h)
  | gemmNew mode f fuel hA hB α ta tb h ihA ihB =>
    have := (Mat.gemmBoth_fit (L.ops_fits mode f) fuel).2 _ _ _ _ _ _ ihA.1 ihA.2 ihB.1 ihB.2 h
    exact ⟨this.1, this.2.1⟩
  | trmm mode f fuel hA hB side uplo trans unit α h ihA ihB =>
    have := Mat.trmmWith_shape (gk mode f fuel) fuel _ _ _ ihA.1 ihB.1 ihB.2 h
    exact ⟨this.1, this.2.1⟩
  | trsm mode f fuel hA hB uplo side h ihA ihB =>
    have := Mat.trsmWith_shape (gk mode f fuel) fuel _ _ _ ihA.1 ihB.1 ihB.2 h
    exact ⟨this.1, this.2.1⟩
  | luLower mode f fuel hA h ih =>
    have := Mat.getrfWith_fit (gm mode f fuel) (Mat.trsmWith_shape (gk mode f fuel) fuel)
      (Mat.trsmWith_shape (gk mode f fuel) fuel) fuel ih.1 ih.2 h
    exact ⟨this.1.1, this.1.2.1⟩
  | luUpper mode f fuel hA h ih =>
    have := Mat.getrfWith_fit (gm mode f fuel) (Mat.trsmWith_shape (gk mode f fuel) fuel)
      (Mat.trsmWith_shape (gk mode f fuel) fuel) fuel ih.1 ih.2 h
    exact ⟨this.2.1, this.2.2.1⟩

/-- **C52.** Whatever history of library calls produced the matrix `A`, every
low-rank matrix in it has factors `U : m x r`, `S : r x r`, `V : r x n`, where
`m x n` are its dimensions and `r` is its recorded rank. -/
theorem C52_factors_fit {L : Lapack R} {lu : Dense R → Dense R × Bool} {A : Mat R}
    (h : Built K L lu A) {l : LowRank R} (hl : Mat.BlockOf (.lowRank l) A) :
    (l.U.rows = l.dim0 ∧ l.U.cols = l.rank) ∧ (l.S.rows = l.rank ∧ l.S.cols = l.rank) ∧
    (l.V.rows = l.rank ∧ l.V.cols = l.dim1) := by
  have f := Mat.Fit.block (Mat.Fit.of h.wf.1 h.wf.2) hl
  have w : l.WF := f.1
  have s : l.S.cols = l.rank := f.2
  exact ⟨⟨w.urows, w.ucols⟩, ⟨w.srows, s⟩, w.vrows.trans s, w.vcols⟩

/-! A history with several steps: a 4 x 4 matrix is compressed into 2 x 2 blocks,
multiplied by itself and transposed; the result has a low-rank block. -/

/-- Compression, product, transpose. -/
def history : Except Err (Mat ℚ) := do
  let A ← hierOfDense 3 ⟨4, 4, fun i j => (i + 4 * j : ℚ)⟩ (fun d => (plainLapack ℚ).ofRank d 1) 2
    (.position 0 : Admis ℚ) 2 2 0 0
  let C ← Mat.gemm ((plainLapack ℚ).ops .naive 5) 5 A A A 1 1 false false
  C.transpose

/-- The matrix is low-rank. -/
def Mat.isLowRank : Mat ℚ → Bool
  | .lowRank _ => true
  | _ => false

/-- It has a low-rank block at the top right. -/
def hasLowRank : Mat ℚ → Bool
  | .hier br bc blk => decide (0 < br) && decide (1 < bc) && (blk 0 1).isLowRank
  | _ => false

example : ∃ A l, Built ℚ (plainLapack ℚ) (fun d => (d, false)) A ∧ Mat.BlockOf (.lowRank l) A ∧
    l.S.rows = l.rank ∧ l.S.cols = l.rank := by
  obtain ⟨M, h, hM⟩ := okAnd_spec (x := history) (P := fun M => hasLowRank M) (by decide +kernel)
  have h' := h
  simp only [history, except_bind_eq_ok] at h'
  obtain ⟨A, hA, C, hC, h'⟩ := h'
  have bA : Built ℚ (plainLapack ℚ) (fun d => (d, false)) A :=
    .denseRank 3 _ 1 2 _ 2 2 0 0 (by omega) (by omega) hA
  have bM : Built ℚ (plainLapack ℚ) (fun d => (d, false)) M :=
    .transpose (.gemm .naive 5 5 bA bA bA 1 1 false false hC) h'
  cases M with
  | hier br bc blk =>
    simp only [hasLowRank, Bool.and_eq_true, decide_eq_true_eq] at hM
    cases hb : blk 0 1 with
    | lowRank l =>
      have ob : Mat.BlockOf (.lowRank l) (.hier br bc blk) :=
        .block _ _ _ _ 0 1 hM.1.1 hM.1.2 (hb ▸ .refl _)
      exact ⟨_, l, bM, ob, (C52_factors_fit bM ob).2.1⟩
    | hier => rw [hb] at hM; cases hM.2
    | dense => rw [hb] at hM; cases hM.2
    | empty => rw [hb] at hM; cases hM.2
  | dense => cases hM
  | lowRank => cases hM
  | empty => cases hM

end Verif
