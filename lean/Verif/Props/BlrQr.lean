import Verif.Lemmas.Blr
import Verif.Lemmas.QrExists
import Verif.Props.HLu
import Verif.Props.Qr
import Verif.Props.Sample
import Verif.Props.TriTotal

/-
C54: the block low-rank QR example programs
(examples/blocked_householder_blr_qr.cpp, examples/tiled_householder_blr_qr.cpp).
-/

set_option linter.unusedSectionVars false

namespace Verif
open Finset

variable {R : Type} {K : Type} [Field K] [LinearOrder K]

/-! ### explicit factors -/

section
variable [CommRing R] [DecidableEq R] {o : LrOps R} {kn : QrKernels R} {Q : LowRank R → Prop}

/-- What the theorems need of the block matrix: consistent square tiles (dense, or
low-rank with `Q`), as many block rows as block columns or more, dense square diagonal
blocks. -/
structure QrGridInput (o : LrOps R) (Q : LowRank R → Prop) (p q : Nat) (A : Nat → Nat → Mat R) : Prop where
  input : Mat.QrInput o p q A
  le : q ≤ p
  tile : ∀ i < p, ∀ j < q, (A i j).IsTile ∧ (A i j).All Q
  diag : ∀ k < q, ∃ d : Dense R, A k k = .dense d ∧ d.rows = d.cols

theorem QrGridInput.pos {p q : Nat} {A : Nat → Nat → Mat R} (h : QrGridInput o Q p q A) : 0 < p ∧ 0 < q := by
  have := h.input.wf
  simp only [Mat.WF] at this
  exact ⟨this.1, this.2.1⟩

theorem Mat.grid_like {p q : Nat} {A C : Nat → Nat → Mat R}
    (hC : (Mat.hier p q C).WF) (hs : (Mat.hier p q C).Square)
    (ht : ∀ i < p, ∀ j < q, (C i j).IsTile ∧ (C i j).All Q)
    (hr : ∀ i < p, (C i 0).nRows = (A i 0).nRows) (hc : ∀ j < q, (C 0 j).nCols = (A 0 j).nCols) :
    Mat.GridOk Q p q (fun i => (A i 0).nRows) (fun j => (A 0 j).nCols) C := by
  intro i hi j hj
  simp only [Mat.WF] at hC
  obtain ⟨a, b, c⟩ := hC.2.2 i hi j hj
  exact ⟨a, hs i hi j hj, (ht i hi j hj).1, (ht i hi j hj).2, b.trans (hr i hi), c.trans (hc j hj)⟩

theorem QrGridInput.square {p q : Nat} {A : Nat → Nat → Mat R} (h : QrGridInput o Q p q A) :
    ∀ k < q, (A 0 k).nCols = (A k 0).nRows := by
  intro k hk
  have hA := h.input.wf
  simp only [Mat.WF] at hA
  obtain ⟨-, b, c⟩ := hA.2.2 k (lt_of_lt_of_le hk h.le) k hk
  obtain ⟨d, e, hd⟩ := h.diag k hk
  rw [e] at b c
  rw [← b, ← c]
  exact hd.symm

/-- `C` has the block structure of `A` and represents the first columns of the
identity. -/
structure IdentLike (o : LrOps R) (Q : LowRank R → Prop) (p q : Nat) (A C : Nat → Nat → Mat R) : Prop where
  wf : (Mat.hier p q C).WF
  sqr : (Mat.hier p q C).Square
  tile : ∀ i < p, ∀ j < q, (C i j).IsTile ∧ (C i j).All Q
  rows : ∀ i < p, (C i 0).nRows = (A i 0).nRows
  cols : ∀ j < q, (C 0 j).nCols = (A 0 j).nCols
  fine : (∀ i < p, ∀ j < q, (C i j).AllDense) ∨ o.Exact False
  entry : ∀ i < p, ∀ j < q, ∀ r < (A i 0).nRows, ∀ s < (A 0 j).nCols,
    (C i j).entry r s = if i = j ∧ r = s then 1 else 0

/-- C54, blocked Householder QR: multiplying the identity with the reflectors returns
a matrix `D` with orthonormal columns, `D` times the triangular factor has the entries
of `A`, and multiplying `D` with the transposed reflectors gives the identity back. -/
theorem C54_blocked_explicit (hK : QrContract kn) (hf : o.Fits False) (hT : o.Total False Q)
    (hQ : LrOps.ShapeOnly Q) {fuel p q : Nat} (hfu : 2 ≤ fuel) {A T C : Nat → Nat → Mat R}
    (hA : QrGridInput o Q p q A) (hC : IdentLike o Q p q A C) :
    ∃ Y T' D B E, Mat.blockedQr kn o fuel p q A q 1 T = .ok (Y, T') ∧
      Mat.leftMulBlocked o fuel p q Y q 1 T' p q C false = .ok D ∧
      OrthoCols (Mat.hier p q D).nRows (Mat.hier p q D).nCols (Mat.hier p q D).entry ∧
      Mat.trmm o fuel (.hier q q (fun i j => if i ≤ j then Y i j else .empty 0 0)) (.hier p q D) .right .upper
        false false 1 = .ok (.hier p q B) ∧
      (Mat.hier p q B).SameEntries (Mat.hier p q A) ∧
      Mat.leftMulBlocked o fuel p q Y q 1 T' p q D true = .ok E ∧
      (Mat.hier p q E).SameEntries (Mat.hier p q C) := by
  have gA := Mat.grid_like hA.input.wf hA.input.sqr hA.tile (fun _ _ => rfl) (fun _ _ => rfl)
  obtain ⟨Y, T', h1, F⟩ := blocked_facts (T := T) hK hf hT hQ (by omega : 1 ≤ fuel) hA.pos.2 hA.le hA.input gA
    (fun k hk => (hA.diag k hk).imp fun _ h => h.1) hA.square
  obtain ⟨D, B, E, h2, -, h3, h4, -, h5, h6, -, h7⟩ := F.explicit hf hT hQ hA.pos.2 hA.le hA.square gA
    (Mat.grid_like hC.wf hC.sqr hC.tile hC.rows hC.cols) hC.fine hC.entry hfu
  exact ⟨Y, T', D, B, E, h1, h2, h3, h4, h5, h6, h7⟩

/-- C54, tiled Householder QR: the same for `tiled_householder_blr_qr` and
`left_multiply_tiled_reflector`. -/
theorem C54_tiled_explicit (hK : QrContract kn) (hf : o.Fits False) (hT : o.Total False Q)
    (hQ : LrOps.ShapeOnly Q) {fuel p q : Nat} (hfu : 2 ≤ fuel) {A T C : Nat → Nat → Mat R}
    (hA : QrGridInput o Q p q A) (hC : IdentLike o Q p q A C)
    (hTk : ∀ k < q, ∀ i, k ≤ i → i < p →
      ∃ t : Dense R, T i k = .dense t ∧ t.rows = (A 0 k).nCols ∧ t.cols = (A 0 k).nCols) :
    ∃ Y T' D B E, Mat.tiledQr kn o fuel p q A p q T = .ok (Y, T') ∧
      Mat.leftMulTiled o fuel p q Y p q T' p q C false = .ok D ∧
      OrthoCols (Mat.hier p q D).nRows (Mat.hier p q D).nCols (Mat.hier p q D).entry ∧
      Mat.trmm o fuel (.hier q q (fun i j => if i ≤ j then Y i j else .empty 0 0)) (.hier p q D) .right .upper
        false false 1 = .ok (.hier p q B) ∧
      (Mat.hier p q B).SameEntries (Mat.hier p q A) ∧
      Mat.leftMulTiled o fuel p q Y p q T' p q D true = .ok E ∧
      (Mat.hier p q E).SameEntries (Mat.hier p q C) := by
  have gA := Mat.grid_like hA.input.wf hA.input.sqr hA.tile (fun _ _ => rfl) (fun _ _ => rfl)
  obtain ⟨Y, T', h1, F⟩ := tiled_facts hK hf hT hQ (by omega : 1 ≤ fuel) hA.pos.2 hA.le hA.input gA
    (fun k hk => (hA.diag k hk).imp fun _ h => h.1) hA.square hTk
  obtain ⟨D, B, E, h2, -, h3, h4, -, h5, h6, -, h7⟩ := F.explicit hf hT hQ hA.pos.2 hA.le hA.square gA
    (Mat.grid_like hC.wf hC.sqr hC.tile hC.rows hC.cols) hC.fine hC.entry hfu
  exact ⟨Y, T', D, B, E, h1, h2, h3, h4, h5, h6, h7⟩

end

/-! ### the programs -/

section
variable [CommRing R] [DecidableEq R] [Inhabited R] {o : LrOps R} {kn : QrKernels R} {Q : LowRank R → Prop}

/-- The compression used for `A` and `Q` fits: on square tiles of order `b` it returns
factors of the right dimensions that satisfy `Q`. -/
def BlrCompressor (Q : LowRank R → Prop) (b : Nat) (compress : Dense R → Except Err (LowRank R)) : Prop :=
  ∀ d : Dense R, d.rows = b → d.cols = b →
    ∃ l, compress d = .ok l ∧ l.WF ∧ l.Square ∧ l.dim0 = b ∧ l.dim1 = b ∧ Q l

theorem l2ErrorParts_run {fuel : Nat} {A B : Mat R} (hA : A.WF) (hB : B.WF) (nA : A.NoEmpty) (nB : B.NoEmpty)
    (eA : A.Even) (eB : B.Even) (hr : A.nRows = B.nRows) (hc : A.nCols = B.nCols) (dA : A.depth ≤ 1)
    (dB : B.depth ≤ 1) (hf : 5 ≤ fuel) :
    Mat.l2ErrorParts fuel A B = .ok (Mat.sumSqDiff A B, Mat.sumSq A) := by
  obtain ⟨r, h⟩ := Mat.collectDiffNorm_total fuel A B hA hB nA nB eA eB hr hc (by omega)
  obtain ⟨-, h1, h2⟩ := Mat.collectDiffNorm_correct fuel A B hA hB r.1 r.2 h
  rw [Mat.l2ErrorParts, hr, hc]
  simp only [decide_true, assertM, if_true, except_bind_ok]
  rw [h, ← h1, ← h2]

theorem BlrTiles.of_grid {p q b : Nat} {C : Nat → Nat → Mat R} (g : Mat.GridOk Q p q (fun _ => b) (fun _ => b) C) :
    BlrTiles p q b C :=
  ⟨fun i hi j hj => ⟨(g i hi j hj).rows, (g i hi j hj).cols⟩, fun i hi j hj => ⟨(g i hi j hj).wf, (g i hi j hj).tile⟩⟩

/-- What the programs do, step by step, if factorization and multiplications return. -/
theorem blrQr_runs {k kid : KernelFn R} {f : Int → Int → R} (hk : ComputesEntries k f)
    (hi : ComputesEntries kid (fun i j => if i = j then 1 else 0))
    {compressD compress : Dense R → Except Err (LowRank R)} {p q b : Nat}
    (hk' : KernelReturns k (p * b) (q * b)) (hi' : KernelReturns kid (p * b) (q * b)) {a : Int}
    (hc : BlrCompressor Q b compress ∨ b = 1 ∨ (p : Int) ≤ a + 1)
    (hf : o.Fits False) (hT : o.Total False Q) (hQ : LrOps.ShapeOnly Q) (hb : 1 ≤ b) (hq : 1 ≤ q) (hp : q ≤ p)
    {fac : Nat → Nat → (Nat → Nat → Mat R) → Except Err ((Nat → Nat → Mat R) × (Nat → Nat → Mat R))}
    {mul : Nat → Nat → (Nat → Nat → Mat R) → (Nat → Nat → Mat R) → (Nat → Nat → Mat R) → Bool →
      Except Err (Nat → Nat → Mat R)}
    (hfac : ∀ A, Mat.GridOk Q p q (fun _ => b) (fun _ => b) A → Mat.DiagDense q A → ∃ Y T, fac p q A = .ok (Y, T) ∧
      Mat.GridOk Q p q (fun _ => b) (fun _ => b) Y ∧ Mat.DiagDense q Y ∧
      ∀ C tr, Mat.GridOk Q p q (fun _ => b) (fun _ => b) C → ∃ D, mul p q Y T C tr = .ok D ∧
        Mat.GridOk Q p q (fun _ => b) (fun _ => b) D)
    (ha : 0 ≤ a) {fuel : Nat} (hfu : 5 ≤ fuel) :
    ∃ (D A Y T C X B E : Nat → Nat → Mat R) (I : Dense R),
      blrQrProgram (K := K) fuel k kid compressD compress o fac mul (p * b) (q * b) b a = .ok
        ⟨(Mat.sumSqDiff (.hier p q D) (.hier p q A), Mat.sumSq (.hier p q D)),
         (Mat.sumSqDiff (.hier p q D) (.hier p q B), Mat.sumSq (.hier p q D)),
         (Mat.sumSqDiff (.dense I) (.hier q q E), Mat.sumSq (.dense I))⟩ ∧
      -- `D`
      BlrTiles p q b D ∧
      (∀ i < p, ∀ j < q, ∀ r < b, ∀ s < b, (D i j).entry r s = f (i * b + r : Nat) (j * b + s : Nat)) ∧
      -- `A`
      hierOfKernel fuel k compress (p * b) (q * b) b (Admis.position a : Admis K) p q 0 0 = .ok (.hier p q A) ∧
      Mat.GridOk Q p q (fun _ => b) (fun _ => b) A ∧ Mat.DiagDense q A ∧
      (∀ i < p, ∀ j < q, ∃ d : Dense R, d.rows = b ∧ d.cols = b ∧
        (∀ r < b, ∀ s < b, d.val r s = f (i * b + r : Nat) (j * b + s : Nat)) ∧
        ((1 < b ∧ a < (((i : Int) - j).natAbs : Int) ∧ ∃ l, compress d = .ok l ∧ A i j = .lowRank l) ∨
          A i j = .dense d)) ∧
      -- the identity
      Mat.GridOk Q p q (fun _ => b) (fun _ => b) C ∧
      (∀ i < p, ∀ j < q, ∃ d : Dense R, d.rows = b ∧ d.cols = b ∧
        (∀ r < b, ∀ s < b, d.val r s = if i = j ∧ r = s then 1 else 0) ∧
        ((1 < b ∧ a < (((i : Int) - j).natAbs : Int) ∧ ∃ l, compress d = .ok l ∧ C i j = .lowRank l) ∨
          C i j = .dense d)) ∧
      I.rows = q * b ∧ I.cols = q * b ∧ (∀ i < q * b, ∀ j < q * b, I.val i j = if i = j then 1 else 0) ∧
      -- the steps
      fac p q A = .ok (Y, T) ∧ mul p q Y T C false = .ok X ∧
      Mat.trmm o fuel (.hier q q (fun i j => if i ≤ j then Y i j else .empty 0 0)) (.hier p q X) .right .upper
        false false 1 = .ok (.hier p q B) ∧
      mul p q Y T X true = .ok E ∧ Mat.GridOk Q p q (fun _ => b) (fun _ => b) E := by
  have hp0 : 0 < p := by omega
  have hq0 : 0 < q := by omega
  obtain ⟨D, hD, sD⟩ := blr_structure (K := K) hk (compress := compressD) hk' (p : Int)
    (fun i hi j hj _ h => by omega) (fuel := fuel) (by omega)
  have cc : ∀ i < p, ∀ j < q, 1 < b → a < (((i : Int) - j).natAbs : Int) →
      ∀ d : Dense R, d.rows = b → d.cols = b → ∃ l, compress d = .ok l :=
    fun i hi j hj h1 h2 d d0 d1 => by
      rcases hc with hc | hc
      · exact (hc d d0 d1).imp fun _ h => h.1
      · omega
  obtain ⟨A, hA, sA⟩ := blr_structure (K := K) hk hk' a cc (fuel := fuel) (by omega)
  obtain ⟨C, hC, sC⟩ := blr_structure (K := K) hi hi' a cc (fuel := fuel) (by omega)
  have grid : ∀ {M : Nat → Nat → Mat R}, (∀ i < p, ∀ j < q, ∃ d : Dense R, d.rows = b ∧ d.cols = b ∧
      ((1 < b ∧ a < (((i : Int) - j).natAbs : Int) ∧ ∃ l, compress d = .ok l ∧ M i j = .lowRank l) ∨
        M i j = .dense d)) →
      Mat.GridOk Q p q (fun _ => b) (fun _ => b) M := by
    intro M h i hi j hj
    obtain ⟨d, d0, d1, ⟨h1, h2, l, hl, e⟩ | e⟩ := h i hi j hj
    · obtain ⟨l', hl', w, s, l0, l1, ql⟩ := (hc.resolve_right (by omega)) d d0 d1
      rw [hl] at hl'
      cases Except.ok.inj hl'
      rw [e]
      exact ⟨w, s, trivial, ql, l0, l1⟩
    · rw [e]
      exact ⟨trivial, trivial, trivial, trivial, d0, d1⟩
  have gA : Mat.GridOk Q p q (fun _ => b) (fun _ => b) A := grid (fun i hi j hj => by
    obtain ⟨d, d0, d1, -, h | ⟨-, h⟩⟩ := sA i hi j hj
    · exact ⟨d, d0, d1, Or.inl h⟩
    · exact ⟨d, d0, d1, Or.inr h⟩)
  have gC : Mat.GridOk Q p q (fun _ => b) (fun _ => b) C := grid (fun i hi j hj => by
    obtain ⟨d, d0, d1, -, h | ⟨-, h⟩⟩ := sC i hi j hj
    · exact ⟨d, d0, d1, Or.inl h⟩
    · exact ⟨d, d0, d1, Or.inr h⟩)
  have dA : Mat.DiagDense q A := by
    intro k hk
    obtain ⟨d, -, -, -, ⟨-, h, -⟩ | ⟨-, h⟩⟩ := sA k (by omega) k hk
    · omega
    · exact ⟨d, h⟩
  have dD : ∀ i < p, ∀ j < q, ∃ d : Dense R, D i j = .dense d ∧ d.rows = b ∧ d.cols = b ∧
      ∀ r < b, ∀ s < b, d.val r s = f (i * b + r : Nat) (j * b + s : Nat) := by
    intro i hi j hj
    obtain ⟨d, d0, d1, d2, ⟨-, h, -⟩ | ⟨-, h⟩⟩ := sD i hi j hj
    · omega
    · exact ⟨d, h, d0, d1, d2⟩
  have tD : BlrTiles p q b D := by
    refine ⟨fun i hi j hj => ?_, fun i hi j hj => ?_⟩
    · obtain ⟨d, e, d0, d1, -⟩ := dD i hi j hj
      rw [e]
      exact ⟨d0, d1⟩
    · obtain ⟨d, e, -⟩ := dD i hi j hj
      rw [e]
      exact ⟨trivial, trivial⟩
  obtain ⟨Y, T, hY, gY, dY, hmul⟩ := hfac A gA dA
  obtain ⟨X, hX, gX⟩ := hmul C false gC
  obtain ⟨E, hE, gE⟩ := hmul X true gX
  obtain ⟨B, hB, gB, -, -⟩ := Mat.trmm_grid (Y := fun i j => if i ≤ j then Y i j else .empty 0 0) hf hT hQ
    (ex := False) False.elim (by omega : 2 ≤ fuel)
    (fun k j hkj hj => by
      have g := gY k (by omega) j hj
      simp only [if_pos hkj]
      exact ⟨g.wf, g.tile, g.rows, g.cols⟩)
    (fun k hk => by simp only [le_refl, if_true]; exact dY k hk) gX
  obtain ⟨mem, hm⟩ := hi' (fun _ => 0) (q * b) (q * b) (q * b) 0 0
    (by rw [Nat.zero_add]; exact Nat.mul_le_mul_right b hp) (by omega)
  rw [Nat.cast_zero] at hm
  obtain ⟨I, hI, I0, I1, I2⟩ : ∃ I : Dense R, Dense.ofKernel kid (q * b) (q * b) 0 0 = .ok I ∧ I.rows = q * b ∧
      I.cols = q * b ∧ ∀ i < q * b, ∀ j < q * b, I.val i j = if i = j then 1 else 0 := by
    refine ⟨_, by rw [Dense.ofKernel, hm, except_bind_ok], rfl, rfl, fun i hi2 j hj2 => ?_⟩
    have := hi _ _ _ _ _ _ _ (le_refl _) hm i hi2 j hj2
    simp only [zero_add, Nat.cast_inj] at this
    exact this
  have tA := BlrTiles.of_grid gA
  have tB := BlrTiles.of_grid gB
  have tE : BlrTiles q q b E :=
    ⟨fun i hi j hj => ⟨(gE i (by omega) j hj).rows, (gE i (by omega) j hj).cols⟩,
      fun i hi j hj => ⟨(gE i (by omega) j hj).wf, (gE i (by omega) j hj).tile⟩⟩
  have l1 := l2ErrorParts_run (tD.wf hp0 hq0) (tA.wf hp0 hq0) tD.noEmpty tA.noEmpty (tD.even hp0 hq0)
    (tA.even hp0 hq0) ((tD.rows hq0).trans (tA.rows hq0).symm) ((tD.cols hp0).trans (tA.cols hp0).symm)
    tD.depth tA.depth hfu
  have l2 := l2ErrorParts_run (tD.wf hp0 hq0) (tB.wf hp0 hq0) tD.noEmpty tB.noEmpty (tD.even hp0 hq0)
    (tB.even hp0 hq0) ((tD.rows hq0).trans (tB.rows hq0).symm) ((tD.cols hp0).trans (tB.cols hp0).symm)
    tD.depth tB.depth hfu
  have l3 := l2ErrorParts_run (A := .dense I) (B := .hier q q E) trivial (tE.wf hq0 hq0) trivial tE.noEmpty trivial
    (tE.even hq0 hq0) (I0.trans (tE.rows hq0).symm) (I1.trans (tE.cols hq0).symm) (Nat.zero_le _) tE.depth hfu
  refine ⟨D, A, Y, T, C, X, B, E, I, ?_, tD, fun i hi j hj r hr s hs => ?_, hA, gA, dA, fun i hi j hj => ?_, gC,
    fun i hi j hj => ?_, I0, I1, I2, hY, hX, hB, hE, gE⟩
  · have hm0 : p * b % b = 0 := Nat.mul_mod_left p b
    have hn0 : q * b % b = 0 := Nat.mul_mod_left q b
    have hmd : p * b / b = p := Nat.mul_div_cancel p (by omega)
    have hnd : q * b / b = q := Nat.mul_div_cancel q (by omega)
    have hle : q * b ≤ p * b := Nat.mul_le_mul_right b hp
    unfold blrQrProgram
    simp only [hle, hm0, hn0, hmd, hnd, decide_true, assertM, if_true, except_bind_ok, hD, hA, hC, l1, Mat.grid, hY, hX, hB, l2, hE, hI, l3]
    exact if_neg (by omega)
  · obtain ⟨d, e, -, -, h⟩ := dD i hi j hj
    rw [e]
    exact h r hr s hs
  · obtain ⟨d, d0, d1, d2, h | ⟨-, h⟩⟩ := sA i hi j hj
    · exact ⟨d, d0, d1, d2, Or.inl h⟩
    · exact ⟨d, d0, d1, d2, Or.inr h⟩
  · obtain ⟨d, d0, d1, d2, h⟩ := sC i hi j hj
    refine ⟨d, d0, d1, fun r hr s hs => ?_, ?_⟩
    · rw [d2 r hr s hs]
      refine if_congr ?_ rfl rfl
      rw [Nat.cast_inj]
      constructor
      · intro h
        have : i = j := by
          have h1 : (i * b + r) / b = i := by
            rw [Nat.mul_comm, Nat.mul_add_div (by omega), Nat.div_eq_of_lt hr, Nat.add_zero]
          have h2 : (j * b + s) / b = j := by
            rw [Nat.mul_comm, Nat.mul_add_div (by omega), Nat.div_eq_of_lt hs, Nat.add_zero]
          rw [← h1, ← h2, h]
        subst this
        exact ⟨rfl, by omega⟩
      · rintro ⟨rfl, rfl⟩
        rfl
    · rcases h with h | ⟨-, h⟩
      · exact Or.inl h
      · exact Or.inr h

/-- No error is added by factorization and multiplications. -/
theorem blrQr_exact {k kid : KernelFn R} {f : Int → Int → R} (hk : ComputesEntries k f)
    (hi : ComputesEntries kid (fun i j => if i = j then 1 else 0))
    {compressD compress : Dense R → Except Err (LowRank R)} {p q b : Nat}
    (hk' : KernelReturns k (p * b) (q * b)) (hi' : KernelReturns kid (p * b) (q * b)) {a : Int}
    (hc : BlrCompressor Q b compress ∨ b = 1 ∨ (p : Int) ≤ a + 1)
    (hf : o.Fits False) (hT : o.Total False Q) (hQ : LrOps.ShapeOnly Q) (hb : 1 ≤ b) (hq : 1 ≤ q) (hp : q ≤ p)
    {fac : Nat → Nat → (Nat → Nat → Mat R) → Except Err ((Nat → Nat → Mat R) × (Nat → Nat → Mat R))}
    {mul : Nat → Nat → (Nat → Nat → Mat R) → (Nat → Nat → Mat R) → (Nat → Nat → Mat R) → Bool →
      Except Err (Nat → Nat → Mat R)}
    (hfac : ∀ A, Mat.GridOk Q p q (fun _ => b) (fun _ => b) A → Mat.DiagDense q A → ∃ Y T, fac p q A = .ok (Y, T) ∧
      Mat.GridOk Q p q (fun _ => b) (fun _ => b) Y ∧ Mat.DiagDense q Y ∧
      ∀ C tr, Mat.GridOk Q p q (fun _ => b) (fun _ => b) C → ∃ D, mul p q Y T C tr = .ok D ∧
        Mat.GridOk Q p q (fun _ => b) (fun _ => b) D)
    (hF : ∀ A, Mat.QrInput o p q A →
      Mat.GridOk Q p q (fun i => (A i 0).nRows) (fun j => (A 0 j).nCols) A → (∀ j < q, (A 0 j).nCols = b) →
      Mat.DiagDense q A →
      (∀ k < q, (A 0 k).nCols = (A k 0).nRows) → ∃ Y T, fac p q A = .ok (Y, T) ∧
      Mat.QrFacts o Q p q (fun i => (A i 0).nRows) (fun j => (A 0 j).nCols) A Y (mul p q Y T))
    (ha : 0 ≤ a)
    (hx : (o.Exact False ∧ o.LeftOrth ∧ ∀ d : Dense R, ∀ l, compress d = .ok l → l.LeftOrth ∧
        ((∀ r < d.rows, ∀ s < d.cols, d.val r s = 0) → ∀ r < d.rows, ∀ s < d.cols, l.entry r s = 0)) ∨
      b = 1 ∨ (p : Int) ≤ a + 1) {fuel : Nat} (hfu : 5 ≤ fuel) :
    ∃ r A, blrQrProgram (K := K) fuel k kid compressD compress o fac mul (p * b) (q * b) b a = .ok r ∧
      hierOfKernel fuel k compress (p * b) (q * b) b (Admis.position a : Admis K) p q 0 0 = .ok A ∧
      r.comp = (∑ x ∈ range (p * b), ∑ y ∈ range (q * b), (f x y - A.entry x y) * (f x y - A.entry x y),
        ∑ x ∈ range (p * b), ∑ y ∈ range (q * b), f x y * f x y) ∧
      r.resid = r.comp ∧ r.orth = (0, ((q * b : Nat) : R)) ∧
      (ExactCompressor compress ∨ b = 1 ∨ (p : Int) ≤ a + 1 → r.comp.1 = 0) := by
  have hp0 : 0 < p := by omega
  have hq0 : 0 < q := by omega
  obtain ⟨D, A, Y, T, C, X, B, E, I, hrun, tD, eD, hA, gA, dA, sA, gC, sC, I0, I1, I2, hY, hX, hB, hE, gE⟩ :=
    blrQr_runs (K := K) (compressD := compressD) hk hi hk' hi' hc hf hT hQ hb hq hp hfac ha hfu
  have tA := BlrTiles.of_grid gA
  have tC := BlrTiles.of_grid gC
  have tE := BlrTiles.of_grid gE
  have aR : ∀ i < p, (A i 0).nRows = b := fun i hi => (gA i hi 0 hq0).rows
  have aC : ∀ j < q, (A 0 j).nCols = b := fun j hj => (gA 0 hp0 j hj).cols
  have gcon : ∀ {M}, Mat.GridOk Q p q (fun _ => b) (fun _ => b) M →
      Mat.GridOk Q p q (fun i => (A i 0).nRows) (fun j => (A 0 j).nCols) M := by
    intro M g i hi j hj
    have := g i hi j hj
    exact ⟨this.wf, this.sqr, this.tile, this.all, this.rows.trans (aR i hi).symm, this.cols.trans (aC j hj).symm⟩
  have allD : ∀ M : Nat → Nat → Mat R, (b = 1 ∨ (p : Int) ≤ a + 1) → (∀ i < p, ∀ j < q, ∀ d : Dense R,
      (1 < b ∧ a < (((i : Int) - j).natAbs : Int) ∧ ∃ l, compress d = .ok l ∧ M i j = .lowRank l) ∨
          M i j = .dense d → M i j = .dense d) := by
    intro M h i hi j hj d hd
    rcases hd with ⟨h1, h2, -⟩ | h
    · omega
    · exact h
  have wA := gA.wf hp0 hq0
  have inA : Mat.QrInput o p q A := by
    refine ⟨wA.1, wA.2, ?_, ?_⟩
    · rcases hx with hx | hx
      · exact Or.inr ⟨hx.1, hx.2.1⟩
      · refine Or.inl fun i hi j hj => ?_
        obtain ⟨d, -, -, -, h⟩ := sA i hi j hj
        exact ⟨d, allD A hx i hi j hj d h⟩
    · intro i hi j hji hj l hl
      obtain ⟨d, -, -, -, h⟩ := sA i hi j hj
      rcases hx with hx | hx
      · rcases h with ⟨-, -, l', hl', e⟩ | e
        · rw [hl] at e
          cases e
          exact (hx.2.2 d l hl').1
        · rw [hl] at e
          cases e
      · rw [allD A hx i hi j hj d h] at hl
        cases hl
  have eC : ∀ i < p, ∀ j < q, ∀ r < b, ∀ s < b, (C i j).entry r s = if i = j ∧ r = s then 1 else 0 := by
    intro i hi j hj r hr s hs
    obtain ⟨d, d0, d1, d2, h⟩ := sC i hi j hj
    rcases h with ⟨h1, h2, l, hl, e⟩ | e
    · rcases hx with hx | hx
      · have hij : i ≠ j := by
          rintro rfl
          omega
        rw [e, if_neg (fun h => hij h.1)]
        exact (hx.2.2 d l hl).2 (fun r' hr' s' hs' => by
          rw [d2 r' (by omega) s' (by omega), if_neg (fun h => hij h.1)]) r (by omega) s (by omega)
      · omega
    · rw [e]
      exact d2 r hr s hs
  have xC : Mat.Fine o p q C := by
    rcases hx with hx | hx
    · exact Or.inr hx.1
    · refine Or.inl fun i hi j hj => ?_
      obtain ⟨d, -, -, -, h⟩ := sC i hi j hj
      rw [allD C hx i hi j hj d h]
      exact fun _ _ _ _ => trivial
  obtain ⟨Y', T', hY', F⟩ := hF A inA (gcon gA) aC dA (fun k hk => by rw [aC k hk, aR k (by omega)])
  rw [hY] at hY'
  cases Except.ok.inj hY'
  obtain ⟨X', B', E', hX', -, -, hB', -, sB, hE', -, sE⟩ := F.explicit hf hT hQ hq0 hp
    (fun k hk => by rw [aC k hk, aR k (by omega)]) (gcon gA) (gcon gC) xC
    (fun i hi j hj r hr s hs => eC i hi j hj r (by rwa [← aR i hi]) s (by rwa [← aC j hj]))
    (by omega : 2 ≤ fuel)
  rw [hX] at hX'
  cases Except.ok.inj hX'
  rw [hB] at hB'
  cases Except.ok.inj hB'
  rw [hE] at hE'
  cases Except.ok.inj hE'
  have entD := tD.entry hp0 hq0 (f := fun x y => f x y) eD
  have rD := tD.rows hq0
  have cD := tD.cols hp0
  have rA := tA.rows hq0
  have cA := tA.cols hp0
  refine ⟨_, _, hrun, hA, ?_, ?_, ?_, ?_⟩
  · simp only [Mat.sumSqDiff, Mat.sumSq, rD, cD]
    refine congrArg₂ Prod.mk (Finset.sum_congr rfl fun x hx => Finset.sum_congr rfl fun y hy => ?_)
      (Finset.sum_congr rfl fun x hx => Finset.sum_congr rfl fun y hy => ?_) <;>
    rw [entD x (mem_range.1 hx) y (mem_range.1 hy)]
  · refine Prod.ext ?_ rfl
    exact Mat.sumSqDiff_congr (Mat.SameEntries.refl _) sB (rD.trans rA.symm) (cD.trans cA.symm)
  · have ent : ∀ x < q * b, ∀ y < q * b, (Mat.hier q q E).entry x y = if x = y then 1 else 0 := by
      have tE' : BlrTiles q q b E :=
        ⟨fun i hi j hj => tE.size i (by omega) j hj, fun i hi j hj => tE.leaf i (by omega) j hj⟩
      refine tE'.entry hq0 hq0 (f := fun x y => if x = y then 1 else 0) fun i hi j hj r hr s hs => ?_
      have e0 : ∀ n, psum (fun _ => b) n = n * b := fun n => by simp [psum]
      have e1 := Mat.entry_at (blk := E) (h := fun _ => b) (w := fun _ => b) (fun i hi => (tE.size i hi 0 hq0).1)
        (fun j hj => (tE.size 0 hp0 j hj).2) (show i < p by omega) hj hr hs
      have e2 := Mat.entry_at (blk := C) (h := fun _ => b) (w := fun _ => b) (fun i hi => (tC.size i hi 0 hq0).1)
        (fun j hj => (tC.size 0 hp0 j hj).2) (show i < p by omega) hj hr hs
      rw [e0, e0] at e1 e2
      rw [← e1, sE.2.2 _ (by rw [tE.rows hq0]; exact mul_add_lt (show i < p by omega) hr) _
        (by rw [tE.cols hp0]; exact mul_add_lt hj hs), e2, eC i (by omega) j hj r hr s hs]
      refine if_congr ⟨?_, fun h => ?_⟩ rfl rfl
      · rintro ⟨rfl, rfl⟩
        rfl
      · have : i = j := by
          have h1 : (i * b + r) / b = i := by
            rw [Nat.mul_comm, Nat.mul_add_div (by omega), Nat.div_eq_of_lt hr, Nat.add_zero]
          have h2 : (j * b + s) / b = j := by
            rw [Nat.mul_comm, Nat.mul_add_div (by omega), Nat.div_eq_of_lt hs, Nat.add_zero]
          rw [← h1, ← h2, h]
        subst this
        exact ⟨rfl, by omega⟩
    simp only [Mat.sumSqDiff, Mat.sumSq, Mat.nRows, Mat.nCols, I0, I1]
    refine congrArg₂ Prod.mk ?_ ?_
    · refine Finset.sum_eq_zero fun x hx => Finset.sum_eq_zero fun y hy => ?_
      rw [ent x (mem_range.1 hx) y (mem_range.1 hy), show (Mat.dense I).entry x y = I.val x y from rfl,
        I2 x (mem_range.1 hx) y (mem_range.1 hy), sub_self, zero_mul]
    · have : ∀ x ∈ range (q * b), ∑ y ∈ range (q * b), (Mat.dense I).entry x y * (Mat.dense I).entry x y = 1 := by
        intro x hx
        rw [Finset.sum_eq_single_of_mem x hx]
        · rw [show (Mat.dense I).entry x x = I.val x x from rfl, I2 x (mem_range.1 hx) x (mem_range.1 hx)]
          simp
        · intro y hy hne
          rw [show (Mat.dense I).entry x y = I.val x y from rfl, I2 x (mem_range.1 hx) y (mem_range.1 hy),
            if_neg hne.symm, zero_mul]
      rw [Finset.sum_congr rfl this]
      simp
  · intro h
    have entA := tA.entry hp0 hq0 (f := fun x y => f x y) (fun i hi j hj r hr s hs => by
      obtain ⟨d, d0, d1, d2, hd⟩ := sA i hi j hj
      rcases h with h | h
      · rcases hd with ⟨-, -, l, hl, e⟩ | e
        · rw [e, ← d2 r hr s hs]
          exact h d l hl r (by omega) s (by omega)
        · rw [e, ← d2 r hr s hs]
          rfl
      · rw [allD A h i hi j hj d hd, ← d2 r hr s hs]
        rfl)
    simp only [Mat.sumSqDiff, rD, cD]
    refine Finset.sum_eq_zero fun x hx => Finset.sum_eq_zero fun y hy => ?_
    rw [entD x (mem_range.1 hx) y (mem_range.1 hy), entA x (mem_range.1 hx) y (mem_range.1 hy), sub_self, zero_mul]

/-- What the theorems about the programs need: `m = p·b` rows and `n = q·b` columns with
`1 ≤ q ≤ p` and `1 ≤ b`; kernel functions that fill in the entries `f` and the identity;
low-rank operations that return on operands with `Q`; and a compression that gives such
operands, unless all tiles are dense (`b = 1` or `p ≤ admis + 1`). -/
structure BlrQrInput (Q : LowRank R → Prop) (f : Int → Int → R) (k kid : KernelFn R) (o : LrOps R)
    (compress : Dense R → Except Err (LowRank R)) (p q b : Nat) (a : Int) : Prop where
  kernel : ComputesEntries k f
  kernelRet : KernelReturns k (p * b) (q * b)
  ident : ComputesEntries kid (fun i j => if i = j then 1 else 0)
  identRet : KernelReturns kid (p * b) (q * b)
  fits : o.Fits False
  total : o.Total False Q
  shape : LrOps.ShapeOnly Q
  compr : BlrCompressor Q b compress ∨ b = 1 ∨ (p : Int) ≤ a + 1
  one_b : 1 ≤ b
  one_q : 1 ≤ q
  le : q ≤ p
  admis : 0 ≤ a

variable {k kid : KernelFn R} {f : Int → Int → R} {compressD compress : Dense R → Except Err (LowRank R)}
  {p q b : Nat} {a : Int}

/-- Factorization and multiplications of the blocked program return. -/
theorem blocked_fac (hK : QrContract kn) (h : BlrQrInput Q f k kid o compress p q b a) {fuel : Nat} (hfu : 5 ≤ fuel) :
    ∀ A, Mat.GridOk Q p q (fun _ => b) (fun _ => b) A → Mat.DiagDense q A →
      ∃ Y T, Mat.blockedQr kn o fuel p q A q 1 (fun _ _ => .empty 0 0) = .ok (Y, T) ∧
      Mat.GridOk Q p q (fun _ => b) (fun _ => b) Y ∧ Mat.DiagDense q Y ∧
      ∀ C tr, Mat.GridOk Q p q (fun _ => b) (fun _ => b) C →
        ∃ D, Mat.leftMulBlocked o fuel p q Y q 1 T p q C tr = .ok D ∧
          Mat.GridOk Q p q (fun _ => b) (fun _ => b) D := by
  intro A gA dA
  obtain ⟨⟨Y, T⟩, h1, gY, dY, tY⟩ := Mat.blockedQr_total (T := fun _ _ => .empty 0 0) hK h.fits h.total h.shape
    (by omega : 1 ≤ fuel) h.le gA dA (fun _ _ => rfl)
  exact ⟨Y, T, h1, gY, dY, fun C tr g =>
    Mat.leftMulBlocked_total h.fits h.total h.shape (by omega) h.le le_rfl gY dY (fun _ _ => rfl) tY g tr⟩

/-- The tiles that the tiled program allocates. -/
theorem tiled_tgrid (w : Nat → Nat) (hw : ∀ j < q, w j = b) :
    Mat.TGrid (R := R) p q w (fun i j => .dense ⟨if i < j then 0 else b, if i < j then 0 else b, fun _ _ => 0⟩) := by
  intro k hk i h1 h2
  refine ⟨_, rfl, ?_, ?_⟩ <;> simp only [if_neg (show ¬ i < k by omega), hw k hk]

/-- Factorization and multiplications of the tiled program return. -/
theorem tiled_fac (h : BlrQrInput Q f k kid o compress p q b a) {fuel : Nat} (hfu : 5 ≤ fuel) :
    ∀ A, Mat.GridOk Q p q (fun _ => b) (fun _ => b) A → Mat.DiagDense q A →
      ∃ Y T, Mat.tiledQr kn o fuel p q A p q
        (fun i j => .dense ⟨if i < j then 0 else b, if i < j then 0 else b, fun _ _ => 0⟩) = .ok (Y, T) ∧
      Mat.GridOk Q p q (fun _ => b) (fun _ => b) Y ∧ Mat.DiagDense q Y ∧
      ∀ C tr, Mat.GridOk Q p q (fun _ => b) (fun _ => b) C →
        ∃ D, Mat.leftMulTiled o fuel p q Y p q T p q C tr = .ok D ∧
          Mat.GridOk Q p q (fun _ => b) (fun _ => b) D := by
  intro A gA dA
  obtain ⟨⟨Y, T⟩, h1, gY, dY, tY⟩ := Mat.tiledQr_total (K := kn) h.fits h.total h.shape
    (by omega : 1 ≤ fuel) h.le (fun _ _ => rfl) gA dA (tiled_tgrid _ fun _ _ => rfl)
  exact ⟨Y, T, h1, gY, dY, fun C tr g =>
    Mat.leftMulTiled_total h.fits h.total h.shape (by omega) h.le le_rfl (fun _ _ => rfl) gY dY tY g tr⟩

/-- C54: the blocked program returns, whatever the rounding of the low-rank operations. -/
theorem C54_blocked_program_returns (hK : QrContract kn) (h : BlrQrInput Q f k kid o compress p q b a) {fuel : Nat}
    (hfu : 5 ≤ fuel) :
    ∃ r, blockedQrProgram (K := K) fuel k kid compressD compress kn o (p * b) (q * b) b a = .ok r := by
  obtain ⟨_, _, _, _, _, _, _, _, _, hr, -⟩ := blrQr_runs (K := K) (compressD := compressD) h.kernel h.ident
    h.kernelRet h.identRet h.compr h.fits h.total h.shape h.one_b h.one_q h.le (blocked_fac hK h hfu)
    (mul := fun p q Y T C trans => Mat.leftMulBlocked o fuel p q Y q 1 T p q C trans)
    (fac := fun p q A => Mat.blockedQr kn o fuel p q A q 1 (fun _ _ => .empty 0 0)) h.admis hfu
  exact ⟨_, hr⟩

/-- C54: the tiled program returns, whatever the rounding of the low-rank operations. -/
theorem C54_tiled_program_returns (h : BlrQrInput Q f k kid o compress p q b a) {fuel : Nat}
    (hfu : 5 ≤ fuel) :
    ∃ r, tiledQrProgram (K := K) fuel k kid compressD compress kn o (p * b) (q * b) b a = .ok r := by
  obtain ⟨_, _, _, _, _, _, _, _, _, hr, -⟩ := blrQr_runs (K := K) (compressD := compressD) h.kernel h.ident
    h.kernelRet h.identRet h.compr h.fits h.total h.shape h.one_b h.one_q h.le (tiled_fac (kn := kn) h hfu)
    (mul := fun p q Y T C trans => Mat.leftMulTiled o fuel p q Y p q T p q C trans)
    (fac := fun p q A => Mat.tiledQr kn o fuel p q A p q
      (fun i j => .dense ⟨if i < j then 0 else b, if i < j then 0 else b, fun _ _ => 0⟩)) h.admis hfu
  exact ⟨_, hr⟩

/-- No rounding: the low-rank operations are exact and keep the left factors orthonormal,
and the compression gives orthonormal left factors and maps zero to zero; or all tiles are
dense. -/
def NoRounding (o : LrOps R) (compress : Dense R → Except Err (LowRank R)) (p b : Nat) (a : Int) : Prop :=
  (o.Exact False ∧ o.LeftOrth ∧ ∀ d : Dense R, ∀ l, compress d = .ok l → l.LeftOrth ∧
    ((∀ r < d.rows, ∀ s < d.cols, d.val r s = 0) → ∀ r < d.rows, ∀ s < d.cols, l.entry r s = 0)) ∨
  b = 1 ∨ (p : Int) ≤ a + 1

/-- What the programs print without rounding, for the entries `f` and the compressed matrix
`A`: the compression error sums the squares of `f - A`; the residual `‖f - Q·R‖` is the same
numbers, so factorization and multiplication add nothing; `QᵀQ` is the identity; and there
is no error at all if the compression is exact or nothing is compressed. -/
structure BlrQrReport (f : Int → Int → R) (A : Mat R) (compress : Dense R → Except Err (LowRank R)) (p q b : Nat)
    (a : Int) (r : BlrQrRun R) : Prop where
  comp : r.comp = (∑ x ∈ range (p * b), ∑ y ∈ range (q * b), (f x y - A.entry x y) * (f x y - A.entry x y),
    ∑ x ∈ range (p * b), ∑ y ∈ range (q * b), f x y * f x y)
  resid : r.resid = r.comp
  orth : r.orth = (0, ((q * b : Nat) : R))
  none : ExactCompressor compress ∨ b = 1 ∨ (p : Int) ≤ a + 1 → r.comp.1 = 0

/-- C54: the blocked program reports the compression error as residual, and a perfectly
orthogonal `Q`. -/
theorem C54_blocked_program_exact (hK : QrContract kn) (h : BlrQrInput Q f k kid o compress p q b a)
    (hx : NoRounding o compress p b a) {fuel : Nat} (hfu : 5 ≤ fuel) :
    ∃ r A, blockedQrProgram (K := K) fuel k kid compressD compress kn o (p * b) (q * b) b a = .ok r ∧
      hierOfKernel fuel k compress (p * b) (q * b) b (Admis.position a : Admis K) p q 0 0 = .ok A ∧
      BlrQrReport f A compress p q b a r := by
  obtain ⟨r, A, h1, h2, h3, h4, h5, h6⟩ := blrQr_exact (K := K) (compressD := compressD) h.kernel h.ident
    h.kernelRet h.identRet h.compr h.fits h.total h.shape h.one_b h.one_q h.le (blocked_fac hK h hfu)
    (mul := fun p q Y T C trans => Mat.leftMulBlocked o fuel p q Y q 1 T p q C trans)
    (fac := fun p q A => Mat.blockedQr kn o fuel p q A q 1 (fun _ _ => .empty 0 0))
    (fun A iA gA _ dA hw => blocked_facts hK h.fits h.total h.shape (by omega) h.one_q h.le iA gA dA hw) h.admis
    hx hfu
  exact ⟨r, A, h1, h2, h3, h4, h5, h6⟩

/-- C54: the tiled program reports the compression error as residual, and a perfectly
orthogonal `Q`. -/
theorem C54_tiled_program_exact (hK : QrContract kn) (h : BlrQrInput Q f k kid o compress p q b a)
    (hx : NoRounding o compress p b a) {fuel : Nat} (hfu : 5 ≤ fuel) :
    ∃ r A, tiledQrProgram (K := K) fuel k kid compressD compress kn o (p * b) (q * b) b a = .ok r ∧
      hierOfKernel fuel k compress (p * b) (q * b) b (Admis.position a : Admis K) p q 0 0 = .ok A ∧
      BlrQrReport f A compress p q b a r := by
  obtain ⟨r, A, h1, h2, h3, h4, h5, h6⟩ := blrQr_exact (K := K) (compressD := compressD) h.kernel h.ident
    h.kernelRet h.identRet h.compr h.fits h.total h.shape h.one_b h.one_q h.le (tiled_fac (kn := kn) h hfu)
    (mul := fun p q Y T C trans => Mat.leftMulTiled o fuel p q Y p q T p q C trans)
    (fac := fun p q A => Mat.tiledQr kn o fuel p q A p q
      (fun i j => .dense ⟨if i < j then 0 else b, if i < j then 0 else b, fun _ _ => 0⟩))
    (fun A iA gA hb dA hw => tiled_facts hK h.fits h.total h.shape (by omega) h.one_q h.le iA gA dA hw
      (tiled_tgrid _ hb)) h.admis hx hfu
  exact ⟨r, A, h1, h2, h3, h4, h5, h6⟩

/-- C54: what both programs reject: more columns than rows, a tile size of zero (`m % 0`),
and sizes that the tile size does not divide. -/
theorem C54_rejected {fac : Nat → Nat → (Nat → Nat → Mat R) → Except Err ((Nat → Nat → Mat R) × (Nat → Nat → Mat R))}
    {mul : Nat → Nat → (Nat → Nat → Mat R) → (Nat → Nat → Mat R) → (Nat → Nat → Mat R) → Bool →
      Except Err (Nat → Nat → Mat R)} (fuel m n b : Nat) :
    (m < n → blrQrProgram (K := K) fuel k kid compressD compress o fac mul m n b a = .error .assertFail) ∧
    (n ≤ m → b = 0 → blrQrProgram (K := K) fuel k kid compressD compress o fac mul m n b a = .error .ub) ∧
    (n ≤ m → 0 < b → (¬ b ∣ m ∨ ¬ b ∣ n) →
      blrQrProgram (K := K) fuel k kid compressD compress o fac mul m n b a = .error .assertFail) := by
  refine ⟨fun h => ?_, fun h hb => ?_, fun h hb hd => ?_⟩
  · rw [blrQrProgram, decide_eq_false (by omega)]
    rfl
  · rw [blrQrProgram, decide_eq_true h, hb]
    rfl
  · rw [blrQrProgram, decide_eq_true h]
    simp only [assertM, if_true, except_bind_ok, if_neg (show b ≠ 0 by omega)]
    by_cases h1 : b ∣ m
    · have h2 : ¬ b ∣ n := hd.resolve_left (fun h => h h1)
      rw [decide_eq_true (Nat.mod_eq_zero_of_dvd h1),
        decide_eq_false (fun e => h2 (Nat.dvd_of_mod_eq_zero e))]
      rfl
    · rw [decide_eq_false (fun e => h1 (Nat.dvd_of_mod_eq_zero e))]
      rfl

end

/-! ### the programs as shipped, in real arithmetic -/

section
variable {kn : QrKernels ℝ} {L : Lapack ℝ}

/-- The entries of the matrices of both programs: `1 / (|x_i - x_j| + 0.001)` for the points
that `equallySpacedVector` gives. -/
noncomputable def gridLaplace (m : Nat) (i j : Int) : ℝ :=
  match Builtin.laplacend.entry [equallySpacedVector m 0 1, equallySpacedVector m 0 1] i j with
  | .ok v => v
  | .error _ => 0

theorem laplace_returns {m n : Nat} (hn : n ≤ m) :
    KernelReturns (Builtin.laplacend.kernel [equallySpacedVector m 0 1, equallySpacedVector m 0 1]) m n := by
  intro mem m' n' stride r c h1 h2
  refine kernelLoop_exists fun i hi j hj => ?_
  have hl := (equallySpaced_get m 0 1).1
  have h := (C10_values [equallySpacedVector m 0 1, equallySpacedVector m 0 1] (r + i) (c + j)
    (by simp only [List.mem_cons, List.not_mem_nil, or_false]; rintro p (rfl | rfl) <;> omega)
    (by simp only [List.mem_cons, List.not_mem_nil, or_false]; rintro p (rfl | rfl) <;> omega)).2.2.1
  rw [Nat.cast_add, Nat.cast_add] at h
  exact ⟨_, h⟩

theorem identity_computes : ComputesEntries (Builtin.identity.kernel []) (fun i j => if i = j then (1 : ℝ) else 0) := by
  intro mem m n stride rs cs mem' hs h i hi j hj
  exact (Except.ok.inj ((kernelLoop_spec hs h).1 i hi j hj)).symm

theorem identity_returns (m n : Nat) : KernelReturns (Builtin.identity.kernel []) m n :=
  fun _ _ _ _ _ _ _ _ => kernelLoop_exists fun _ _ _ _ => ⟨_, rfl⟩

theorem shapeOnly_tolerance {R : Type} [Zero R] : LrOps.ShapeOnly (R := R) LowRank.WithTolerance := by
  rintro l l' w s d0 d1 r e ⟨-, -, h1, h2, h3, h4⟩
  exact ⟨w, s, e ▸ h1, d0 ▸ h2, d1 ▸ h3, r ▸ h4⟩

theorem ofEps_blr {R : Type} [CommRing R] {L : Lapack R} (hL : L.Ranks) {eps : R} (he : eps ≠ 0) {b : Nat}
    (hb : 1 ≤ b) : BlrCompressor LowRank.WithTolerance b (fun d => L.ofEps d eps) := by
  intro d d0 d1
  obtain ⟨l, hl⟩ := L.ofEps_total d eps
  obtain ⟨w, s, l0, l1, hr, e, -⟩ := Lapack.ofEps_ok hl
  have := hL.geqp3 d eps
  exact ⟨l, hl, w, s, l0.trans d0, l1.trans d1, w, s, e ▸ he, by omega, by omega, by omega⟩

/-- C54: with the library's own routines (`laplacend`, `identity`, compression with a
tolerance, rounded or fast low-rank addition), both programs return for every `m = p·b`,
`n = q·b` with `1 ≤ q ≤ p`, `1 ≤ b`, every non-zero tolerance and every `admis ≥ 0`. -/
theorem C54_library_returns (hK : QrContract kn) (hL : L.Ranks) {mode : LraMode} (hm : mode ≠ .naive) {p q b : Nat}
    (hb : 1 ≤ b) (hq : 1 ≤ q) (hp : q ≤ p) {eps : ℝ} (he : eps ≠ 0) {a : Int} (ha : 0 ≤ a) {fuel : Nat}
    (hfu : 5 ≤ fuel) :
    (∃ r, blockedQrProgram (K := ℝ) fuel
      (Builtin.laplacend.kernel [equallySpacedVector (p * b) 0 1, equallySpacedVector (p * b) 0 1])
      (Builtin.identity.kernel []) (fun d => L.ofRank d b) (fun d => L.ofEps d eps) kn (L.ops mode fuel)
      (p * b) (q * b) b a = .ok r) ∧
    ∃ r, tiledQrProgram (K := ℝ) fuel
      (Builtin.laplacend.kernel [equallySpacedVector (p * b) 0 1, equallySpacedVector (p * b) 0 1])
      (Builtin.identity.kernel []) (fun d => L.ofRank d b) (fun d => L.ofEps d eps) kn (L.ops mode fuel)
      (p * b) (q * b) b a = .ok r := by
  have h : BlrQrInput LowRank.WithTolerance (gridLaplace (p * b))
      (Builtin.laplacend.kernel [equallySpacedVector (p * b) 0 1, equallySpacedVector (p * b) 0 1])
      (Builtin.identity.kernel []) (L.ops mode fuel) (fun d => L.ofEps d eps) p q b a :=
    ⟨C10_computes_entries _ _, laplace_returns (Nat.mul_le_mul_right b hp), identity_computes,
      identity_returns _ _, L.ops_fits mode fuel, Lapack.ops_total_false hL hm fuel, shapeOnly_tolerance,
      Or.inl (ofEps_blr hL he hb), hb, hq, hp, ha⟩
  exact ⟨C54_blocked_program_returns hK h hfu, C54_tiled_program_returns h hfu⟩

/-- C54: if `admis` keeps all tiles dense, both programs report no compression error, no
residual and a perfectly orthogonal `Q`, whatever the routines for low-rank tiles do. -/
theorem C54_library_dense (hK : QrContract kn) (mode : LraMode) {p q b : Nat}
    (hb : 1 ≤ b) (hq : 1 ≤ q) (hp : q ≤ p) (eps : ℝ) {a : Int} (ha : (p : Int) ≤ a + 1) {fuel : Nat}
    (hfu : 5 ≤ fuel) {r : BlrQrRun ℝ}
    (hr : blockedQrProgram (K := ℝ) fuel
      (Builtin.laplacend.kernel [equallySpacedVector (p * b) 0 1, equallySpacedVector (p * b) 0 1])
      (Builtin.identity.kernel []) (fun d => L.ofRank d b) (fun d => L.ofEps d eps) kn (L.ops mode fuel)
      (p * b) (q * b) b a = .ok r ∨
    tiledQrProgram (K := ℝ) fuel
      (Builtin.laplacend.kernel [equallySpacedVector (p * b) 0 1, equallySpacedVector (p * b) 0 1])
      (Builtin.identity.kernel []) (fun d => L.ofRank d b) (fun d => L.ofEps d eps) kn (L.ops mode fuel)
      (p * b) (q * b) b a = .ok r) :
    r.comp.1 = 0 ∧ r.resid.1 = 0 ∧ r.orth = (0, ((q * b : Nat) : ℝ)) := by
  have h : BlrQrInput (fun _ => False) (gridLaplace (p * b))
      (Builtin.laplacend.kernel [equallySpacedVector (p * b) 0 1, equallySpacedVector (p * b) 0 1])
      (Builtin.identity.kernel []) (L.ops mode fuel) (fun d => L.ofEps d eps) p q b a :=
    ⟨C10_computes_entries _ _, laplace_returns (Nat.mul_le_mul_right b hp), identity_computes,
      identity_returns _ _, L.ops_fits mode fuel, LrOps.total_false _ _, fun _ _ _ _ _ _ _ _ h => h,
      Or.inr (Or.inr ha), hb, hq, hp, by omega⟩
  have key : ∀ r A, BlrQrReport (gridLaplace (p * b)) A (fun d => L.ofEps d eps) p q b a r →
      r.comp.1 = 0 ∧ r.resid.1 = 0 ∧ r.orth = (0, ((q * b : Nat) : ℝ)) := by
    intro r A R
    have := R.none (Or.inr (Or.inr ha))
    exact ⟨this, by rw [R.resid, this], R.orth⟩
  rcases hr with hr | hr
  · obtain ⟨r', A, h1, -, R⟩ := C54_blocked_program_exact (K := ℝ) (compressD := fun d => L.ofRank d b) hK h
      (Or.inr (Or.inr ha)) hfu
    rw [hr] at h1
    cases Except.ok.inj h1
    exact key _ _ R
  · obtain ⟨r', A, h1, -, R⟩ := C54_tiled_program_exact (K := ℝ) (compressD := fun d => L.ofRank d b) hK h
      (Or.inr (Or.inr ha)) hfu
    rw [hr] at h1
    cases Except.ok.inj h1
    exact key _ _ R

end

/-! ### the hypotheses can be met -/

section Examples

/-- The default arguments: `m = 256`, `n = 128`, `b = 32`, `admis = 0`, tolerance 1e-6, with
reflectors that exist and some low-rank routines. -/
example : ∃ (kn : QrKernels ℝ) (L : Lapack ℝ) (r s : BlrQrRun ℝ), QrContract kn ∧
    blockedQrProgram (K := ℝ) 5
      (Builtin.laplacend.kernel [equallySpacedVector 256 0 1, equallySpacedVector 256 0 1])
      (Builtin.identity.kernel []) (fun d => L.ofRank d 32) (fun d => L.ofEps d (1 / 10 ^ 6)) kn (L.ops .rounded 5)
      256 128 32 0 = .ok r ∧
    tiledQrProgram (K := ℝ) 5
      (Builtin.laplacend.kernel [equallySpacedVector 256 0 1, equallySpacedVector 256 0 1])
      (Builtin.identity.kernel []) (fun d => L.ofRank d 32) (fun d => L.ofEps d (1 / 10 ^ 6)) kn (L.ops .rounded 5)
      256 128 32 0 = .ok s := by
  obtain ⟨kn, hK⟩ := QrKernels.exists_contract
  have hL : Lapack.Ranks (R := ℝ) { plainLapack ℝ with geqp3 := fun A e =>
      (max 1 ((plainLapack ℝ).geqp3 A e).1, ((plainLapack ℝ).geqp3 A e).2) } :=
    ⟨fun _ _ h => ⟨h, le_rfl⟩, fun _ _ => le_max_left _ _⟩
  obtain ⟨⟨r, hr⟩, ⟨s, hs⟩⟩ := C54_library_returns hK hL (mode := .rounded) (by simp) (p := 8) (q := 4) (b := 32)
    (by omega) (by omega) (by omega) (eps := 1 / 10 ^ 6) (by norm_num) (le_refl 0) (le_refl 5)
  exact ⟨kn, _, r, s, hK, hr, hs⟩

/-- A compressed matrix without rounding: any matrix of 3-by-2 tiles of order 4, tiles off
the diagonal low-rank with orthonormal left factors. -/
theorem orth_input (f : Int → Int → ℝ) : BlrQrInput (fun _ => True) f (indexKernel f) (Builtin.identity.kernel [])
    (orthOps ℝ) (fun d => .ok (keepRight d)) 3 2 4 0 where
  kernel := indexKernel_computes f
  kernelRet := fun _ _ _ _ _ _ _ _ => ⟨_, rfl⟩
  ident := identity_computes
  identRet := identity_returns _ _
  fits := orthOps_fits
  total := orthOps_total
  shape := fun _ _ _ _ _ _ _ _ _ => trivial
  compr := Or.inl fun d d0 d1 => ⟨_, rfl, ⟨rfl, rfl, rfl, rfl, rfl⟩, rfl, d0, d1, trivial⟩
  one_b := by omega
  one_q := by omega
  le := by omega
  admis := le_refl 0

example (f : Int → Int → ℝ) : ∃ (kn : QrKernels ℝ) (r s : BlrQrRun ℝ),
    blockedQrProgram (K := ℝ) 5 (indexKernel f) (Builtin.identity.kernel []) (fun d => .ok (keepRight d))
      (fun d => .ok (keepRight d)) kn (orthOps ℝ) 12 8 4 0 = .ok r ∧
    tiledQrProgram (K := ℝ) 5 (indexKernel f) (Builtin.identity.kernel []) (fun d => .ok (keepRight d))
      (fun d => .ok (keepRight d)) kn (orthOps ℝ) 12 8 4 0 = .ok s ∧
    r.comp.1 = 0 ∧ r.resid.1 = 0 ∧ r.orth = (0, 8) ∧ s.comp.1 = 0 ∧ s.resid.1 = 0 ∧ s.orth = (0, 8) := by
  obtain ⟨kn, hK⟩ := QrKernels.exists_contract
  have hx : NoRounding (orthOps ℝ) (fun d => .ok (keepRight d)) 3 4 0 := by
    refine Or.inl ⟨orthOps_exact, orthOps_leftOrth, fun d l hl => ?_⟩
    cases Except.ok.inj hl
    exact ⟨keepRight_leftOrth d, fun h r hr s hs => (keepRight_entry d hr s).trans (h r hr s hs)⟩
  have he : ExactCompressor (fun d : Dense ℝ => .ok (keepRight d)) := by
    intro d l hl r hr s hs
    cases Except.ok.inj hl
    exact keepRight_entry d hr s
  obtain ⟨r, A, h1, -, R⟩ := C54_blocked_program_exact (K := ℝ) (compressD := fun d => .ok (keepRight d)) hK
    (orth_input f) hx (le_refl 5)
  obtain ⟨s, B, h2, -, S⟩ := C54_tiled_program_exact (K := ℝ) (compressD := fun d => .ok (keepRight d)) hK
    (orth_input f) hx (le_refl 5)
  have r0 := R.none (Or.inl he)
  have s0 := S.none (Or.inl he)
  have ro := R.orth
  have so := S.orth
  norm_num at ro so
  exact ⟨kn, r, s, h1, h2, r0, by rw [R.resid, r0], ro, s0, by rw [S.resid, s0], so⟩

end Examples

end Verif
