import Verif.Model.MgsProgram
import Verif.Props.MgsOrth
import Verif.Props.BlrQr
import Verif.Props.KernelPd

/-
C55: the block low-rank Gram-Schmidt QR example program (examples/blocked_mgs_blr_qr.cpp).
-/

set_option linter.unusedSectionVars false

namespace Verif
open Finset

variable {R : Type} {K : Type} [Field K] [LinearOrder K]

section
variable [CommRing R] [DecidableEq R] [Inhabited R] {o : LrOps R} {Q : LowRank R → Prop} {L : Lapack R}

theorem KernelReturns.mono {k : KernelFn R} {m n m' n' : Nat} (h : KernelReturns k m n) (hm : m' ≤ m) (hn : n' ≤ n) :
    KernelReturns k m' n' :=
  fun mem a b s r c h1 h2 => h mem a b s r c (by omega) (by omega)

/-- Tiles built from a kernel: dense near the diagonal, otherwise compressed. -/
theorem blr_grid {k : KernelFn R} {f : Int → Int → R} (hk : ComputesEntries k f)
    {compress : Dense R → Except Err (LowRank R)} {p q b : Nat} (hk' : KernelReturns k (p * b) (q * b)) {a : Int}
    (hc : BlrCompressor Q b compress ∨ b = 1 ∨ ((max p q : Nat) : Int) ≤ a + 1) (ha : 0 ≤ a) {fuel : Nat} (hfu : 2 ≤ fuel) :
    ∃ A : Nat → Nat → Mat R,
      hierOfKernel fuel k compress (p * b) (q * b) b (Admis.position a : Admis K) p q 0 0 = .ok (.hier p q A) ∧
      Mat.GridOk Q p q (fun _ => b) (fun _ => b) A ∧ (∀ i < p, i < q → ∃ d, A i i = .dense d) ∧
      ∀ i < p, ∀ j < q, ∃ d : Dense R, d.rows = b ∧ d.cols = b ∧
        (∀ r < b, ∀ s < b, d.val r s = f (i * b + r : Nat) (j * b + s : Nat)) ∧
        ((1 < b ∧ a < (((i : Int) - j).natAbs : Int) ∧ ∃ l, compress d = .ok l ∧ A i j = .lowRank l) ∨
          A i j = .dense d) := by
  have cc : ∀ i < p, ∀ j < q, 1 < b → a < (((i : Int) - j).natAbs : Int) →
      ∀ d : Dense R, d.rows = b → d.cols = b → ∃ l, compress d = .ok l :=
    fun i hi j hj h1 h2 d d0 d1 => by
      rcases hc with hc | hc
      · exact (hc d d0 d1).imp fun _ h => h.1
      · omega
  obtain ⟨A, hA, sA⟩ := blr_structure (K := K) hk hk' a cc (fuel := fuel) (by omega)
  refine ⟨A, hA, fun i hi j hj => ?_, fun i hi hi2 => ?_, fun i hi j hj => ?_⟩
  · obtain ⟨d, d0, d1, -, ⟨h1, h2, l, hl, e⟩ | ⟨-, e⟩⟩ := sA i hi j hj
    · obtain ⟨l', hl', w, s, l0, l1, ql⟩ := (hc.resolve_right (by omega)) d d0 d1
      rw [hl] at hl'
      cases Except.ok.inj hl'
      rw [e]
      exact ⟨w, s, trivial, ql, l0, l1⟩
    · rw [e]
      exact ⟨trivial, trivial, trivial, trivial, d0, d1⟩
  · obtain ⟨d, -, -, -, ⟨-, h, -⟩ | ⟨-, h⟩⟩ := sA i hi i hi2
    · omega
    · exact ⟨d, h⟩
  · obtain ⟨d, d0, d1, d2, h | ⟨-, h⟩⟩ := sA i hi j hj
    · exact ⟨d, d0, d1, d2, Or.inl h⟩
    · exact ⟨d, d0, d1, d2, Or.inr h⟩

/-- What the theorems about the program need: `m = p·b` rows and `n = q·b` columns with
`1 ≤ q ≤ p` and `1 ≤ b`; kernel functions that fill in the entries `f`, zeros and the identity;
low-rank operations that return on operands with `Q`; and a compression that gives such
operands, unless all tiles are dense (`b = 1` or `p ≤ admis + 1`). -/
structure MgsQrInput (Q : LowRank R → Prop) (f : Int → Int → R) (k kz kid : KernelFn R) (o : LrOps R)
    (compress : Dense R → Except Err (LowRank R)) (p q b : Nat) (a : Int) : Prop where
  toBlr : BlrQrInput Q f k kid o compress p q b a
  zeros : ComputesEntries kz (fun _ _ => 0)
  zerosRet : KernelReturns kz (p * b) (q * b)

variable {k kz kid : KernelFn R} {f : Int → Int → R} {compressD compress : Dense R → Except Err (LowRank R)}
  {p q b : Nat} {a : Int}

/-- What the program does, step by step. -/
theorem mgsQr_runs (h : MgsQrInput Q f k kz kid o compress p q b a) {fuel : Nat} (hfu : 5 ≤ fuel) (mgs : Mat.MgsT R)
    (beta : R) :
    ∃ (D A Q0 R0 Z : Nat → Nat → Mat R) (x : (Nat → Nat → Mat R) × (Nat → Nat → Mat R)) (B T E : Nat → Nat → Mat R)
      (I : Dense R),
      mgsQrProgramWith (K := K) fuel k kz kid compressD compress (Mat.mgsWith L o fuel mgs beta) o (p * b) (q * b) b a = .ok
        ⟨(Mat.sumSqDiff (.hier p q D) (.hier p q A), Mat.sumSq (.hier p q D)),
         (Mat.sumSqDiff (.hier p q D) (.hier p q B), Mat.sumSq (.hier p q D)),
         (Mat.sumSqDiff (.dense I) (.hier q q E), Mat.sumSq (.dense I))⟩ ∧
      -- `D`
      BlrTiles p q b D ∧
      (∀ i < p, ∀ j < q, ∀ r < b, ∀ s < b, (D i j).entry r s = f (i * b + r : Nat) (j * b + s : Nat)) ∧
      -- `A`
      hierOfKernel fuel k compress (p * b) (q * b) b (Admis.position a : Admis K) p q 0 0 = .ok (.hier p q A) ∧
      Mat.GridOk Q p q (fun _ => b) (fun _ => b) A ∧
      (∀ i < p, ∀ j < q, ∃ d : Dense R, d.rows = b ∧ d.cols = b ∧
        (∀ r < b, ∀ s < b, d.val r s = f (i * b + r : Nat) (j * b + s : Nat)) ∧
        ((1 < b ∧ a < (((i : Int) - j).natAbs : Int) ∧ ∃ l, compress d = .ok l ∧ A i j = .lowRank l) ∨
          A i j = .dense d)) ∧
      -- the zero matrices
      (hierOfKernel fuel kz compress (p * b) (q * b) b (Admis.position a : Admis K) p q 0 0 = .ok (.hier p q Q0) ∧
        hierOfKernel fuel kz compress (q * b) (q * b) b (Admis.position a : Admis K) q q 0 0 = .ok (.hier q q R0) ∧
        ∀ i < q, ∀ j < q, ∃ d : Dense R, d.rows = b ∧ d.cols = b ∧ (∀ r < b, ∀ s < b, d.val r s = 0) ∧
          ((1 < b ∧ a < (((i : Int) - j).natAbs : Int) ∧ ∃ l, compress d = .ok l ∧ R0 i j = .lowRank l) ∨
            R0 i j = .dense d)) ∧
      (Mat.GridOk Q p q (fun _ => b) (fun _ => b) Q0 ∧ Mat.GridOk Q q q (fun _ => b) (fun _ => b) R0 ∧
        Mat.GridOk Q q q (fun _ => b) (fun _ => b) Z ∧ Mat.DiagDense q R0) ∧
      ((b = 1 ∨ (p : Int) ≤ a + 1) → (∀ i < p, ∀ j < q, ∃ d, Q0 i j = .dense d) ∧
        (∀ i < q, ∀ j < q, ∃ d, R0 i j = .dense d) ∧ ∀ i < q, ∀ j < q, ∃ d, Z i j = .dense d) ∧
      I.rows = q * b ∧ I.cols = q * b ∧ (∀ i < q * b, ∀ j < q * b, I.val i j = if i = j then 1 else 0) ∧
      -- the steps
      Mat.mgsWith L o fuel mgs beta p q A p q Q0 q q R0 = .ok x ∧ Mat.GridOk Q p q (fun _ => b) (fun _ => b) x.1 ∧
      Mat.GridOk Q q q (fun _ => b) (fun _ => b) x.2 ∧ Mat.DiagDense q x.2 ∧
      (∀ i < p, ∀ j < q, (Q0 i j).SameShape (x.1 i j)) ∧
      Mat.trmm o fuel (.hier q q x.2) (.hier p q x.1) .right .upper false false 1 = .ok (.hier p q B) ∧
      Mat.GridOk Q p q (fun _ => b) (fun _ => b) B ∧
      (Mat.hier p q x.1).transpose = .ok (.hier q p T) ∧ 
      Mat.gemm o fuel (.hier q p T) (.hier p q x.1) (.hier q q Z) 1 0 false false = .ok (.hier q q E) ∧
      Mat.GridOk Q q q (fun _ => b) (fun _ => b) E := by
  obtain ⟨⟨hk, hk', hi, hi', hf, hT, hQ, hc, hb, hq, hp, ha⟩, hz, hz'⟩ := h
  have hp0 : 0 < p := by omega
  have hq0 : 0 < q := by omega
  have hqp : q * b ≤ p * b := Nat.mul_le_mul_right b hp
  obtain ⟨D, hD, sD⟩ := blr_structure (K := K) hk (compress := compressD) hk' (p : Int)
    (fun i hi j hj _ h => by omega) (fuel := fuel) (by omega)
  have hc1 : BlrCompressor Q b compress ∨ b = 1 ∨ ((max p q : Nat) : Int) ≤ a + 1 := by
    rw [Nat.max_eq_left hp]
    exact hc
  have hc2 : BlrCompressor Q b compress ∨ b = 1 ∨ ((max q q : Nat) : Int) ≤ a + 1 := by
    rw [Nat.max_eq_left le_rfl]
    exact hc.imp_right fun h => h.imp_right fun h => by omega
  obtain ⟨A, hA, gA, dA, sA⟩ := blr_grid (K := K) hk hk' hc1 ha (fuel := fuel) (by omega)
  obtain ⟨Q0, hQ0, gQ0, dQ0, sQ0⟩ := blr_grid (K := K) hz hz' hc1 ha (fuel := fuel) (by omega)
  obtain ⟨R0, hR0, gR0, dR0, sR0⟩ := blr_grid (K := K) hz (hz'.mono hqp le_rfl) hc2 ha (fuel := fuel) (by omega)
  have dD : ∀ i < p, ∀ j < q, ∃ d : Dense R, D i j = .dense d ∧ d.rows = b ∧ d.cols = b ∧
      ∀ r < b, ∀ s < b, d.val r s = f (i * b + r : Nat) (j * b + s : Nat) := by
    intro i hi j hj
    obtain ⟨d, d0, d1, d2, ⟨-, h, -⟩ | ⟨-, h⟩⟩ := sD i hi j hj
    · omega
    · exact ⟨d, h, d0, d1, d2⟩
  have tD : BlrTiles p q b D := by
    refine ⟨fun i hi j hj => ?_, fun i hi j hj => ?_⟩
    · obtain ⟨d, e, d0, d1, -⟩ := dD i hi j hj
      rw [e]
      exact ⟨d0, d1⟩
    · obtain ⟨d, e, -⟩ := dD i hi j hj
      rw [e]
      exact ⟨trivial, trivial⟩
  have dR : Mat.DiagDense q R0 := fun i hi => dR0 i hi hi
  obtain ⟨x, hx, gQ, gR, sQ, sR⟩ := Mat.mgsWith_total (L := L) (gfuel := fuel) (mgs := mgs) (beta := beta) hf hT (by omega)
    hp0 gA gQ0 gR0 dR (fun j hj => ⟨j, by omega, le_rfl, dA j (by omega) hj⟩)
  have dX : Mat.DiagDense q x.2 := fun i hi => (sR i hi i hi).isDense (dR i hi)
  obtain ⟨B, hB, gB, -, -⟩ := Mat.trmm_grid (Y := x.2) hf hT hQ (ex := False) False.elim (by omega : 2 ≤ fuel)
    (fun i j hij hj => by
      have g := gR i (by omega) j hj
      exact ⟨g.wf, g.tile, g.rows, g.cols⟩) dX gQ
  obtain ⟨T, hTr, gT⟩ := Mat.transpose_grid gQ
  obtain ⟨E, hE, gE⟩ := Mat.gemm_grid hf hT (fuel := fuel) (by omega) hq0 hp0 hq0 gT
    (fun i hi j hj => ⟨(gQ i hi j hj).wf, (gQ i hi j hj).tile, (gQ i hi j hj).rows, (gQ i hi j hj).cols⟩) gR0 1 0
  obtain ⟨mem, hm⟩ := hi' (fun _ => 0) (q * b) (q * b) (q * b) 0 0 (by omega) (by omega)
  rw [Nat.cast_zero] at hm
  obtain ⟨I, hI, I0, I1, I2⟩ : ∃ I : Dense R, Dense.ofKernel kid (q * b) (q * b) 0 0 = .ok I ∧ I.rows = q * b ∧
      I.cols = q * b ∧ ∀ i < q * b, ∀ j < q * b, I.val i j = if i = j then 1 else 0 := by
    refine ⟨_, by rw [Dense.ofKernel, hm, except_bind_ok], rfl, rfl, fun i hi2 j hj2 => ?_⟩
    have := hi _ _ _ _ _ _ _ (le_refl _) hm i hi2 j hj2
    simp only [zero_add, Nat.cast_inj] at this
    exact this
  have tA := BlrTiles.of_grid gA
  have tB := BlrTiles.of_grid gB
  have tE := BlrTiles.of_grid gE
  have l1 := l2ErrorParts_run (tD.wf hp0 hq0) (tA.wf hp0 hq0) tD.noEmpty tA.noEmpty (tD.even hp0 hq0)
    (tA.even hp0 hq0) ((tD.rows hq0).trans (tA.rows hq0).symm) ((tD.cols hp0).trans (tA.cols hp0).symm)
    tD.depth tA.depth hfu
  have l2 := l2ErrorParts_run (tD.wf hp0 hq0) (tB.wf hp0 hq0) tD.noEmpty tB.noEmpty (tD.even hp0 hq0)
    (tB.even hp0 hq0) ((tD.rows hq0).trans (tB.rows hq0).symm) ((tD.cols hp0).trans (tB.cols hp0).symm)
    tD.depth tB.depth hfu
  have l3 := l2ErrorParts_run (A := .dense I) (B := .hier q q E) trivial (tE.wf hq0 hq0) trivial tE.noEmpty trivial
    (tE.even hq0 hq0) (I0.trans (tE.rows hq0).symm) (I1.trans (tE.cols hq0).symm) (Nat.zero_le _) tE.depth hfu
  have dense : ∀ {p' : Nat} {M : Nat → Nat → Mat R}, p' ≤ p → (b = 1 ∨ (p : Int) ≤ a + 1) →
      (∀ i < p', ∀ j < q, ∃ d : Dense R, d.rows = b ∧ d.cols = b ∧
        (∀ r < b, ∀ s < b, d.val r s = (0 : R)) ∧
        ((1 < b ∧ a < (((i : Int) - j).natAbs : Int) ∧ ∃ l, compress d = .ok l ∧ M i j = .lowRank l) ∨
          M i j = .dense d)) → ∀ i < p', ∀ j < q, ∃ d, M i j = .dense d := by
    intro p' M hp' hd h i hi j hj
    obtain ⟨d, -, -, -, ⟨h1, h2, -⟩ | e⟩ := h i hi j hj
    · omega
    · exact ⟨d, e⟩
  refine ⟨D, A, Q0, R0, R0, x, B, T, E, I, ?_, tD, fun i hi j hj r hr s hs => ?_, hA, gA, sA, ⟨hQ0, hR0, sR0⟩,
    ⟨gQ0, gR0, gR0, dR⟩,
    fun hd => ⟨dense le_rfl hd sQ0, dense hp hd sR0, dense hp hd sR0⟩, I0, I1, I2, hx, gQ, gR, dX, sQ, hB, gB, hTr, hE, gE⟩
  · have hm0 : p * b % b = 0 := Nat.mul_mod_left p b
    have hn0 : q * b % b = 0 := Nat.mul_mod_left q b
    have hmd : p * b / b = p := Nat.mul_div_cancel p (by omega)
    have hnd : q * b / b = q := Nat.mul_div_cancel q (by omega)
    unfold mgsQrProgramWith
    simp only [hqp, hm0, hn0, hmd, hnd, decide_true, assertM, if_true, except_bind_ok, hD, hA, hQ0, hR0, l1, Mat.grid, hx, hB,
      l2, hTr, hE, hI, l3]
    exact if_neg (by omega)
  · obtain ⟨d, e, -, -, h⟩ := dD i hi j hj
    rw [e]
    exact h r hr s hs

/-- **C55**: the program returns, whatever the rounding of the low-rank operations and
whatever the QR routine computes. -/
theorem C55_program_returns (h : MgsQrInput Q f k kz kid o compress p q b a) {fuel : Nat} (hfu : 5 ≤ fuel) :
    ∃ r, mgsQrProgram (K := K) fuel k kz kid compressD compress L o (p * b) (q * b) b a = .ok r := by
  obtain ⟨g, rfl⟩ : ∃ g, fuel = g + 1 := ⟨fuel - 1, by omega⟩
  obtain ⟨_, _, _, _, _, _, _, _, _, _, hr, -⟩ := mgsQr_runs (K := K) (compressD := compressD) (L := L) h hfu
    (Mat.mgsHier L o (g + 1) g) 0
  exact ⟨_, hr⟩

/-- **C55**: what the program rejects: more columns than rows, a tile size of zero (`m % 0`),
and sizes that the tile size does not divide. -/
theorem C55_rejected (fuel m n b : Nat) :
    (m < n → mgsQrProgram (K := K) fuel k kz kid compressD compress L o m n b a = .error .assertFail) ∧
    (n ≤ m → b = 0 → mgsQrProgram (K := K) fuel k kz kid compressD compress L o m n b a = .error .ub) ∧
    (n ≤ m → 0 < b → (¬ b ∣ m ∨ ¬ b ∣ n) →
      mgsQrProgram (K := K) fuel k kz kid compressD compress L o m n b a = .error .assertFail) := by
  refine ⟨fun h => ?_, fun h hb => ?_, fun h hb hd => ?_⟩
  · rw [mgsQrProgram, mgsQrProgramWith, decide_eq_false (by omega)]
    rfl
  · rw [mgsQrProgram, mgsQrProgramWith, decide_eq_true h, hb]
    rfl
  · rw [mgsQrProgram, mgsQrProgramWith, decide_eq_true h]
    simp only [assertM, if_true, except_bind_ok, if_neg (show b ≠ 0 by omega)]
    by_cases h1 : b ∣ m
    · have h2 : ¬ b ∣ n := hd.resolve_left (fun h => h h1)
      rw [decide_eq_true (Nat.mod_eq_zero_of_dvd h1),
        decide_eq_false (fun e => h2 (Nat.dvd_of_mod_eq_zero e))]
      rfl
    · rw [decide_eq_false (fun e => h1 (Nat.dvd_of_mod_eq_zero e))]
      rfl

end

/-- No rounding: the low-rank operations are exact and give orthonormal left factors, and so
does the compression; or all tiles are dense. -/
def NoRoundingMgs [CommRing R] (o : LrOps R) (compress : Dense R → Except Err (LowRank R)) (p b : Nat) (a : Int) : Prop :=
  (o.Exact False ∧ o.OrthoResults ∧ ∀ d : Dense R, ∀ l, compress d = .ok l → l.LeftOrth) ∨ b = 1 ∨ (p : Int) ≤ a + 1

/-- What the program prints without rounding, for the entries `f` and the compressed matrix
`A`: the compression error sums the squares of `f - A`; the residual `‖f - Q·R‖` is the same
numbers, so factorization and multiplication add nothing; `QᵀQ` is the identity if the columns
of `A` are linearly independent; and there is no error at all if the compression is exact or
nothing is compressed. -/
structure MgsQrReport [CommRing R] (f : Int → Int → R) (A : Mat R) (compress : Dense R → Except Err (LowRank R))
    (p q b : Nat) (a : Int) (r : BlrQrRun R) : Prop where
  rows : A.nRows = p * b
  cols : A.nCols = q * b
  comp : r.comp = (∑ x ∈ range (p * b), ∑ y ∈ range (q * b), (f x y - A.entry x y) * (f x y - A.entry x y),
    ∑ x ∈ range (p * b), ∑ y ∈ range (q * b), f x y * f x y)
  resid : r.resid = r.comp
  orth : A.IndepCols → r.orth = (0, ((q * b : Nat) : R))
  none : ExactCompressor compress ∨ b = 1 ∨ (p : Int) ≤ a + 1 → r.comp.1 = 0

section
variable [Field R] [DecidableEq R] [Inhabited R] {o : LrOps R} {Q : LowRank R → Prop} {L : Lapack R}
variable {k kz kid : KernelFn R} {f : Int → Int → R} {compressD compress : Dense R → Except Err (LowRank R)}
  {p q b : Nat} {a : Int}

theorem Mat.TileOk.evenBlock {ex : Prop} {h w : Nat} {M : Mat R} (hM : TileOk Q h w M) (hf : (∃ d, M = .dense d) ∨ ex) :
    M.EvenBlock ex := by
  refine ⟨hM.wf, hM.sqr, hf.imp_left ?_, ?_⟩
  · rintro ⟨d, rfl⟩ i _ j _
    trivial
  · have := hM.tile
    cases M with
    | dense | lowRank | empty => trivial
    | hier => exact this.elim

/-- The factorization with the old blocks of `R` times `beta` added: `beta` is zero, or the
compression of zeros is zero. -/
def StartsFrom (beta : R) (compress : Dense R → Except Err (LowRank R)) (p b : Nat) (a : Int) : Prop :=
  beta = 0 ∨ (∀ d : Dense R, ∀ l, (∀ i < d.rows, ∀ j < d.cols, d.val i j = 0) → compress d = .ok l →
    ∀ i < d.rows, ∀ j < d.cols, l.entry i j = 0) ∨ b = 1 ∨ (p : Int) ≤ a + 1

theorem mgsQr_exact (hL : L.Qr) (hLo : L.QrOrtho) (h : MgsQrInput Q f k kz kid o compress p q b a)
    (hx : NoRoundingMgs o compress p b a) {fuel : Nat} (hfu : 5 ≤ fuel) (g : Nat) {beta : R}
    (hbeta : StartsFrom beta compress p b a) :
    ∃ r A, mgsQrProgramWith (K := K) fuel k kz kid compressD compress
        (Mat.mgsWith L o fuel (Mat.mgsHier L o fuel g) beta) o (p * b) (q * b) b a = .ok r ∧
      hierOfKernel fuel k compress (p * b) (q * b) b (Admis.position a : Admis K) p q 0 0 = .ok A ∧
      MgsQrReport f A compress p q b a r := by
  obtain ⟨D, A, Q0, R0, Z, ⟨X, Y⟩, B, T, E, I, hrun, tD, eD, hA, gA, sA, ⟨-, -, sR0⟩, ⟨gQ0, gR0, gZ, dR0⟩, hdense, I0, I1, I2, hX, gX, gY,
    dY, sX, hB, gB, hT, hE, gE⟩ := mgsQr_runs (K := K) (compressD := compressD) (L := L) h hfu
      (Mat.mgsHier L o fuel g) beta
  obtain ⟨⟨hk, hk', hi, hi', hf, hTo, hQ, hc, hb, hq, hp, ha⟩, hz, hz'⟩ := h
  have hp0 : 0 < p := by omega
  have hq0 : 0 < q := by omega
  have tA := BlrTiles.of_grid gA
  have tX := BlrTiles.of_grid gX
  have tB := BlrTiles.of_grid gB
  have tE := BlrTiles.of_grid gE
  have allD : (b = 1 ∨ (p : Int) ≤ a + 1) → ∀ i < p, ∀ j < q, ∃ d : Dense R, A i j = .dense d := by
    intro hd i hi j hj
    obtain ⟨d, -, -, -, ⟨h1, h2, -⟩ | e⟩ := sA i hi j hj
    · omega
    · exact ⟨d, e⟩
  have fine : ∀ {P : Prop}, ((b = 1 ∨ (p : Int) ≤ a + 1) → P) → P ∨ o.Exact False := fun h =>
    hx.elim (fun h => Or.inr h.1) (fun hd => Or.inl (h hd))
  have aR : ∀ i < p, (A i 0).nRows = b := fun i hi => (gA i hi 0 hq0).rows
  have aC : ∀ j < q, (A 0 j).nCols = b := fun j hj => (gA 0 hp0 j hj).cols
  have hI : Mat.MgsInput (o.Exact False) p q A Q0 R0 := by
    refine ⟨tA.wf hp0 hq0, fun i hi j hj => (gA i hi j hj).evenBlock (fine fun hd => allD hd i hi j hj),
      fun i hi j hj => ⟨(gQ0 i hi j hj).evenBlock (fine fun hd => (hdense hd).1 i hi j hj), ?_, ?_⟩,
      fun i hi j hj => ⟨(gR0 i hi j hj).evenBlock (fine fun hd => (hdense hd).2.1 i hi j hj), ?_, ?_⟩, fun j hj hh => ?_⟩
    · rw [(gQ0 i hi j hj).rows, (gA i hi j hj).rows]
    · rw [(gQ0 i hi j hj).cols, (gA i hi j hj).cols]
    · rw [(gR0 i hi j hj).rows, aC i hi]
    · rw [(gR0 i hi j hj).cols, aC j hj]
    · obtain ⟨_, _, _, e⟩ := hh
      obtain ⟨d, e'⟩ := dR0 j hj
      rw [e] at e'
      cases e'
  have hz0 : Mat.BetaOk beta q R0 := by
    intro i j hj hij c hc y hy
    rw [(gR0 i (by omega) j hj).rows] at hc
    rw [(gR0 i (by omega) j hj).cols] at hy
    beta_reduce at hc hy
    obtain ⟨d, d0, d1, d2, hd⟩ := sR0 i (by omega) j hj
    rcases hd with ⟨h1, h2, l, hl, e⟩ | e
    · rcases hbeta with h | h | h
      · rw [h, zero_mul]
      · rw [e, show (Mat.lowRank l).entry c y = l.entry c y from rfl,
          h d l (fun i hi j hj => d2 i (by omega) j (by omega)) hl c (by omega) y (by omega), mul_zero]
      · omega
    · rw [e, show (Mat.dense d).entry c y = d.val c y from rfl, d2 c hc y hy, mul_zero]
  have hms := Mat.mgsHier_spec hL hf (ex := o.Exact False) id fuel g
  obtain ⟨-, -, -, -, hm⟩ := Mat.mgsWith_spec hL hf (ex := o.Exact False) id hms hX
  have P := hm hI hz0
  obtain ⟨B', hB', -, -, eB⟩ := Mat.trmm_grid (Y := Y) hf hTo hQ (ex := o.Exact False) id (by omega : 2 ≤ fuel)
    (fun i j hij hj => by
      have g := gY i (by omega) j hj
      exact ⟨g.wf, g.tile, g.rows, g.cols⟩) dY gX
  rw [hB] at hB'
  cases Except.ok.inj hB'
  have xfine : ∀ i < p, ∀ j < q, (X i j).AllDense ∨ o.Exact False := fun i hi j hj => (P.q i hi j hj).1.fine
  have eBA : ∀ i < p, ∀ j < q, ∀ r < b, ∀ s < b, (B i j).entry r s = (A i j).entry r s := by
    intro i hi j hj r hr s hs
    rw [eB xfine i hi j hj r hr s hs, P.fac i hi j hj r (by rw [(gA i hi j hj).rows]; exact hr) s
      (by rw [(gA i hi j hj).cols]; exact hs)]
    unfold Mat.rowsFrom
    rw [Finset.sum_sigma, ← Finset.range_eq_Ico, Finset.sum_range_succ]
    congr 1
    · refine Finset.sum_congr rfl fun l hl => ?_
      have hl := mem_range.1 hl
      rw [aC l (by omega)]
      refine Finset.sum_congr rfl fun c _ => ?_
      rw [Mat.upv, if_neg (by simp only; omega), mul_comm]
    · symm
      refine (Finset.sum_congr rfl fun c hc => ?_).trans (Finset.sum_subset (s₁ := range (s + 1)) (fun c hc => ?_) fun c hc hn => ?_)
      · have hc := mem_range.1 hc
        rw [Mat.upv, if_neg (by simp only; omega), mul_comm]
      · rw [mem_range] at hc ⊢
        show c < b
        omega
      · rw [mem_range] at hc hn
        rw [Mat.upv, if_pos (by right; exact ⟨rfl, by simp only; omega⟩), zero_mul]
  have entD := tD.entry hp0 hq0 (f := fun x y => f x y) eD
  have rD := tD.rows hq0
  have cD := tD.cols hp0
  have rA := tA.rows hq0
  have cA := tA.cols hp0
  have e0 : ∀ n, psum (fun _ => b) n = n * b := fun n => by simp [psum]
  have sB : (Mat.hier p q B).SameEntries (Mat.hier p q A) := by
    refine ⟨(tB.rows hq0).trans rA.symm, (tB.cols hp0).trans cA.symm, ?_⟩
    rw [tB.rows hq0, tB.cols hp0]
    refine tB.entry hp0 hq0 (f := fun x y => (Mat.hier p q A).entry x y) fun i hi j hj r hr s hs => ?_
    rw [eBA i hi j hj r hr s hs]
    have := Mat.entry_at (blk := A) (h := fun _ => b) (w := fun _ => b) (fun i hi => (tA.size i hi 0 hq0).1)
        (fun j hj => (tA.size 0 hp0 j hj).2) hi hj hr hs
    rw [e0, e0] at this
    exact this.symm
  refine ⟨_, _, hrun, hA, rA, cA, ?_, ?_, fun hind => ?_, ?_⟩
  · simp only [Mat.sumSqDiff, Mat.sumSq, rD, cD]
    refine congrArg₂ Prod.mk (Finset.sum_congr rfl fun x hx => Finset.sum_congr rfl fun y hy => ?_)
      (Finset.sum_congr rfl fun x hx => Finset.sum_congr rfl fun y hy => ?_) <;>
    rw [entD x (mem_range.1 hx) y (mem_range.1 hy)]
  · refine Prod.ext ?_ rfl
    exact Mat.sumSqDiff_congr (Mat.SameEntries.refl _) sB (rD.trans rA.symm) (cD.trans cA.symm)
  · have hlo : ∀ i < p, ∀ j < q, (A i j).All LowRank.LeftOrth := by
      intro i hi j hj
      rcases hx with hx | hx
      · obtain ⟨d, -, -, -, ⟨-, -, l, hl, e⟩ | e⟩ := sA i hi j hj
        · rw [e]
          exact hx.2.2 d l hl
        · rw [e]
          trivial
      · obtain ⟨d, e⟩ := allD hx i hi j hj
        rw [e]
        trivial
    have O := Mat.ColsOrtho.whole hI P (Mat.mgsWith_ortho hL hLo hf (ex := o.Exact False) id hms
      (Mat.mgsHier_ortho hL hLo hf (ex := o.Exact False) id fuel g) hX hI hz0 hlo (by
      rcases hx with hx | hx
      · exact Or.inr hx.2.1
      · refine Or.inl fun i hi j hj => ?_
        obtain ⟨d, e⟩ := allD hx i hi j hj
        rw [e]
        trivial) hind.grid)
    rw [rA, cA] at O
    have wX := tX.wf hp0 hq0
    obtain ⟨wT, rT, cT, -, eT⟩ := Mat.transpose_spec wX hT
    rw [tX.rows hq0] at cT eT
    rw [tX.cols hp0] at rT eT
    have tZ := BlrTiles.of_grid gZ
    have sqZ : (Mat.hier q q Z).Square := fun i hi j hj => (gZ i hi j hj).sqr
    have fZ : (Mat.hier q q Z).AllDense ∨ o.Exact False := fine fun hd => by
      intro x hx y hy
      rw [Mat.denseAt_hier]
      obtain ⟨x1, x2, x3⟩ := Mat.locate_spec (fun a => (Z a 0).nRows) q x (by rwa [← Mat.nRows_hier])
      obtain ⟨y1, y2, y3⟩ := Mat.locate_spec (fun a => (Z 0 a).nCols) q y (by rwa [← Mat.nCols_hier])
      obtain ⟨d, e⟩ := (hdense hd).2.2 _ x1 _ y1
      rw [e]
      trivial
    obtain ⟨-, -, -, -, -, eE⟩ := Mat.gemm_good hf (ex := o.Exact False) id wT wX ⟨tZ.wf hq0 hq0, sqZ, fZ⟩
      (Mat.TransSafe_ff _ _) hE
    rw [tZ.rows hq0, tZ.cols hq0, tX.rows hq0] at eE
    have ent : ∀ x < q * b, ∀ y < q * b, (Mat.hier q q E).entry x y = if x = y then 1 else 0 := by
      intro x hx y hy
      rw [eE x hx y hy, zero_mul, add_zero, one_mul, ← O x hx y hy]
      refine Finset.sum_congr rfl fun l hl => ?_
      rw [show Mat.opEntry false (Mat.hier q p T) x l = (Mat.hier q p T).entry x l from rfl, eT l (mem_range.1 hl) x hx]
    simp only [Mat.sumSqDiff, Mat.sumSq, Mat.nRows, Mat.nCols, I0, I1]
    refine congrArg₂ Prod.mk ?_ ?_
    · refine Finset.sum_eq_zero fun x hx => Finset.sum_eq_zero fun y hy => ?_
      rw [ent x (mem_range.1 hx) y (mem_range.1 hy), show (Mat.dense I).entry x y = I.val x y from rfl,
        I2 x (mem_range.1 hx) y (mem_range.1 hy), sub_self, zero_mul]
    · have : ∀ x ∈ range (q * b), ∑ y ∈ range (q * b), (Mat.dense I).entry x y * (Mat.dense I).entry x y = 1 := by
        intro x hx
        rw [Finset.sum_eq_single_of_mem x hx]
        · rw [show (Mat.dense I).entry x x = I.val x x from rfl, I2 x (mem_range.1 hx) x (mem_range.1 hx)]
          simp
        · intro y hy hne
          rw [show (Mat.dense I).entry x y = I.val x y from rfl, I2 x (mem_range.1 hx) y (mem_range.1 hy),
            if_neg hne.symm, zero_mul]
      rw [Finset.sum_congr rfl this]
      simp
  · intro h
    have entA := tA.entry hp0 hq0 (f := fun x y => f x y) (fun i hi j hj r hr s hs => by
      obtain ⟨d, d0, d1, d2, hd⟩ := sA i hi j hj
      rcases h with h | h
      · rcases hd with ⟨-, -, l, hl, e⟩ | e
        · rw [e, ← d2 r hr s hs]
          exact h d l hl r (by omega) s (by omega)
        · rw [e, ← d2 r hr s hs]
          rfl
      · rcases hd with ⟨h1, h2, -⟩ | e
        · omega
        · rw [e, ← d2 r hr s hs]
          rfl)
    simp only [Mat.sumSqDiff, rD, cD]
    refine Finset.sum_eq_zero fun x hx => Finset.sum_eq_zero fun y hy => ?_
    rw [entD x (mem_range.1 hx) y (mem_range.1 hy), entA x (mem_range.1 hx) y (mem_range.1 hy), sub_self, zero_mul]

/-- **C55**: without rounding the program reports the compression error as residual, and a
perfectly orthogonal `Q` if the columns of the compressed matrix are linearly independent. -/
theorem C55_program_exact (hL : L.Qr) (hLo : L.QrOrtho) (h : MgsQrInput Q f k kz kid o compress p q b a)
    (hx : NoRoundingMgs o compress p b a) {fuel : Nat} (hfu : 5 ≤ fuel) :
    ∃ r A, mgsQrProgram (K := K) fuel k kz kid compressD compress L o (p * b) (q * b) b a = .ok r ∧
      hierOfKernel fuel k compress (p * b) (q * b) b (Admis.position a : Admis K) p q 0 0 = .ok A ∧
      MgsQrReport f A compress p q b a r := by
  obtain ⟨g, rfl⟩ : ∃ g, fuel = g + 1 := ⟨fuel - 1, by omega⟩
  exact mgsQr_exact hL hLo h hx hfu g (Or.inl rfl)

end

/-! ### the program as shipped, in real arithmetic -/

section
variable {L : Lapack ℝ}

theorem zeros_computes : ComputesEntries (Builtin.zeros.kernel []) (fun _ _ => (0 : ℝ)) := by
  intro mem m n stride rs cs mem' hs h i hi j hj
  exact (Except.ok.inj ((kernelLoop_spec hs h).1 i hi j hj)).symm

theorem zeros_returns (m n : Nat) : KernelReturns (Builtin.zeros.kernel []) m n :=
  fun _ _ _ _ _ _ _ _ => kernelLoop_exists fun _ _ _ _ => ⟨_, rfl⟩

/-- **C55**: with the library's own routines (`laplacend`, `zeros`, `identity`, compression with
a tolerance, rounded or fast low-rank addition) the program returns for every `m = p·b`,
`n = q·b` with `1 ≤ q ≤ p`, `1 ≤ b`, every non-zero tolerance and every `admis ≥ 0`. -/
theorem C55_library_returns (hL : L.Ranks) {mode : LraMode} (hm : mode ≠ .naive) {p q b : Nat}
    (hb : 1 ≤ b) (hq : 1 ≤ q) (hp : q ≤ p) {eps : ℝ} (he : eps ≠ 0) {a : Int} (ha : 0 ≤ a) {fuel : Nat}
    (hfu : 5 ≤ fuel) :
    ∃ r, mgsQrProgram (K := ℝ) fuel
      (Builtin.laplacend.kernel [equallySpacedVector (p * b) 0 1, equallySpacedVector (p * b) 0 1])
      (Builtin.zeros.kernel []) (Builtin.identity.kernel []) (fun d => L.ofRank d b) (fun d => L.ofEps d eps) L
      (L.ops mode fuel) (p * b) (q * b) b a = .ok r :=
  C55_program_returns (Q := LowRank.WithTolerance) (f := gridLaplace (p * b))
    ⟨⟨C10_computes_entries _ _, laplace_returns (Nat.mul_le_mul_right b hp), identity_computes,
      identity_returns _ _, L.ops_fits mode fuel, Lapack.ops_total_false hL hm fuel, shapeOnly_tolerance,
      Or.inl (ofEps_blr hL he hb), hb, hq, hp, ha⟩, zeros_computes, zeros_returns _ _⟩ hfu

/-- The columns of the program's matrix are linearly independent (C56). -/
theorem gridLaplace_indep {m n : Nat} (hn : n ≤ m) {c : Nat → ℝ}
    (h : ∀ x < m, ∑ y ∈ range n, gridLaplace m x y * c y = 0) : ∀ y < n, c y = 0 := by
  have hl := (equallySpaced_get m 0 1).1
  have hlen : ∀ p ∈ [equallySpacedVector m 0 1, equallySpacedVector m 0 1], 0 + n ≤ p.length := by
    simp only [List.mem_cons, List.not_mem_nil, or_false]
    rintro p (rfl | rfl) <;> omega
  have e : ∀ i < n, (equallySpacedVector m 0 1).getD (0 + i) 0 = (i : ℝ) := by
    intro i hi
    rw [zero_add, List.getD_eq_getElem?_getD, (equallySpaced_get m 0 1).2 i (by omega)]
    simp
  have hd : DistinctPoints [equallySpacedVector m 0 1, equallySpacedVector m 0 1] 0 n := by
    intro i hi j hj hij
    refine ⟨_, List.mem_cons_self, ?_⟩
    rw [e i hi, e j hj]
    exact Nat.cast_injective.ne hij
  obtain ⟨mem, hm⟩ := laplace_returns hn (fun _ => 0) n n n 0 0 (by omega) (by omega)
  have hD : Dense.ofKernel (Builtin.laplacend.kernel [equallySpacedVector m 0 1, equallySpacedVector m 0 1]) n n
      ((0 : Nat) : Int) ((0 : Nat) : Int) = .ok ⟨n, n, fun i j => mem (i * n + j)⟩ := by
    rw [Dense.ofKernel, hm, except_bind_ok]
  refine (C56_nonsingular_iff (Or.inl rfl) hlen hD).2 hd c fun i hi => ?_
  rw [← h i (by omega)]
  refine Finset.sum_congr rfl fun j hj => ?_
  have := C10_computes_entries _ _ _ _ _ _ _ _ _ (le_refl n) hm i hi j (mem_range.1 hj)
  simp only [Nat.cast_zero, zero_add] at this
  rw [show (⟨n, n, fun i j => mem (i * n + j)⟩ : Dense ℝ).val i j = mem (i * n + j) from rfl, this]
  rfl

/-- **C55**: if `admis` keeps all tiles dense, the program as shipped reports no compression
error, no residual and a perfectly orthogonal `Q`, whatever the routines for low-rank tiles
do. -/
theorem C55_library_dense (hL : L.Qr) (hLo : L.QrOrtho) (mode : LraMode) {p q b : Nat}
    (hb : 1 ≤ b) (hq : 1 ≤ q) (hp : q ≤ p) (eps : ℝ) {a : Int} (ha : (p : Int) ≤ a + 1) {fuel : Nat}
    (hfu : 5 ≤ fuel) :
    ∃ r, mgsQrProgram (K := ℝ) fuel
      (Builtin.laplacend.kernel [equallySpacedVector (p * b) 0 1, equallySpacedVector (p * b) 0 1])
      (Builtin.zeros.kernel []) (Builtin.identity.kernel []) (fun d => L.ofRank d b) (fun d => L.ofEps d eps) L
      (L.ops mode fuel) (p * b) (q * b) b a = .ok r ∧
      r.comp.1 = 0 ∧ r.resid.1 = 0 ∧ r.orth = (0, ((q * b : Nat) : ℝ)) := by
  have h : MgsQrInput (fun _ => False) (gridLaplace (p * b))
      (Builtin.laplacend.kernel [equallySpacedVector (p * b) 0 1, equallySpacedVector (p * b) 0 1])
      (Builtin.zeros.kernel []) (Builtin.identity.kernel []) (L.ops mode fuel) (fun d => L.ofEps d eps) p q b a :=
    ⟨⟨C10_computes_entries _ _, laplace_returns (Nat.mul_le_mul_right b hp), identity_computes,
      identity_returns _ _, L.ops_fits mode fuel, LrOps.total_false _ _, fun _ _ _ _ _ _ _ _ h => h,
      Or.inr (Or.inr ha), hb, hq, hp, by omega⟩, zeros_computes, zeros_returns _ _⟩
  obtain ⟨r, A, h1, -, P⟩ := C55_program_exact (K := ℝ) (compressD := fun d => L.ofRank d b) hL hLo h
    (Or.inr (Or.inr ha)) hfu
  have c0 := P.none (Or.inr (Or.inr ha))
  refine ⟨r, h1, c0, by rw [P.resid, c0], P.orth fun c hc => ?_⟩
  have ent : ∀ x < p * b, ∀ y < q * b, gridLaplace (p * b) x y = A.entry x y := by
    have e := P.comp
    rw [e] at c0
    simp only at c0
    intro x hx y hy
    have s1 := (Finset.sum_eq_zero_iff_of_nonneg fun x _ => Finset.sum_nonneg fun y _ => mul_self_nonneg _).1 c0 x
      (mem_range.2 hx)
    have s2 := (Finset.sum_eq_zero_iff_of_nonneg fun y _ => mul_self_nonneg _).1 s1 y (mem_range.2 hy)
    linarith [mul_self_eq_zero.1 s2]
  rw [P.rows, P.cols] at hc
  rw [P.cols]
  refine gridLaplace_indep (Nat.mul_le_mul_right b hp) fun x hx => ?_
  rw [← hc x hx]
  exact Finset.sum_congr rfl fun y hy => by rw [ent x hx y (mem_range.1 hy)]

end

/-! ### the hypotheses can be met -/

section Examples

/-- The default arguments: `m = 256`, `n = 128`, `b = 32`, `admis = 0`, tolerance 1e-6, with some
low-rank routines. -/
example : ∃ (L : Lapack ℝ) (r : BlrQrRun ℝ),
    mgsQrProgram (K := ℝ) 5
      (Builtin.laplacend.kernel [equallySpacedVector 256 0 1, equallySpacedVector 256 0 1])
      (Builtin.zeros.kernel []) (Builtin.identity.kernel []) (fun d => L.ofRank d 32) (fun d => L.ofEps d (1 / 10 ^ 6)) L
      (L.ops .rounded 5) 256 128 32 0 = .ok r := by
  have hL : Lapack.Ranks (R := ℝ) { plainLapack ℝ with geqp3 := fun A e =>
      (max 1 ((plainLapack ℝ).geqp3 A e).1, ((plainLapack ℝ).geqp3 A e).2) } :=
    ⟨fun _ _ h => ⟨h, le_rfl⟩, fun _ _ => le_max_left _ _⟩
  obtain ⟨r, hr⟩ := C55_library_returns hL (mode := .rounded) (by simp) (p := 8) (q := 4) (b := 32)
    (by omega) (by omega) (by omega) (eps := 1 / 10 ^ 6) (by norm_num) (le_refl 0) (le_refl 5)
  exact ⟨_, r, hr⟩

/-- The same size with all tiles dense, and a QR factorization that exists. -/
example : ∃ (L : Lapack ℝ) (r : BlrQrRun ℝ),
    mgsQrProgram (K := ℝ) 5
      (Builtin.laplacend.kernel [equallySpacedVector 256 0 1, equallySpacedVector 256 0 1])
      (Builtin.zeros.kernel []) (Builtin.identity.kernel []) (fun d => L.ofRank d 32) (fun d => L.ofEps d (1 / 10 ^ 6)) L
      (L.ops .rounded 5) 256 128 32 8 = .ok r ∧ r.comp.1 = 0 ∧ r.resid.1 = 0 ∧ r.orth = (0, ((4 * 32 : Nat) : ℝ)) := by
  obtain ⟨L, h1, h2⟩ := Lapack.exists_qr
  obtain ⟨r, hr⟩ := C55_library_dense h1 h2 .rounded (p := 8) (q := 4) (b := 32) (by omega) (by omega) (by omega)
    (1 / 10 ^ 6) (a := 8) (by omega) (le_refl 5)
  exact ⟨L, r, hr⟩

/-- A compressed matrix without rounding: the kernel is the identity plus any values in the
last four rows; tiles off the diagonal are low-rank with orthonormal left factors. -/
example (g : Int → Int → ℝ) : ∃ (L : Lapack ℝ) (r : BlrQrRun ℝ),
    mgsQrProgram (K := ℝ) 5 (indexKernel fun i j => if i < 8 then (if i = j then 1 else 0) else g i j)
      (Builtin.zeros.kernel []) (Builtin.identity.kernel []) (fun d => .ok (keepRight d)) (fun d => .ok (keepRight d)) L
      (orthOps ℝ) 12 8 4 0 = .ok r ∧ r.comp.1 = 0 ∧ r.resid.1 = 0 ∧ r.orth = (0, ((2 * 4 : Nat) : ℝ)) := by
  obtain ⟨L, h1, h2⟩ := Lapack.exists_qr
  have hx : NoRoundingMgs (orthOps ℝ) (fun d => .ok (keepRight d)) 3 4 0 := by
    refine Or.inl ⟨orthOps_exact, orthOps_results, fun d l hl => ?_⟩
    cases Except.ok.inj hl
    exact keepRight_leftOrth d
  have he : ExactCompressor (fun d : Dense ℝ => .ok (keepRight d)) := by
    intro d l hl r hr s hs
    cases Except.ok.inj hl
    exact keepRight_entry d hr s
  obtain ⟨r, A, h, -, P⟩ := C55_program_exact (K := ℝ) (compressD := fun d => .ok (keepRight d)) h1 h2
    ⟨orth_input fun i j => if i < 8 then (if i = j then 1 else 0) else g i j, zeros_computes, zeros_returns _ _⟩ hx (le_refl 5)
  have c0 := P.none (Or.inl he)
  refine ⟨L, r, h, c0, by rw [P.resid, c0], P.orth fun c hc y hy => ?_⟩
  rw [P.cols] at hy
  have e := P.comp
  rw [e] at c0
  simp only at c0
  have ent : ∀ z < 8, A.entry y z = if y = z then 1 else 0 := by
    intro z hz
    have s1 := (Finset.sum_eq_zero_iff_of_nonneg fun x _ => Finset.sum_nonneg fun y _ => mul_self_nonneg _).1 c0 y
      (mem_range.2 (by omega))
    have s2 := (Finset.sum_eq_zero_iff_of_nonneg fun y _ => mul_self_nonneg _).1 s1 z (mem_range.2 hz)
    have s3 := sub_eq_zero.1 (mul_self_eq_zero.1 s2)
    rw [← s3, if_pos (by omega)]
    exact if_congr Nat.cast_inj rfl rfl
  have := hc y (by rw [P.rows]; omega)
  rw [P.cols, Finset.sum_eq_single_of_mem y (mem_range.2 hy)] at this
  · rwa [ent y hy, if_pos rfl, one_mul] at this
  · intro z hz hne
    rw [ent z (mem_range.1 hz), if_neg (Ne.symm hne), zero_mul]

end Examples

end Verif
