import Verif.Model.FloatBlrQr
import Verif.Lemmas.Blr
import Verif.Lemmas.QrGrid
import Verif.Lemmas.ParQrCols
import Verif.Lemmas.FloatLu
import Verif.Props.FloatNorm
import Verif.Props.FloatQr
import Verif.Props.FloatTrmm

/-!
Tiled QR in floating-point arithmetic: the product of the two factors, and `l2_error` in
terms of Frobenius norms.
-/

namespace Verif
open Finset
open Mat (exists_block)

variable {p q b : Nat}

theorem psum_const (b n : Nat) : psum (fun _ => b) n = n * b := by simp [psum]

/-- `trmm` from the right with an upper triangle does not read the blocks below the
diagonal. -/
theorem FlTrmm.trmm_upper_only (B : FlTrmm) (fuel : Nat) {Y Z X : Nat → Nat → Mat ℝ}
    (e : ∀ i j, i ≤ j → j < q → Y i j = Z i j) :
    B.trmm fuel (.hier q q Y) (.hier p q X) .right .upper false false 1 =
      B.trmm fuel (.hier q q Z) (.hier p q X) .right .upper false false 1 := by
  cases fuel with
  | zero => rfl
  | succ fuel =>
    show Mat.trmmHH _ _ .right .upper false 1 q q Y p q X = Mat.trmmHH _ _ .right .upper false 1 q q Z p q X
    unfold Mat.trmmHH
    have : ∀ (g : GemmT ℝ) (t : Mat ℝ → Mat ℝ → Except Err (Mat ℝ)),
        collect2 p q (fun i j => do
          let c ← t (Y j j) (X i j)
          loop j (fun u c => g (X i (j - 1 - u)) (Y (j - 1 - u) j) c 1 1 false false) c) =
        collect2 p q (fun i j => do
          let c ← t (Z j j) (X i j)
          loop j (fun u c => g (X i (j - 1 - u)) (Z (j - 1 - u) j) c 1 1 false false) c) := by
      intro g t
      unfold collect2
      refine collect_ext fun i _ => collect_ext fun j hj => ?_
      dsimp only
      rw [e j j le_rfl hj]
      congr 1
      funext c
      exact loop_congr c (fun u hu x => by rw [e (j - 1 - u) j (by omega) hj])
    have := this (B.gemm (fuel + 1)) (B.trmmWith (B.gemm (fuel + 1)) .right .upper false false 1 fuel)
    simp only [Side.pick, Mat.trmmCount, Mat.trmmIndex] at *
    rw [this]

namespace DenseTiles

variable {X : Nat → Nat → Mat ℝ}

theorem blr (h : DenseTiles p q (fun _ => b) (fun _ => b) X) : BlrTiles p q b X := by
  refine ⟨fun i hi j hj => ?_, fun i hi j hj => ?_⟩
  · obtain ⟨d, e, d0, d1⟩ := h i hi j hj
    rw [e]; exact ⟨d0, d1⟩
  · obtain ⟨d, e, -⟩ := h i hi j hj
    rw [e]; exact ⟨trivial, trivial⟩

theorem gridOk (h : DenseTiles p q (fun _ => b) (fun _ => b) X) :
    Mat.GridOk LowRank.WF p q (fun _ => b) (fun _ => b) X := by
  intro i hi j hj
  obtain ⟨d, e, d0, d1⟩ := h i hi j hj
  rw [e]
  exact ⟨trivial, trivial, trivial, trivial, d0, d1⟩

theorem leaves (h : DenseTiles p q (fun _ => b) (fun _ => b) X) : (Mat.hier p q X).DenseLeaves := by
  simp only [Mat.DenseLeaves]
  intro i hi j hj
  obtain ⟨d, e, -⟩ := h i hi j hj
  rw [e]; trivial

theorem filled (hb : 1 ≤ b) (h : DenseTiles p q (fun _ => b) (fun _ => b) X) : (Mat.hier p q X).Filled := by
  constructor
  all_goals
    simp only [Mat.Wide]
    intro i hi j hj
    obtain ⟨d, e, d0, d1⟩ := h i hi j hj
    rw [e]
  · show 0 < d.cols
    rw [d1]; exact hb
  · show 0 < d.rows
    rw [d0]; exact hb

theorem adds (h : DenseTiles p q (fun _ => b) (fun _ => b) X) :
    (Mat.hier p q X).adds = p * q := by
  simp only [Mat.adds]
  have : (range p).sup (fun i => (range q).sup (fun j => (X i j).adds)) = 0 := by
    rw [← Nat.le_zero]
    refine Finset.sup_le fun i hi => Finset.sup_le fun j hj => ?_
    obtain ⟨d, e, -⟩ := h i (mem_range.1 hi) j (mem_range.1 hj)
    rw [e]
    simp only [Mat.adds, le_refl]
  omega

theorem restrict {q' p' : Nat} (hp : p' ≤ p) (hq : q' ≤ q) {h w : Nat → Nat} (H : DenseTiles p q h w X) :
    DenseTiles p' q' h w X := fun i hi j hj => H i (by omega) j (by omega)

end DenseTiles

/-- A product with relative errors in its terms. -/
theorem frob_mul_terms {m k n : Nat} {γ : ℝ} (hγ : 0 ≤ γ) {D X Y : Nat → Nat → ℝ}
    (h : ∀ i < m, ∀ j < n, |D i j| ≤ γ * ∑ l ∈ range k, |X i l| * |Y l j|) :
    frob m n D ≤ γ * (frob m k X * frob k n Y) := by
  have a : ∀ m n (X : Nat → Nat → ℝ), frob m n (fun i j => |X i j|) = frob m n X := by
    intro m n X
    unfold frob
    simp only [sq_abs]
  have h1 : frob m n D ≤ frob m n (fun i j => γ * mulSq k (fun i j => |X i j|) (fun i j => |Y i j|) i j) := by
    unfold frob
    refine Real.sqrt_le_sqrt (Finset.sum_le_sum fun i hi => Finset.sum_le_sum fun j hj => ?_)
    rw [← sq_abs (D i j)]
    exact pow_le_pow_left₀ (abs_nonneg _) (h i (mem_range.1 hi) j (mem_range.1 hj)) 2
  rw [frob_scale hγ (fun _ _ _ _ => rfl)] at h1
  refine le_trans h1 (mul_le_mul_of_nonneg_left ?_ hγ)
  have := frob_mul_le m k n (fun i j => |X i j|) (fun i j => |Y i j|)
  rwa [a, a] at this

/-- `l2_error` in terms of Frobenius norms. -/
theorem l2_frob {G : FlArith} {u η : ℝ} (hG : G.Sound u) (hη : 0 < η) {fuel : Nat} {A B : Mat ℝ}
    {m n : Nat} (wA : A.WF) (wB : B.WF) (lA : A.NoLowRank) (lB : B.NoLowRank) {e : ℝ}
    (a0 : A.nRows = m) (a1 : A.nCols = n) (b0 : B.nRows = m) (b1 : B.nCols = n)
    (h : G.l2Error η fuel A B = .ok e) :
    let E := frob m n (fun i j => A.entry i j - B.entry i j) / √(frob m n A.entry ^ 2 + η)
    let c := m * n + 4 + max A.adds B.adds
    (1 - u) * √(((1 - u) / (1 + u)) ^ c) * E ≤ e ∧ e ≤ (1 + u) * √(((1 + u) / (1 - u)) ^ c) * E := by
  obtain ⟨a, b, ha, hb, -, -, h'⟩ := C66_l2_error_exact_entries hG hη fuel A B wA wB lA lB h
  obtain ⟨D, hD, d0, d1, d2⟩ := Mat.toDense_ok A wA
  obtain ⟨D', hD', -, -, d2'⟩ := Mat.toDense_ok B wB
  rw [hD] at ha
  injection ha with ha
  subst ha
  rw [hD'] at hb
  injection hb with hb
  subst hb
  have e1 : ∑ i ∈ range D.rows, ∑ j ∈ range D.cols, (D.val i j - D'.val i j) * (D.val i j - D'.val i j) =
      ∑ i ∈ range m, ∑ j ∈ range n, (A.entry i j - B.entry i j) ^ 2 := by
    rw [d0, d1, a0, a1]
    refine Finset.sum_congr rfl fun i hi => Finset.sum_congr rfl fun j hj => ?_
    simp only [Finset.mem_range] at hi hj
    rw [d2 i (by omega) j (by omega), d2' i (by omega) j (by omega), sq]
  have e2 : ∑ i ∈ range D.rows, ∑ j ∈ range D.cols, D.val i j * D.val i j = frob m n A.entry ^ 2 := by
    rw [frob_sq, d0, d1, a0, a1]
    refine Finset.sum_congr rfl fun i hi => Finset.sum_congr rfl fun j hj => ?_
    simp only [Finset.mem_range] at hi hj
    rw [d2 i (by omega) j (by omega), sq]
  simp only [e1, e2, a0, a1] at h'
  rw [Real.sqrt_div (Finset.sum_nonneg fun _ _ => Finset.sum_nonneg fun _ _ => sq_nonneg _)] at h'
  exact h'

/-- `l2_error` of two matrices that are subdivided evenly returns. -/
theorem l2_returns {G : FlArith} {u η : ℝ} (hG : G.Sound u) {fuel : Nat} {A B : Mat ℝ} (wA : A.WF)
    (wB : B.WF) (nA : A.NoEmpty) (nB : B.NoEmpty) (eA : A.Even) (eB : B.Even) (h0 : A.nRows = B.nRows)
    (h1 : A.nCols = B.nCols) (hf : 2 * (A.depth + B.depth) + 1 ≤ fuel) : ∃ e, G.l2Error η fuel A B = .ok e := by
  obtain ⟨r, h⟩ := Mat.collectDiffNorm_total fuel A B wA wB nA nB eA eB h0 h1 hf
  obtain ⟨r', h'⟩ := collectDiffNorm_runs hG fuel A B wA wB h
  exact ⟨_, by simp only [FlArith.l2Error, h0, h1, h', decide_true, assertM, if_true, except_bind_ok]; rfl⟩

variable {F : FlQr} {B : FlTrmm} {ε u : ℝ}

/-- The factorization, both factors, their product and the check of orthogonality. -/
theorem flTiled_factor (hF : F.Sound b ε) (hε : 0 ≤ ε) (hB : B.Sound u) (hb : 1 ≤ b) (hq : 1 ≤ q) (hqp : q ≤ p)
    {A T C : Nat → Nat → Mat ℝ} (hA : DenseTiles p q (fun _ => b) (fun _ => b) A)
    (hT : TriangleTiles p q (fun _ => b) T) (hC : DenseTiles p q (fun _ => b) (fun _ => b) C)
    (hI : ∀ i < p * b, ∀ j < q * b, (Mat.hier p q C).entry i j = if i = j then 1 else 0) {fuel : Nat}
    (hfu : 2 ≤ fuel) :
    ∃ Y T' X Z E P, F.tiles.tiledQr p q A p q T = .ok (Y, T') ∧
      F.tiles.leftMulTiled p q Y p q T' p q C false = .ok X ∧
      B.trmm fuel (.hier q q (fun i j => if i ≤ j then Y i j else .empty 0 0)) (.hier p q X) .right .upper
        false false 1 = .ok (.hier p q Z) ∧
      F.tiles.leftMulTiled p q Y p q T' p q X true = .ok E ∧
      DenseTiles p q (fun _ => b) (fun _ => b) X ∧ DenseTiles p q (fun _ => b) (fun _ => b) Z ∧
      DenseTiles p q (fun _ => b) (fun _ => b) E ∧ Orthogonal (p * b) P ∧
      (let g := (1 + ε) ^ tileCount p q - 1
       let γ := (1 + u) ^ (3 * (q * b)) - 1
       frob (p * b) (q * b) (fun i j => (Mat.hier p q X).entry i j - P i j) ≤ g * √(q * b : Nat) ∧
       frob (p * b) (q * b) (fun i j => (Mat.hier p q A).entry i j - (Mat.hier p q Z).entry i j) ≤
        (g + g * (1 + g) * √(q * b : Nat) + γ * (1 + g) ^ 2 * √(q * b : Nat)) *
          frob (p * b) (q * b) (Mat.hier p q A).entry ∧
       frob (q * b) (q * b) (fun i j => (Mat.hier q q E).entry i j - if i = j then 1 else 0) ≤
        ((1 + ε) ^ (2 * tileCount p q) - 1) * √(q * b : Nat)) := by
  have hp0 : 0 < p := by omega
  have hNM : q * b ≤ p * b := Nat.mul_le_mul_right b hqp
  have hI' : ∀ i < psum (fun _ => b) p, ∀ j < psum (fun _ => b) q,
      (Mat.hier p q C).entry i j = if i = j then 1 else 0 := by
    simpa only [psum_const] using hI
  obtain ⟨Y, T', R, P, h1, h2, hR, hz, oP, h3, h4⟩ :=
    C79_tiled hF hε hqp (fun _ _ => le_refl b) (fun _ _ => le_refl b) hA hT
  obtain ⟨X, E, h5, h6, hX, hE, h7, -⟩ := h4 _ C hC (eye_upper hC (fun _ _ => rfl) hI')
  obtain ⟨Y2, T2, R2, k1, k2, k3⟩ :=
    C79_residual hF hε hqp (fun _ _ => le_refl b) (fun _ _ => rfl) hA hT
  rw [h1] at k1
  cases Except.ok.inj k1
  rw [h2] at k2
  cases Except.ok.inj k2
  obtain ⟨X2, E2, k4, k5, k6, k7⟩ := k3 C hC hI'
  rw [h5] at k4
  cases Except.ok.inj k4
  rw [h6] at k5
  cases Except.ok.inj k5
  obtain ⟨Y3, T3, hrun, hY, -⟩ := tiledQr_returns hF (fun _ _ => le_refl b) hε hqp (fun _ _ => le_refl b) hA.grid hT
  rw [h1] at hrun
  cases Except.ok.inj hrun
  have hY := hY.tiles
  obtain ⟨R3, hz3, -, hRe⟩ := zeroLower_tiles hY
  rw [h2] at hz3
  injection hz3 with hz3
  injection hz3 with _ _ hz3
  subst hz3
  have hYq : DenseTiles q q (fun _ => b) (fun _ => b) Y := hY.restrict hqp le_rfl
  simp only [psum_const] at oP h3 h7 k6 k7
  -- the product returns
  obtain ⟨Z, hZ, sZ⟩ : ∃ Z, B.trmm fuel (.hier q q (fun i j => if i ≤ j then Y i j else .empty 0 0)) (.hier p q X)
      .right .upper false false 1 = .ok (.hier p q Z) ∧ DenseTiles p q (fun _ => b) (fun _ => b) Z := by
    rw [B.trmm_upper_only fuel (Z := Y) (fun i j hij _ => if_pos hij)]
    obtain ⟨B', hB', -⟩ := Mat.trmm_grid (o := exactOps ℝ) (Q := LowRank.WF) exactOps_fits exactOps_total
      (fun _ _ w _ _ _ _ _ _ => w) (ex := False) False.elim hfu (Y := Y) (B := X) (h := fun _ => b) (w := fun _ => b)
      (p := p) (q := q)
      (fun k j hkj hj => by
        have g := hYq.gridOk k (by omega) j hj
        exact ⟨g.wf, g.tile, g.rows, g.cols⟩)
      (fun k hk => by obtain ⟨d, e, -⟩ := hYq k hk k hk; exact ⟨d, e⟩) hX.gridOk
    have sol := Mat.SolveTarget.leaves hX.leaves
    obtain ⟨Z, hZ⟩ := (C78_returns_iff B (exactOps ℝ) fuel (hYq.blr.wf (by omega) (by omega))
      (hX.blr.wf hp0 (by omega)) sol).1.2 ⟨_, hB'⟩
    obtain ⟨-, -, sh, -⟩ := C78_product hB fuel (hYq.blr.wf (by omega) (by omega)) (hX.blr.wf hp0 (by omega))
      ⟨rfl, fun i hi => by obtain ⟨d, e, d0, d1⟩ := hYq i hi i hi; rw [e]; exact d0.trans d1.symm⟩ sol
      (hYq.filled hb) (hX.filled hb) hZ
    cases Z with
    | hier p' q' Z =>
      simp only [Mat.SameShape] at sh
      obtain ⟨rfl, rfl, sh⟩ := sh
      refine ⟨Z, hZ, fun i hi j hj => ?_⟩
      obtain ⟨d, e, d0, d1⟩ := hX i hi j hj
      have s := sh i hi j hj
      rw [e] at s
      cases ez : Z i j with
      | dense z => rw [ez] at s; exact ⟨z, rfl, s.1.symm.trans d0, s.2.symm.trans d1⟩
      | _ => rw [ez] at s; exact s.elim
    | _ => exact sh.elim
  refine ⟨Y, T', X, Z, E, P, h1, h5, hZ, h6, hX, sZ, hE, oP, ?_⟩
  intro g γ
  have hg : 0 ≤ g := by
    have := one_le_pow_eps hε (tileCount p q)
    show (0 : ℝ) ≤ (1 + ε) ^ tileCount p q - 1
    linarith
  have hγ : 0 ≤ γ := by
    have := one_le_pow_eps hB.u0 (3 * (q * b))
    show (0 : ℝ) ≤ (1 + u) ^ (3 * (q * b)) - 1
    linarith
  have fI := frob_eye hNM hI
  have e2 : ∀ i, ∀ l < q * b, applyOrth (p * b) false P (Mat.hier p q C).entry i l = P i l := by
    intro i l hl
    unfold applyOrth
    rw [Finset.sum_eq_single l]
    · rw [hI l (by omega) l hl]; simp
    · intro c hc hne
      rw [hI c (Finset.mem_range.1 hc) l hl, if_neg hne, mul_zero]
    · intro hn; exact absurd (Finset.mem_range.2 (by omega)) hn
  have XP : frob (p * b) (q * b) (fun i j => (Mat.hier p q X).entry i j - P i j) ≤ g * √(q * b : Nat) := by
    rw [fI] at h7
    refine le_trans (le_of_eq (frob_congr (fun i hi j hj => ?_))) h7
    rw [e2 i j hj]
  refine ⟨XP, ?_, ?_⟩
  · set M := p * b with hM
    set N := q * b with hN
    set a := (Mat.hier p q A).entry
    set r := (Mat.hier p q R).entry
    set x := (Mat.hier p q X).entry with hx
    have fR : frob M N r ≤ (1 + g) * frob M N a := by
      have := frob_via (Z := fun _ _ => 0) h3 (b := frob M N a) (by
        simp only [sub_zero]
        exact le_of_eq (frob_apply_le oP true))
      simp only [sub_zero] at this
      have e : (1 + g) * frob M N a = g * frob M N a + frob M N a := by ring
      rw [e]; exact this
    have fTop : frob N N r ≤ frob M N r := by
      unfold frob
      refine Real.sqrt_le_sqrt (Finset.sum_le_sum_of_subset_of_nonneg (Finset.range_subset_range.2 hNM) ?_)
      intro i _ _
      exact Finset.sum_nonneg (fun j _ => sq_nonneg _)
    have fX : frob M N x ≤ (1 + g) * √N := by
      have := frob_via (Z := fun _ _ => 0) XP (b := √N) (by
        simp only [sub_zero]
        rw [← fI, ← frob_apply_le oP false (X := (Mat.hier p q C).entry)]
        exact le_of_eq (frob_congr (fun i hi j hj => (e2 i j hj).symm)))
      simp only [sub_zero] at this
      have e : (1 + g) * √N = g * √N + √N := by ring
      rw [e]; exact this
    -- rounding errors of the product
    have wY := hYq.blr.wf (by omega : 0 < q) (by omega : 0 < q)
    have nY : (Mat.hier q q Y).nRows = N := hYq.blr.rows (by omega)
    have dS : (Mat.hier q q Y).DiagSquare :=
      ⟨rfl, fun i hi => by obtain ⟨d, e, d0, d1⟩ := hYq i hi i hi; rw [e]; exact d0.trans d1.symm⟩
    have hZ' := hZ
    rw [B.trmm_upper_only fuel (Z := Y) (fun i j hij _ => if_pos hij)] at hZ'
    have prod := C78_no_lowrank hB fuel wY (hX.blr.wf hp0 (by omega)) dS (hYq.filled hb) (hX.filled hb)
      hYq.leaves.noLowRank hX.leaves hZ'
    have tri : ∀ i < N, ∀ j < N, (Mat.hier q q Y).triEntry .upper false i j = r i j := by
      intro i hi j hj
      obtain ⟨c, hc, y, hy, rfl⟩ := exists_block (fun _ => b) q i (by rw [psum_const]; exact hi)
      obtain ⟨c', hc', y', hy', rfl⟩ := exists_block (fun _ => b) q j (by rw [psum_const]; exact hj)
      have er : r (psum (fun _ => b) c + y) (psum (fun _ => b) c' + y') = masked c' p (fun i => Y i c') c y y' :=
        (hR.entry (by omega) hc' hy hy').trans (hRe c (by omega) c' hc' y hy y' hy')
      have ey : (Mat.hier q q Y).entry (psum (fun _ => b) c + y) (psum (fun _ => b) c' + y') = (Y c c').entry y y' :=
        hYq.entry hc hc' hy hy'
      rw [er]
      have hy : y < b := hy
      have hy' : y' < b := hy'
      simp only [psum_const] at ey ⊢
      simp only [Mat.triEntry, ey, masked, Bool.false_eq_true, if_false]
      rcases Nat.lt_trichotomy c c' with hlt | rfl | hgt
      · have := mul_add_le (b := b) hlt
        rw [if_neg (by omega), if_pos (by omega), if_neg (by omega)]
      · by_cases hyy : y' < y
        · rw [if_neg (by omega), if_neg (by omega), if_pos (Or.inr ⟨rfl, hyy⟩)]
        · by_cases e : y = y'
          · rw [if_pos (by omega), if_neg (by omega)]
          · rw [if_neg (by omega), if_pos (by omega), if_neg (by omega)]
      · have := mul_add_le (b := b) hgt
        rw [if_neg (by omega), if_neg (by omega), if_pos (Or.inl ⟨hgt, by omega⟩)]
    have s3 : frob M N (fun i j => ∑ l ∈ range N, x i l * r l j - (Mat.hier p q Z).entry i j) ≤
        γ * (frob M N x * frob N N r) := by
      refine frob_mul_terms hγ (fun i hi j hj => ?_)
      have P0 := prod i (by rw [hX.blr.rows (by omega)]; exact hi) j (by rw [hX.blr.cols hp0]; exact hj)
      simp only [Bool.false_eq_true, if_false, Mat.sideProd, Side.pick, one_mul, abs_one, nY] at P0
      rw [Finset.sum_congr rfl (fun l hl => by rw [tri l (Finset.mem_range.1 hl) j hj]),
        Finset.sum_congr (f := fun l => |(Mat.hier p q X).entry i l| * |(Mat.hier q q Y).triEntry .upper false l j|) rfl
          (fun l hl => by rw [tri l (Finset.mem_range.1 hl) j hj])] at P0
      rw [abs_sub_comm]
      exact P0
    have := frob_via k6 s3
    refine le_trans this ?_
    have b1 : frob M N x * frob N N r ≤ (1 + g) * √N * ((1 + g) * frob M N a) :=
      mul_le_mul fX (fTop.trans fR) (frob_nonneg _ _ _) (mul_nonneg (by linarith) (Real.sqrt_nonneg _))
    have b2 := mul_le_mul_of_nonneg_left b1 hγ
    refine le_trans (add_le_add_right b2 _) (le_of_eq ?_)
    ring
  · refine le_trans ?_ k7
    have et : ∀ i < q * b, ∀ j < q * b, (Mat.hier q q E).entry i j = (Mat.hier p q E).entry i j := by
      intro i hi j hj
      obtain ⟨c, hc, y, hy, rfl⟩ := exists_block (fun _ => b) q i (by rw [psum_const]; exact hi)
      obtain ⟨c', hc', y', hy', rfl⟩ := exists_block (fun _ => b) q j (by rw [psum_const]; exact hj)
      exact ((hE.restrict hqp le_rfl).entry hc hc' hy hy').trans (hE.entry (by omega) hc' hy hy').symm
    rw [frob_congr (Y := fun i j => (Mat.hier p q E).entry i j - if i = j then 1 else 0)
      (fun i hi j hj => by rw [et i hi j hj])]
    unfold frob
    refine Real.sqrt_le_sqrt ?_
    refine Finset.sum_le_sum_of_subset_of_nonneg (Finset.range_subset_range.2 hNM) ?_
    intro i _ _
    exact Finset.sum_nonneg (fun j _ => sq_nonneg _)

end Verif
