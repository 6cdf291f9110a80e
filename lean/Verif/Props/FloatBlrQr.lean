import Verif.Lemmas.FloatBlrQr
import Verif.Props.BlrQr
import Verif.Props.FloatHLu

/-!
C81: the tiled QR program in floating-point arithmetic, when nothing is compressed.
-/

namespace Verif
open Finset

variable {K : Type} [Field K] [LinearOrder K]
variable {F : FlQr} {B : FlTrmm} {G : FlArith} {ε u η : ℝ} {p q b : Nat}

/-- Lower and upper bound of what `l2_error` prints when the true relative distance is `e`, the
matrices have `n` entries and at most `k` blocks. -/
def PrintedFor (u : ℝ) (n k : Nat) (e printed : ℝ) : Prop :=
  (1 - u) * √(((1 - u) / (1 + u)) ^ (n + 4 + k)) * e ≤ printed ∧
  printed ≤ (1 + u) * √(((1 + u) / (1 - u)) ^ (n + 4 + k)) * e

/-- The tiles of a matrix from a kernel when nothing is compressed. -/
theorem blr_dense {k : KernelFn ℝ} {f : Int → Int → ℝ} (hk : ComputesEntries k f)
    (hk' : KernelReturns k (p * b) (q * b)) (compress : Dense ℝ → Except Err (LowRank ℝ)) {a : Int}
    (hp : 0 < p) (hq : 0 < q) (hqp : q ≤ p) (ha : b ≤ 1 ∨ (p : Int) ≤ a + 1) {fuel : Nat} (hfu : 2 ≤ fuel) :
    ∃ A, hierOfKernel fuel k compress (p * b) (q * b) b (Admis.position a : Admis K) p q 0 0 = .ok (.hier p q A) ∧
      DenseTiles p q (fun _ => b) (fun _ => b) A ∧
      ∀ i < p * b, ∀ j < q * b, (Mat.hier p q A).entry i j = f i j := by
  obtain ⟨A, hA, sA⟩ := blr_structure (K := K) hk (compress := compress) hk' a
    (fun i hi j hj h1 h => by omega) hfu
  have dA : ∀ i < p, ∀ j < q, ∃ d : Dense ℝ, A i j = .dense d ∧ d.rows = b ∧ d.cols = b ∧
      ∀ r < b, ∀ s < b, d.val r s = f (i * b + r : Nat) (j * b + s : Nat) := by
    intro i hi j hj
    obtain ⟨d, d0, d1, d2, ⟨h1, h, -⟩ | ⟨-, h⟩⟩ := sA i hi j hj
    · omega
    · exact ⟨d, h, d0, d1, d2⟩
  have tA : DenseTiles p q (fun _ => b) (fun _ => b) A := fun i hi j hj => by
    obtain ⟨d, e, d0, d1, -⟩ := dA i hi j hj
    exact ⟨d, e, d0, d1⟩
  refine ⟨A, hA, tA, tA.blr.entry hp hq (f := fun i j : Nat => f i j) (fun i hi j hj r hr s hs => ?_)⟩
  obtain ⟨d, e, -, -, h⟩ := dA i hi j hj
  rw [e]
  exact h r hr s hs

/-- C81.  The tiled QR program in floating-point arithmetic when no tile is compressed, with
`g = (1+ε)^c - 1` for `c` tiles on and below the diagonal, and `γ = (1+u)^(3n) - 1`.  The program
returns.  The compression error it prints is zero.  The computed `Q` is within `g √n` of `n`
columns of an exactly orthogonal matrix.  The computed product `Q R` differs from the kernel's matrix
by at most `(g + g (1+g) √n + γ (1+g)^2 √n)` times its norm.  The computed `Q^T Q` differs from the
identity by at most `((1+ε)^(2c) - 1) √n`.  The two errors that the program prints belong to these
two differences, up to the rounding errors of `l2_error`. -/
theorem C81_tiled_program (hF : F.Sound b ε) (hε : 0 ≤ ε) (hB : B.Sound u) (hG : G.Sound u) (hη : 0 < η)
    {k kid : KernelFn ℝ} {f : Int → Int → ℝ} (hk : ComputesEntries k f)
    (hi : ComputesEntries kid (fun i j => if i = j then 1 else 0))
    (hk' : KernelReturns k (p * b) (q * b)) (hi' : KernelReturns kid (p * b) (q * b))
    (compressD compress : Dense ℝ → Except Err (LowRank ℝ)) (hb : 1 ≤ b) (hq : 1 ≤ q) (hqp : q ≤ p) {a : Int}
    (ha : b = 1 ∨ (p : Int) ≤ a + 1) {fuel : Nat} (hfu : 5 ≤ fuel) :
    ∃ (r : FlBlrQrRun) (P : Nat → Nat → ℝ),
      F.tiledProgram (K := K) B G η fuel k kid compressD compress (p * b) (q * b) b a = .ok r ∧
      r.comp = 0 ∧ Orthogonal (p * b) P ∧
      (let m := p * b
       let n := q * b
       let g := (1 + ε) ^ tileCount p q - 1
       let γ := (1 + u) ^ (3 * n) - 1
       let A : Nat → Nat → ℝ := fun i j => f i j
       let I : Nat → Nat → ℝ := fun i j => if i = j then 1 else 0
       frob m n (fun i j => r.q.entry i j - P i j) ≤ g * √n ∧
       frob m n (fun i j => A i j - r.qr.entry i j) ≤
        (g + g * (1 + g) * √n + γ * (1 + g) ^ 2 * √n) * frob m n A ∧
       frob n n (fun i j => I i j - r.qtq.entry i j) ≤ ((1 + ε) ^ (2 * tileCount p q) - 1) * √n ∧
       PrintedFor u (m * n) (p * q)
        (frob m n (fun i j => A i j - r.qr.entry i j) / √(frob m n A ^ 2 + η)) r.resid ∧
       PrintedFor u (n * n) (q * q) (frob n n (fun i j => I i j - r.qtq.entry i j) / √(n + η)) r.orth) := by
  have hp0 : 0 < p := by omega
  have hq0 : 0 < q := by omega
  obtain ⟨D, hD, tD, eD⟩ := blr_dense (K := K) hk hk' compressD (a := p) hp0 hq0 hqp (Or.inr (by omega))
    (by omega : 2 ≤ fuel)
  have ha' : b ≤ 1 ∨ (p : Int) ≤ a + 1 := by omega
  obtain ⟨A, hA, tA, eA⟩ := blr_dense (K := K) hk hk' compress hp0 hq0 hqp ha' (by omega : 2 ≤ fuel)
  obtain ⟨C, hC, tC, eC⟩ := blr_dense (K := K) hi hi' compress hp0 hq0 hqp ha' (by omega : 2 ≤ fuel)
  simp only [Nat.cast_inj] at eC
  obtain ⟨Y, T', X, Z, E, P, h1, h2, h3, h4, tX, tZ, tE, oP, b1, b2, b3⟩ := flTiled_factor hF hε hB hb hq hqp tA
    (T := fun i j => .dense ⟨if i < j then 0 else b, if i < j then 0 else b, fun _ _ => 0⟩)
    (fun j hj i hji hi => ⟨_, rfl, if_neg (by omega), if_neg (by omega)⟩) tC eC (by omega : 2 ≤ fuel)
  have tEq := tE.restrict hqp (le_refl q)
  obtain ⟨mem, hm⟩ := hi' (fun _ => 0) (q * b) (q * b) (q * b) 0 0
    (by rw [Nat.zero_add]; exact Nat.mul_le_mul_right b hqp) (by omega)
  rw [Nat.cast_zero] at hm
  obtain ⟨I, hI, I0, I1, I2⟩ : ∃ I : Dense ℝ, Dense.ofKernel kid (q * b) (q * b) 0 0 = .ok I ∧ I.rows = q * b ∧
      I.cols = q * b ∧ ∀ i < q * b, ∀ j < q * b, I.val i j = if i = j then 1 else 0 := by
    refine ⟨_, by rw [Dense.ofKernel, hm, except_bind_ok], rfl, rfl, fun i hi2 j hj2 => ?_⟩
    have := hi _ _ _ _ _ _ _ (le_refl _) hm i hi2 j hj2
    simp only [zero_add, Nat.cast_inj] at this
    exact this
  -- the three errors
  have dd : ∀ {X Y : Nat → Nat → Mat ℝ}, BlrTiles p q b X → BlrTiles p q b Y →
      2 * ((Mat.hier p q X).depth + (Mat.hier p q Y).depth) + 1 ≤ fuel := by
    intro X Y h h'
    have := h.depth
    have := h'.depth
    omega
  obtain ⟨e1, l1⟩ := l2_returns (η := η) hG (tD.blr.wf hp0 hq0) (tA.blr.wf hp0 hq0) tD.blr.noEmpty tA.blr.noEmpty
    (tD.blr.even hp0 hq0) (tA.blr.even hp0 hq0) ((tD.blr.rows hq0).trans (tA.blr.rows hq0).symm)
    ((tD.blr.cols hp0).trans (tA.blr.cols hp0).symm) (dd tD.blr tA.blr)
  obtain ⟨e2, l2⟩ := l2_returns (η := η) hG (tD.blr.wf hp0 hq0) (tZ.blr.wf hp0 hq0) tD.blr.noEmpty tZ.blr.noEmpty
    (tD.blr.even hp0 hq0) (tZ.blr.even hp0 hq0) ((tD.blr.rows hq0).trans (tZ.blr.rows hq0).symm)
    ((tD.blr.cols hp0).trans (tZ.blr.cols hp0).symm) (dd tD.blr tZ.blr)
  obtain ⟨e3, l3⟩ := l2_returns (η := η) hG (A := .dense I) trivial (tEq.blr.wf hq0 hq0) trivial tEq.blr.noEmpty trivial
    (tEq.blr.even hq0 hq0) (I0.trans (tEq.blr.rows hq0).symm) (I1.trans (tEq.blr.cols hq0).symm)
    (fuel := fuel) (by have := tEq.blr.depth; simp only [Mat.depth] at this ⊢; omega)
  have c0 : e1 = 0 := (C66_zero_iff hG hη fuel _ _ (tD.blr.wf hp0 hq0) (tA.blr.wf hp0 hq0) tD.leaves.noLowRank
    tA.leaves.noLowRank l1).2 (fun i hi j hj => by
      rw [tD.blr.rows hq0] at hi
      rw [tD.blr.cols hp0] at hj
      rw [eD i hi j hj, eA i hi j hj])
  refine ⟨⟨e1, e2, e3, .hier p q X, .hier p q Z, .hier q q E⟩, P, ?_, c0, oP, ?_⟩
  · have hm0 : p * b % b = 0 := Nat.mul_mod_left p b
    have hn0 : q * b % b = 0 := Nat.mul_mod_left q b
    have hmd : p * b / b = p := Nat.mul_div_cancel p (by omega)
    have hnd : q * b / b = q := Nat.mul_div_cancel q (by omega)
    have hle : q * b ≤ p * b := Nat.mul_le_mul_right b hqp
    unfold FlQr.tiledProgram flBlrQrProgram
    simp only [hle, hm0, hn0, hmd, hnd, decide_true, assertM, if_true, except_bind_ok, hD, hA, hC, l1, Mat.grid, h1, h2,
      h3, l2, h4, hI, l3]
    exact if_neg (by omega)
  · intro m n g γ A' I'
    have fA : frob m n (Mat.hier p q A).entry = frob m n A' := frob_congr eA
    have fZ : frob m n (fun i j => (Mat.hier p q A).entry i j - (Mat.hier p q Z).entry i j) =
        frob m n (fun i j => A' i j - (Mat.hier p q Z).entry i j) :=
      frob_congr (fun i hi j hj => by rw [eA i hi j hj])
    refine ⟨b1, ?_, ?_, ?_, ?_⟩
    · rw [← fZ, ← fA]
      exact b2
    · rw [← frob_neg]
      refine le_trans (le_of_eq (frob_congr fun i hi j hj => ?_)) b3
      ring
    · have := l2_frob hG hη (tD.blr.wf hp0 hq0) (tZ.blr.wf hp0 hq0) tD.leaves.noLowRank tZ.leaves.noLowRank
        (tD.blr.rows hq0) (tD.blr.cols hp0) (tZ.blr.rows hq0) (tZ.blr.cols hp0) l2
      rw [tD.adds, tZ.adds, max_self, frob_congr (X := (Mat.hier p q D).entry) eD,
        frob_congr (Y := fun i j => A' i j - (Mat.hier p q Z).entry i j)
          (fun i hi j hj => by rw [eD i hi j hj])] at this
      exact this
    · have := l2_frob hG hη (A := .dense I) trivial (tEq.blr.wf hq0 hq0) trivial tEq.leaves.noLowRank
        I0 I1 (tEq.blr.rows hq0) (tEq.blr.cols hq0) l3
      have hz : (Mat.dense I).adds = 0 := by simp only [Mat.adds]
      have eI : ∀ i < q * b, ∀ j < q * b, (Mat.dense I).entry i j = I' i j := I2
      have hn : frob n n (Mat.dense I).entry ^ 2 = n := by
        rw [frob_eye le_rfl eI, Real.sq_sqrt (Nat.cast_nonneg _)]
      rw [tEq.adds, hz, Nat.zero_max, hn,
        frob_congr (Y := fun i j => I' i j - (Mat.hier q q E).entry i j)
          (fun i hi j hj => by rw [eI i hi j hj])] at this
      exact this

/-- C81: the check that the program prints applies the reflectors to their own product; the columns of
the computed `Q` are themselves orthonormal up to `2 g √n + g^2 n`, `g = (1+ε)^c - 1`. -/
theorem C81_orthogonality (hF : F.Sound b ε) (hε : 0 ≤ ε) (hB : B.Sound u) (hG : G.Sound u) (hη : 0 < η)
    {k kid : KernelFn ℝ} {f : Int → Int → ℝ} (hk : ComputesEntries k f)
    (hi : ComputesEntries kid (fun i j => if i = j then 1 else 0))
    (hk' : KernelReturns k (p * b) (q * b)) (hi' : KernelReturns kid (p * b) (q * b))
    {compressD compress : Dense ℝ → Except Err (LowRank ℝ)} (hb : 1 ≤ b) (hq : 1 ≤ q) (hqp : q ≤ p) {a : Int}
    (ha : b = 1 ∨ (p : Int) ≤ a + 1) {fuel : Nat} (hfu : 5 ≤ fuel) {r : FlBlrQrRun}
    (h : F.tiledProgram (K := K) B G η fuel k kid compressD compress (p * b) (q * b) b a = .ok r) :
    let m := p * b
    let n := q * b
    let g := (1 + ε) ^ tileCount p q - 1
    frob n n (fun i j => ∑ l ∈ Finset.range m, r.q.entry l i * r.q.entry l j - if i = j then 1 else 0) ≤
      2 * (g * √n) + (g * √n) ^ 2 := by
  obtain ⟨r', P, h', -, oP, h1, -⟩ := C81_tiled_program (K := K) hF hε hB hG hη hk hi hk' hi' compressD
    compress hb hq hqp ha hfu
  obtain rfl : r = r' := Except.ok.inj (h.symm.trans h')
  exact gram_near (Nat.mul_le_mul_right b hqp) oP h1

/-- C81, the numbers that the program prints: not more than the bounds of the two differences,
relative to the norms of the kernel's matrix and of the identity. -/
theorem C81_printed (hF : F.Sound b ε) (hε : 0 ≤ ε) (hB : B.Sound u) (hG : G.Sound u) (hη : 0 < η)
    {k kid : KernelFn ℝ} {f : Int → Int → ℝ} (hk : ComputesEntries k f)
    (hi : ComputesEntries kid (fun i j => if i = j then 1 else 0))
    (hk' : KernelReturns k (p * b) (q * b)) (hi' : KernelReturns kid (p * b) (q * b))
    {compressD compress : Dense ℝ → Except Err (LowRank ℝ)} (hb : 1 ≤ b) (hq : 1 ≤ q) (hqp : q ≤ p) {a : Int}
    (ha : b = 1 ∨ (p : Int) ≤ a + 1) {fuel : Nat} (hfu : 5 ≤ fuel) {r : FlBlrQrRun}
    (h : F.tiledProgram (K := K) B G η fuel k kid compressD compress (p * b) (q * b) b a = .ok r) :
    let n := q * b
    let g := (1 + ε) ^ tileCount p q - 1
    let γ := (1 + u) ^ (3 * n) - 1
    r.comp = 0 ∧
    r.resid ≤ (1 + u) * √(((1 + u) / (1 - u)) ^ (p * b * n + 4 + p * q)) *
      (g + g * (1 + g) * √n + γ * (1 + g) ^ 2 * √n) ∧
    r.orth ≤ (1 + u) * √(((1 + u) / (1 - u)) ^ (n * n + 4 + q * q)) * ((1 + ε) ^ (2 * tileCount p q) - 1) := by
  obtain ⟨r', P, h', c, -, -, h2, h3, h4, h5⟩ := C81_tiled_program (K := K) hF hε hB hG hη hk hi hk' hi' compressD
    compress hb hq hqp ha hfu
  obtain rfl : r = r' := Except.ok.inj (h.symm.trans h')
  intro n g γ
  have hg : 0 ≤ g := by
    have := one_le_pow_eps hε (tileCount p q)
    show (0 : ℝ) ≤ (1 + ε) ^ tileCount p q - 1
    linarith
  have hγ : 0 ≤ γ := by
    have := one_le_pow_eps hB.u0 (3 * n)
    show (0 : ℝ) ≤ (1 + u) ^ (3 * n) - 1
    linarith
  have u0 := hG.u0
  have cut : ∀ {x y z : ℝ}, 0 ≤ z → 0 ≤ y → x ≤ z * y → x / √(y ^ 2 + η) ≤ z := by
    intro x y z hz hy hx
    have hs : y ≤ √(y ^ 2 + η) := Real.le_sqrt_of_sq_le (by linarith)
    have hs' : 0 < √(y ^ 2 + η) := Real.sqrt_pos.2 (by positivity)
    rw [div_le_iff₀ hs']
    exact hx.trans (mul_le_mul_of_nonneg_left hs hz)
  refine ⟨c, h4.2.trans (mul_le_mul_of_nonneg_left (cut (by positivity) (frob_nonneg _ _ _) h2) (by positivity)),
    h5.2.trans (mul_le_mul_of_nonneg_left ?_ (by positivity))⟩
  have := cut (z := (1 + ε) ^ (2 * tileCount p q) - 1)
    (by have := one_le_pow_eps hε (2 * tileCount p q); linarith) (Real.sqrt_nonneg (q * b : Nat)) h3
  rwa [Real.sq_sqrt (Nat.cast_nonneg _)] at this

/-! ### example -/

/-- Any matrix of 3-by-2 tiles of order 4, tile kernels with relative errors of `10^(-6)`, the other
operations in double precision. -/
example (f : Int → Int → ℝ) (compress : Dense ℝ → Except Err (LowRank ℝ)) :
    ∃ (F : FlQr) (r : FlBlrQrRun), F.Sound 4 (1 / 10 ^ 6) ∧
      F.tiledProgram (K := ℚ) (FlTrmm.ofRounding nearest53) (FlArith.ofRounding nearest53) (2 ^ (-52 : ℤ)) 5
        (indexKernel f) (Builtin.identity.kernel []) compress compress 12 8 4 2 = .ok r ∧
      r.comp = 0 ∧ r.resid ≤ 1 / 10 ^ 4 ∧ r.orth ≤ 1 / 10 ^ 4 := by
  obtain ⟨F, hF, -⟩ := C79_kernels_exist (ε := 1 / 10 ^ 6) (by norm_num)
  have hB := C78_rounding (by positivity) nearest53_error
  have hG := FlArith.ofRounding_sound (by positivity) (by norm_num) nearest53_error
  have hη : (0 : ℝ) < 2 ^ (-52 : ℤ) := by positivity
  obtain ⟨r, -, h, -⟩ := C81_tiled_program (K := ℚ) (p := 3) (q := 2) (b := 4) (hF 4) (by norm_num) hB hG hη
    (indexKernel_computes f) identity_computes (fun _ _ _ _ _ _ _ _ => ⟨_, rfl⟩) (identity_returns _ _) compress compress
    (by omega) (by omega) (by omega) (a := 2) (Or.inr (by norm_num)) (le_refl 5)
  obtain ⟨c, h1, h2⟩ := C81_printed (K := ℚ) (p := 3) (q := 2) (b := 4) (hF 4) (by norm_num) hB hG hη
    (indexKernel_computes f) identity_computes (fun _ _ _ _ _ _ _ _ => ⟨_, rfl⟩) (identity_returns _ _)
    (by omega) (by omega) (by omega) (a := 2) (Or.inr (by norm_num)) (le_refl 5) h
  have t : tileCount 3 2 = 5 := by decide
  rw [t] at h1 h2
  have s : √((2 * 4 : Nat) : ℝ) ≤ 3 := by
    rw [Real.sqrt_le_left (by norm_num)]
    norm_num
  have hs : ∀ {x : ℝ}, 0 ≤ x → x ≤ 4 → √x ≤ 2 := by
    intro x _ hx
    rw [Real.sqrt_le_left (by norm_num)]
    linarith
  refine ⟨F, r, hF 4, h, c, h1.trans ?_, h2.trans ?_⟩
  · have e1 := hs (x := ((1 + 2 ^ (-53 : ℤ)) / (1 - 2 ^ (-53 : ℤ))) ^ (3 * 4 * (2 * 4) + 4 + 3 * 2)) (by norm_num) (by norm_num)
    calc _ ≤ (1 + 2 ^ (-53 : ℤ)) * 2 * (((1 + 1 / 10 ^ 6) ^ 5 - 1) + ((1 + 1 / 10 ^ 6) ^ 5 - 1) * (1 + ((1 + 1 / 10 ^ 6) ^ 5 - 1)) * 3 +
          ((1 + 2 ^ (-53 : ℤ)) ^ (3 * (2 * 4)) - 1) * (1 + ((1 + 1 / 10 ^ 6) ^ 5 - 1)) ^ 2 * 3 : ℝ) := by
          gcongr
      _ ≤ _ := by norm_num
  · have e1 := hs (x := ((1 + 2 ^ (-53 : ℤ)) / (1 - 2 ^ (-53 : ℤ))) ^ (2 * 4 * (2 * 4) + 4 + 2 * 2)) (by norm_num) (by norm_num)
    calc _ ≤ (1 + 2 ^ (-53 : ℤ)) * 2 * ((1 + 1 / 10 ^ 6) ^ (2 * 5) - 1 : ℝ) := by
          gcongr
      _ ≤ _ := by norm_num

end Verif
