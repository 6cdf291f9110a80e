import Verif.Lemmas.FloatQrGlobal
import Verif.Lemmas.FloatQrExact
import Verif.Lemmas.QrExists

/-!
C79: rounding errors of tiled Householder QR on dense tiles.
-/

set_option linter.unusedVariables false

namespace Verif
open Finset
open Mat (pairs exists_block)

variable {F : FlQr} {nb : Nat} {ε : ℝ} {p q : Nat} {h w : Nat → Nat}

theorem frob_apply_le {m n : Nat} {P X : Nat → Nat → ℝ} (hP : Orthogonal m P) (tr : Bool) :
    frob m n (applyOrth m tr P X) = frob m n X := by
  rw [applyOrth_op]
  exact frob_orth (opOrth_orth hP)

/-- C79.  Tiled Householder QR on dense tiles in floating-point arithmetic.  If the four tile
routines meet the usual backward error bounds with relative error `ε`, the factorization
returns, and one exactly orthogonal matrix `P` explains all results: the upper triangle left in
`A` is within `((1+ε)^c - 1) ‖A‖` of `P^T A`, where `c` is the number of tiles on and below the
diagonal.  For every `C` that is zero below the block diagonal, applying the stored reflectors
returns `D` within `((1+ε)^c - 1) ‖C‖` of `P C`, and applying the transposed reflectors to `D`
gives `C` back within `((1+ε)^(2c) - 1) ‖C‖`.  Norms are Frobenius norms. -/
theorem C79_tiled (hF : F.Sound nb ε) (hε : 0 ≤ ε) (hqp : q ≤ p) (hnb : ∀ i < p, h i ≤ nb)
    (hw : ∀ k < q, w k ≤ h k) {A T : Nat → Nat → Mat ℝ} (hA : DenseTiles p q h w A)
    (hT : TriangleTiles p q w T) :
    ∃ Y T' R P, F.tiles.tiledQr p q A p q T = .ok (Y, T') ∧
      (Mat.hier p q Y).zeroLower = .ok (.hier p q R) ∧ DenseTiles p q h w R ∧
      (∀ i < p, ∀ j < q, ∀ r < h i, ∀ s < w j, j < i ∨ i = j ∧ s < r → (R i j).entry r s = 0) ∧
      Orthogonal (psum h p) P ∧
      frob (psum h p) (psum w q) (fun i j => (Mat.hier p q R).entry i j -
          applyOrth (psum h p) true P (Mat.hier p q A).entry i j) ≤
        ((1 + ε) ^ tileCount p q - 1) * frob (psum h p) (psum w q) (Mat.hier p q A).entry ∧
      ∀ (v : Nat → Nat) (C : Nat → Nat → Mat ℝ), DenseTiles p q h v C → BlockUpper p q h v C →
        ∃ D E, F.tiles.leftMulTiled p q Y p q T' p q C false = .ok D ∧
          F.tiles.leftMulTiled p q Y p q T' p q D true = .ok E ∧
          DenseTiles p q h v D ∧ DenseTiles p q h v E ∧
          frob (psum h p) (psum v q) (fun i j => (Mat.hier p q D).entry i j -
              applyOrth (psum h p) false P (Mat.hier p q C).entry i j) ≤
            ((1 + ε) ^ tileCount p q - 1) * frob (psum h p) (psum v q) (Mat.hier p q C).entry ∧
          frob (psum h p) (psum v q) (fun i j => (Mat.hier p q E).entry i j - (Mat.hier p q C).entry i j) ≤
            ((1 + ε) ^ (2 * tileCount p q) - 1) * frob (psum h p) (psum v q) (Mat.hier p q C).entry := by
  obtain ⟨Y, T', hrun, hY, hT'⟩ := tiledQr_returns hF hnb hε hqp hw hA.grid hT
  obtain ⟨P, H, hcols⟩ := tiledQr_fl hF hnb hε hw hA.grid hT hrun
  obtain ⟨R, hz, hR, hRe⟩ := zeroLower_tiles hY.tiles
  have oP : Orthogonal (psum h p) (prodOrth (psum h p) h w P true (pairs p q)) :=
    prodOrth_orth (fun e he => ⟨(H e he).1, (H e he).2.1⟩)
  refine ⟨Y, T', R, fun i j => prodOrth (psum h p) h w P true (pairs p q) j i, hrun, hz, hR, ?_, oP.flip, ?_, ?_⟩
  · intro i hi j hj r hr s hs hlow
    rw [hRe i hi j hj r hr s hs]
    unfold masked
    rw [if_pos (hlow.imp (fun hl => ⟨hl, hi⟩) (fun hl => ⟨hl.1, hl.2⟩))]
  · rw [applyOrth_op]
    exact factor_all hε hA hR H (fun j hj => (hcols j hj).2) hRe
  · intro v C hC hU
    obtain ⟨D, hD, gD⟩ := leftMulTiled_returns hqp H (le_refl _) hC.grid false
    obtain ⟨E, hE, gE⟩ := leftMulTiled_returns hqp H (le_refl _) gD true
    refine ⟨D, E, hD, hE, gD.tiles, gE.tiles, ?_, ?_⟩
    · rw [applyOrth_op]
      exact apply_all hε H hC hU hD
    · have := undo_all hε H hC hD hE
      unfold ActsLike at this
      refine le_trans (le_of_eq (frob_congr (fun i hi j hj => ?_))) this
      rw [mulSq_one (D := oneSq) (fun _ _ _ _ => rfl) hi]

theorem psum_eq_of {k : Nat} (e : ∀ k < q, h k = w k) (hk : k ≤ q) : psum w k = psum h k :=
  psum_congr (fun a ha => (e a (by omega)).symm)

theorem eye_upper {C : Nat → Nat → Mat ℝ} (hC : DenseTiles p q h w C) (e : ∀ k < q, h k = w k)
    (hI : ∀ i < psum h p, ∀ j < psum w q, (Mat.hier p q C).entry i j = if i = j then 1 else 0) :
    BlockUpper p q h w C := by
  intro i hi j hj hji r hr s hs
  have a1 : psum h i + r < psum h p := by have := psum_le h hi; omega
  have a2 : psum w j + s < psum w q := by have := psum_le w hj; omega
  rw [← hC.entry hi hj hr hs, hI _ a1 _ a2, if_neg]
  have b1 : psum w (j + 1) = psum h (j + 1) := psum_eq_of e hj
  have b2 : psum h (j + 1) ≤ psum h i := psum_mono _ (by omega)
  rw [psum_succ] at b1
  omega

theorem frob_mul_le (m k n : Nat) (X Y : Nat → Nat → ℝ) :
    frob m n (mulSq k X Y) ≤ frob m k X * frob k n Y := by
  refine frob_mono (mul_nonneg (frob_nonneg _ _ _) (frob_nonneg _ _ _)) ?_
  rw [mul_pow, frob_sq, frob_sq, Finset.sum_mul]
  refine Finset.sum_le_sum (fun i _ => ?_)
  rw [Finset.sum_comm (s := range k), Finset.mul_sum]
  refine Finset.sum_le_sum (fun j _ => ?_)
  exact Finset.sum_mul_sq_le_sq_mul_sq _ _ _

theorem frob_eye {m n : Nat} (hnm : n ≤ m) {X : Nat → Nat → ℝ}
    (hI : ∀ i < m, ∀ j < n, X i j = if i = j then 1 else 0) : frob m n X = √n := by
  unfold frob
  congr 1
  rw [Finset.sum_comm, Finset.sum_congr rfl (g := fun _ => (1 : ℝ))]
  · simp
  · intro j hj
    have hj := Finset.mem_range.1 hj
    rw [Finset.sum_eq_single j]
    · rw [hI j (by omega) j hj]; simp
    · intro i hi hne
      rw [hI i (Finset.mem_range.1 hi) j hj, if_neg hne]; simp
    · intro hn; exact absurd (Finset.mem_range.2 (by omega)) hn

/-- C79, as in the example program: the diagonal tiles are square and the reflectors are
applied to the identity.  The computed `Q` and `R` satisfy, with `g = (1+ε)^c - 1`,
`‖A - Q R‖ ≤ (g + g (1+g) √N) ‖A‖`, and applying the transposed reflectors to `Q` gives the
identity up to `((1+ε)^(2c) - 1) √N`. -/
theorem C79_residual (hF : F.Sound nb ε) (hε : 0 ≤ ε) (hqp : q ≤ p)
    (hnb : ∀ i < p, h i ≤ nb) (hsq : ∀ k < q, h k = w k) {A T : Nat → Nat → Mat ℝ}
    (hA : DenseTiles p q h w A) (hT : TriangleTiles p q w T) :
    ∃ Y T' R, F.tiles.tiledQr p q A p q T = .ok (Y, T') ∧
      (Mat.hier p q Y).zeroLower = .ok (.hier p q R) ∧
      ∀ C : Nat → Nat → Mat ℝ, DenseTiles p q h w C →
        (∀ i < psum h p, ∀ j < psum w q, (Mat.hier p q C).entry i j = if i = j then 1 else 0) →
        ∃ Q E, F.tiles.leftMulTiled p q Y p q T' p q C false = .ok Q ∧
          F.tiles.leftMulTiled p q Y p q T' p q Q true = .ok E ∧
          (let g := (1 + ε) ^ tileCount p q - 1
           frob (psum h p) (psum w q) (fun i j => (Mat.hier p q A).entry i j -
              ∑ l ∈ range (psum w q), (Mat.hier p q Q).entry i l * (Mat.hier p q R).entry l j) ≤
            (g + g * (1 + g) * √(psum w q)) * frob (psum h p) (psum w q) (Mat.hier p q A).entry) ∧
          frob (psum h p) (psum w q) (fun i j => (Mat.hier p q E).entry i j - if i = j then 1 else 0) ≤
            ((1 + ε) ^ (2 * tileCount p q) - 1) * √(psum w q) := by
  obtain ⟨Y, T', R, P, h1, h2, hR, hz, oP, h3, h4⟩ := C79_tiled hF hε hqp hnb (fun k hk => (hsq k hk).ge) hA hT
  refine ⟨Y, T', R, h1, h2, fun C hC hI => ?_⟩
  obtain ⟨Q, E, h5, h6, hQ, hE, h7, h8⟩ := h4 w C hC (eye_upper hC hsq hI)
  have hN : psum w q ≤ psum h p := by
    rw [psum_eq_of hsq (le_refl q)]
    exact psum_mono _ hqp
  have fI := frob_eye hN hI
  refine ⟨Q, E, h5, h6, ?_, ?_⟩
  · intro g
    have hg : 0 ≤ g := by
      have := one_le_pow_eps hε (tileCount p q)
      show (0 : ℝ) ≤ (1 + ε) ^ tileCount p q - 1
      linarith
    set M := psum h p
    set N := psum w q
    set a := (Mat.hier p q A).entry
    set r := (Mat.hier p q R).entry
    set qe := (Mat.hier p q Q).entry
    -- the rows of `R` below `N` are zero
    have rz : ∀ i, N ≤ i → i < M → ∀ j < N, r i j = 0 := by
      intro i hNi hi j hj
      obtain ⟨b, hb, x, hx, rfl⟩ := exists_block h p i hi
      obtain ⟨c, hc, y, hy, rfl⟩ := exists_block w q j hj
      have hqb : q ≤ b := by
        by_contra hlt
        have e1 : psum w (b + 1) = psum h (b + 1) := psum_eq_of hsq (by omega)
        have e2 : psum w (b + 1) ≤ N := psum_mono _ (by omega)
        rw [psum_succ h] at e1
        omega
      show (Mat.hier p q R).entry _ _ = 0
      rw [hR.entry hb hc hx hy]
      exact hz b hb c hc x hx y hy (Or.inl (by omega))
    have fA : frob M N r ≤ (1 + g) * frob M N a := by
      have := frob_via (Z := fun _ _ => 0) h3 (b := frob M N a) (by
        simp only [sub_zero]
        exact le_of_eq (frob_apply_le oP true))
      simp only [sub_zero] at this
      have e : (1 + g) * frob M N a = g * frob M N a + frob M N a := by ring
      rw [e]; exact this
    have fTop : frob N N r ≤ frob M N r := by
      unfold frob
      refine Real.sqrt_le_sqrt (Finset.sum_le_sum_of_subset_of_nonneg (Finset.range_subset_range.2 hN) ?_)
      intro i _ _
      exact Finset.sum_nonneg (fun j _ => sq_nonneg _)
    -- `P R` is close to `A`
    have s1 : frob M N (fun i j => a i j - mulSq M P r i j) ≤ g * frob M N a := by
      rw [← frob_orth oP] at h3
      refine le_trans (le_of_eq ?_) h3
      rw [← frob_neg]
      refine frob_congr (fun i hi j hj => ?_)
      rw [mulSq_sub, applyOrth_op]
      have := mulSq_cancel (X := a) oP.flip hi j
      have e : opOrth true P = fun i j => P j i := by funext i j; rfl
      rw [e]
      rw [this]
      ring
    -- `Q R` is close to `P R`
    have s2 : frob M N (fun i j => mulSq M P r i j - mulSq N qe r i j) ≤ g * √N * frob M N r := by
      have e : ∀ i < M, ∀ j < N, mulSq M P r i j - mulSq N qe r i j =
          - mulSq N (fun i l => qe i l - applyOrth M false P (Mat.hier p q C).entry i l) r i j := by
        intro i hi j hj
        have e1 : mulSq M P r i j = ∑ l ∈ range N, P i l * r l j := by
          unfold mulSq
          symm
          refine Finset.sum_subset (Finset.range_subset_range.2 hN) (fun l hl hn => ?_)
          rw [rz l (by simpa using hn) (Finset.mem_range.1 hl) j hj, mul_zero]
        have e2 : ∀ l < N, applyOrth M false P (Mat.hier p q C).entry i l = P i l := by
          intro l hl
          unfold applyOrth
          rw [Finset.sum_eq_single l]
          · rw [hI l (by omega) l hl]; simp
          · intro b hb hne
            rw [hI b (Finset.mem_range.1 hb) l hl, if_neg hne, mul_zero]
          · intro hn; exact absurd (Finset.mem_range.2 (by omega)) hn
        rw [e1]
        unfold mulSq
        rw [← Finset.sum_neg_distrib, ← Finset.sum_sub_distrib]
        refine Finset.sum_congr rfl (fun l hl => ?_)
        dsimp only
        rw [e2 l (Finset.mem_range.1 hl)]
        ring
      rw [frob_congr e, frob_neg]
      refine le_trans (frob_mul_le M N N _ _) ?_
      rw [fI] at h7
      exact mul_le_mul h7 fTop (frob_nonneg _ _ _) (mul_nonneg hg (Real.sqrt_nonneg _))
    have := frob_via s1 s2
    refine le_trans this ?_
    have : g * √N * frob M N r ≤ g * √N * ((1 + g) * frob M N a) :=
      mul_le_mul_of_nonneg_left fA (mul_nonneg hg (Real.sqrt_nonneg _))
    calc g * frob M N a + g * √N * frob M N r ≤ g * frob M N a + g * √N * ((1 + g) * frob M N a) := by linarith
      _ = _ := by ring
  · rw [fI] at h8
    refine le_trans (le_of_eq (frob_congr (fun i hi j hj => ?_))) h8
    rw [hI i hi j hj]

/-- C79: with routines that do not round, the kernels are those of the exact factorization
(C33) on dense tiles. -/
theorem C79_exact (K : QrKernels ℝ) (o : LrOps ℝ) (fuel : Nat) (v t a b : Dense ℝ) (trans : Bool) :
    (FlQr.ofExact K).tiles.geqrt (.dense a) (.dense t) = Mat.geqrt K (.dense a) (.dense t) ∧
    (FlQr.ofExact K).tiles.larfb trans (.dense v) (.dense t) (.dense a) =
      Mat.larfb trans (.dense v) (.dense t) (.dense a) ∧
    (FlQr.ofExact K).tiles.tpqrt (.dense a) (.dense b) (.dense t) =
      Mat.tpqrt K (.dense a) (.dense b) (.dense t) ∧
    (FlQr.ofExact K).tiles.tpmqrt trans (.dense v) (.dense t) (.dense a) (.dense b) =
      Mat.tpmqrt o fuel trans (.dense v) (.dense t) (.dense a) (.dense b) := by
  refine ⟨rfl, ?_, rfl, ?_⟩
  · simp only [FlQr.tiles, Mat.larfb, FlQr.larfb_exact]
  · simp only [FlQr.tiles, Mat.tpmqrt, FlQr.tprfb_exact]

/-- C79: with the exact tile kernels the drivers are those of the exact factorization (C33). -/
theorem C79_drivers {R : Type} [CommRing R] [DecidableEq R] (K : QrKernels R) (o : LrOps R) (fuel : Nat) :
    (TileOps.exact K o fuel).tiledQr = Mat.tiledQr K o fuel ∧
    (TileOps.exact K o fuel).leftMulTiled = Mat.leftMulTiled o fuel := ⟨rfl, rfl⟩

/-! ### the hypotheses can be met -/

theorem reflector_upper {k : Nat} {V T : Nat → Nat → ℝ} :
    reflector k V (upperPart k T) = reflector k V (Dense.tri ⟨k, k, T⟩ .upper false) := by
  funext i j
  unfold reflector
  congr 1
  refine Finset.sum_congr rfl (fun a _ => ?_)
  congr 1
  refine Finset.sum_congr rfl (fun b hb => ?_)
  congr 1
  have hb := Finset.mem_range.1 hb
  simp only [upperPart, Dense.tri]
  by_cases hab : a = b
  · subst hab
    simp [hb]
  · by_cases hlt : a < b
    · rw [if_pos ⟨hlt.le, hb⟩, if_neg hab, if_pos hlt]
    · rw [if_neg (by omega), if_neg hab, if_neg hlt]

theorem frob_scale {m n : Nat} {a : ℝ} (ha : 0 ≤ a) {X Z : Nat → Nat → ℝ}
    (e : ∀ i < m, ∀ j < n, Z i j = a * X i j) : frob m n Z = a * frob m n X := by
  have e1 : a * frob m n X = √(a ^ 2 * ∑ i ∈ range m, ∑ j ∈ range n, X i j ^ 2) := by
    rw [Real.sqrt_mul (sq_nonneg a), Real.sqrt_sq ha]
    rfl
  rw [e1, Finset.mul_sum]
  unfold frob
  congr 1
  refine Finset.sum_congr rfl (fun i hi => ?_)
  rw [Finset.mul_sum]
  refine Finset.sum_congr rfl (fun j hj => ?_)
  rw [e i (Finset.mem_range.1 hi) j (Finset.mem_range.1 hj), mul_pow]

/-- Routines that meet the bounds exist for every `ε`, and they may err: here every product
with reflectors is too large by the factor `1 + ε`. -/
theorem C79_kernels_exist (hε : 0 ≤ ε) : ∃ F : FlQr, (∀ nb, F.Sound nb ε) ∧
    ∀ k V T trans C i j, F.dlarfb k V T trans C i j =
      (1 + ε) * applyOrth C.rows trans (reflector k V T) C.val i j := by
  obtain ⟨K, hK⟩ := QrKernels.exists_contract
  refine ⟨⟨K, fun k V T trans C i j => (1 + ε) * applyOrth C.rows trans (reflector k V T) C.val i j,
    fun k V T trans A B =>
      let x := fun i j => (1 + ε) * applyOrth (k + B.rows) trans
        (reflector k (stack k (fun i j => if i = j then 1 else 0) V) T) (stack k A.val B.val) i j
      (x, fun i j => x (k + i) j)⟩, fun nb => ⟨?_, ?_⟩, fun _ _ _ _ _ _ _ => rfl⟩
  · intro A hA _
    refine ⟨_, hK.geqrt_orth A hA, ?_, fun trans C hC => ?_⟩
    · rw [frob_congr (Y := fun _ _ => 0) (fun i hi j hj => by
        unfold applyOrth
        rw [← hK.geqrt_factor A hA i hi j hj]
        simp)]
      have : frob A.rows A.cols (fun _ _ => (0 : ℝ)) = 0 := by simp [frob]
      rw [this]
      exact mul_nonneg hε (frob_nonneg _ _ _)
    · dsimp only
      rw [reflector_upper, hC, ← frob_apply_le (X := C.val) (hK.geqrt_orth A hA) trans]
      exact le_of_eq (frob_scale hε (fun i _ j _ => by ring))
  · intro A B h1 h2 _ _
    refine ⟨_, hK.tpqrt_orth A B h1 h2, ?_, fun trans C D hC hD hCD => ?_⟩
    · rw [frob_congr (Y := fun _ _ => 0) (fun i hi j hj => by
        unfold applyOrth
        rw [← hK.tpqrt_factor A B h1 h2 i hi j hj]
        simp)]
      have : frob (B.cols + B.rows) B.cols (fun _ _ => (0 : ℝ)) = 0 := by simp [frob]
      rw [this]
      exact mul_nonneg hε (frob_nonneg _ _ _)
    · dsimp only
      rw [reflector_upper, hD,
        ← frob_apply_le (X := stack B.cols C.val D.val) (hK.tpqrt_orth A B h1 h2) trans]
      refine le_of_eq (frob_scale hε (fun i hi j _ => ?_))
      have e : ∀ f : Nat → Nat → ℝ, stack B.cols f (fun i j => f (B.cols + i) j) i j = f i j := by
        intro f
        unfold stack
        by_cases hi' : i < B.cols
        · rw [if_pos hi']
        · rw [if_neg hi']
          dsimp only
          rw [Nat.add_sub_cancel' (by omega)]
      rw [e (fun i j => _)]
      ring

/-- A case: a 3-by-2 grid of tiles with 2, 3 and 2 rows and 2 and 3 columns, and routines
that err by one part in a million. -/
example : ∃ F : FlQr, F.Sound 3 (1 / 10 ^ 6) ∧ ∃ Y T' R Q,
    F.tiles.tiledQr 3 2 (fun i j => .dense ⟨if i = 1 then 3 else 2, if j = 1 then 3 else 2,
      fun r s => 1 / ((i + 2 * j + r + 3 * s : Nat) + 1)⟩) 3 2
      (fun _ j => .dense ⟨if j = 1 then 3 else 2, if j = 1 then 3 else 2, fun _ _ => 0⟩) = .ok (Y, T') ∧
    (Mat.hier 3 2 Y).zeroLower = .ok (.hier 3 2 R) ∧
    F.tiles.leftMulTiled 3 2 Y 3 2 T' 3 2 (fun i j => .dense ⟨if i = 1 then 3 else 2, if j = 1 then 3 else 2,
      fun r s => if i = j ∧ r = s then 1 else 0⟩) false = .ok Q := by
  obtain ⟨F, hF, -⟩ := C79_kernels_exist (ε := 1 / 10 ^ 6) (by norm_num)
  obtain ⟨Y, T', R, P, h1, h2, -, -, -, -, h3⟩ := C79_tiled (p := 3) (q := 2)
    (A := fun i j => .dense ⟨if i = 1 then 3 else 2, if j = 1 then 3 else 2,
      fun r s => 1 / ((i + 2 * j + r + 3 * s : Nat) + 1)⟩)
    (T := fun _ j => .dense ⟨if j = 1 then 3 else 2, if j = 1 then 3 else 2, fun _ _ => 0⟩)
    (h := fun i => if i = 1 then 3 else 2) (w := fun j => if j = 1 then 3 else 2) (hF 3) (by norm_num)
    (by norm_num) (fun i _ => by split <;> omega) (fun k _ => le_refl _)
    (fun i _ j _ => ⟨_, rfl, rfl, rfl⟩) (fun k _ i _ _ => ⟨_, rfl, rfl, rfl⟩)
  obtain ⟨D, -, h4, -⟩ := h3 (fun j => if j = 1 then 3 else 2)
    (fun i j => .dense ⟨if i = 1 then 3 else 2, if j = 1 then 3 else 2,
      fun r s => if i = j ∧ r = s then 1 else 0⟩)
    (fun i _ j _ => ⟨_, rfl, rfl, rfl⟩) (fun i _ j _ hji r _ s _ => if_neg (by omega))
  exact ⟨F, hF 3, Y, T', R, D, h1, h2, h4⟩

theorem frob_transpose (m n : Nat) (X : Nat → Nat → ℝ) : frob m n (fun i j => X j i) = frob n m X := by
  unfold frob
  rw [Finset.sum_comm]

theorem frob_rows {m n k : Nat} (h : k ≤ m) (X : Nat → Nat → ℝ) : frob k n X ≤ frob m n X := by
  unfold frob
  refine Real.sqrt_le_sqrt (Finset.sum_le_sum_of_subset_of_nonneg (Finset.range_subset_range.2 h) ?_)
  intro i _ _
  exact Finset.sum_nonneg (fun j _ => sq_nonneg _)

/-- A matrix close to columns of an orthogonal one has nearly orthonormal columns. -/
theorem gram_near {m n : Nat} (hnm : n ≤ m) {P Q : Nat → Nat → ℝ} (oP : Orthogonal m P) {a : ℝ}
    (h : frob m n (fun i j => Q i j - P i j) ≤ a) :
    frob n n (fun i j => ∑ l ∈ range m, Q l i * Q l j - if i = j then 1 else 0) ≤ 2 * a + a ^ 2 := by
  set E : Nat → Nat → ℝ := fun i j => Q i j - P i j with hE
  have e : ∀ i < n, ∀ j < n, (∑ l ∈ range m, Q l i * Q l j - if i = j then 1 else 0) =
      (mulSq m (fun i j => P j i) E i j + mulSq m (fun i j => P j i) E j i) + mulSq m (fun i j => E j i) E i j := by
    intro i hi j hj
    rw [← (oP i (by omega) j (by omega)).1]
    unfold mulSq
    rw [← Finset.sum_add_distrib, ← Finset.sum_add_distrib, ← Finset.sum_sub_distrib]
    refine Finset.sum_congr rfl (fun l _ => ?_)
    simp only [hE]
    ring
  have f1 : frob n n (mulSq m (fun i j => P j i) E) ≤ a :=
    le_trans (frob_rows hnm _) (le_trans (le_of_eq (frob_orth oP.flip)) h)
  have f2 : frob n n (fun i j => mulSq m (fun i j => P j i) E j i) ≤ a := by
    rw [frob_transpose n n]
    exact f1
  have f3 : frob n n (mulSq m (fun i j => E j i) E) ≤ a ^ 2 := by
    refine le_trans (frob_mul_le n m n _ _) ?_
    rw [frob_transpose n m, sq]
    exact mul_le_mul h h (frob_nonneg _ _ _) (le_trans (frob_nonneg _ _ _) h)
  rw [frob_congr e]
  have := frob_add n n (fun i j => mulSq m (fun i j => P j i) E i j + mulSq m (fun i j => P j i) E j i)
    (mulSq m (fun i j => E j i) E)
  have := frob_add n n (mulSq m (fun i j => P j i) E) (fun i j => mulSq m (fun i j => P j i) E j i)
  linarith

section
variable {F : FlQr} {nb : Nat} {ε : ℝ} {p q : Nat} {h w : Nat → Nat}

/-- C79: the columns of the computed `Q` are orthonormal up to `2 g √N + g^2 N`, `g = (1+ε)^c - 1`. -/
theorem C79_orthogonality (hF : F.Sound nb ε) (hε : 0 ≤ ε) (hqp : q ≤ p)
    (hnb : ∀ i < p, h i ≤ nb) (hsq : ∀ k < q, h k = w k) {A T C : Nat → Nat → Mat ℝ}
    (hA : DenseTiles p q h w A) (hT : TriangleTiles p q w T) (hC : DenseTiles p q h w C)
    (hI : ∀ i < psum h p, ∀ j < psum w q, (Mat.hier p q C).entry i j = if i = j then 1 else 0) :
    ∃ Y T' Q, F.tiles.tiledQr p q A p q T = .ok (Y, T') ∧
      F.tiles.leftMulTiled p q Y p q T' p q C false = .ok Q ∧
      (let g := (1 + ε) ^ tileCount p q - 1
       frob (psum w q) (psum w q) (fun i j =>
          ∑ l ∈ range (psum h p), (Mat.hier p q Q).entry l i * (Mat.hier p q Q).entry l j - if i = j then 1 else 0) ≤
        2 * (g * √(psum w q)) + (g * √(psum w q)) ^ 2) := by
  obtain ⟨Y, T', R, P, h1, h2, hR, hz, oP, h3, h4⟩ := C79_tiled hF hε hqp hnb (fun k hk => (hsq k hk).ge) hA hT
  obtain ⟨Q, E, h5, h6, hQ, hE, h7, h8⟩ := h4 w C hC (eye_upper hC hsq hI)
  have hN : psum w q ≤ psum h p := by
    rw [psum_eq_of hsq (le_refl q)]
    exact psum_mono _ hqp
  rw [frob_eye hN hI] at h7
  refine ⟨Y, T', Q, h1, h5, gram_near hN oP (le_trans (le_of_eq (frob_congr (fun i hi j hj => ?_))) h7)⟩
  congr 1
  unfold applyOrth
  rw [Finset.sum_eq_single j]
  · rw [hI j (by omega) j hj]; simp
  · intro b hb hne
    rw [hI b (Finset.mem_range.1 hb) j hj, if_neg hne, mul_zero]
  · intro hn; exact absurd (Finset.mem_range.2 (by omega)) hn
end
end Verif
