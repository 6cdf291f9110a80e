import Verif.Props.Compress
import Verif.Props.BlrQr
import Verif.Lemmas.Svd

/-
C61: the compression error printed by the block low-rank QR programs.
-/

namespace Verif
open Finset

section
variable {K : Type} [Field K] [LinearOrder K]

/-- The library's compression serves the programs as long as the tolerance is below `1 / sqrt b`. -/
theorem lowRankOfEps_blr {E : Geqp3Env} {x : ℝ} (hp : E.past = .ok x) (hE : E.Sound) (ht : 0 ≤ E.tol) (L : Lapack ℝ)
    {eps : ℝ} (he : 0 < eps) {b : Nat} (hb : 1 ≤ b) (hs : eps * eps * b < 1) :
    BlrCompressor LowRank.WithTolerance b (fun d => lowRankOfEps E L d eps) := by
  intro d d0 d1
  obtain ⟨l, hl⟩ := C61_returns E hp hE L (show 0 < d.rows by omega) he.le
  obtain ⟨Q, R, hf, hC, hg, -⟩ := lowRankOfEps_ok hE he.le hl
  obtain ⟨w, s, l0, l1, hr, e, -⟩ := Lapack.ofEps_ok hC
  have := C45_rank_positive hE ht (by omega) (by rw [d1]; exact hs) hf
  rw [hg] at hr
  simp only at hr
  exact ⟨l, hl, w, s, l0.trans d0, l1.trans d1, w, s, by rw [e]; exact he.ne', by omega, by omega, by omega⟩

/-- Tile by tile, the error of the compressed matrix. -/
theorem blr_error {E : Geqp3Env} (hE : E.Sound) (ht : 0 ≤ E.tol) {L : Lapack ℝ} (hL : L.Factors) {eps : ℝ} (he : 0 ≤ eps)
    {p q b : Nat} (hp : 0 < p) (hq : 0 < q) {f : Int → Int → ℝ} {D A : Nat → Nat → Mat ℝ} (tD : BlrTiles p q b D)
    (tA : BlrTiles p q b A)
    (eD : ∀ i < p, ∀ j < q, ∀ r < b, ∀ s < b, (D i j).entry r s = f (i * b + r : Nat) (j * b + s : Nat))
    (sA : ∀ i < p, ∀ j < q, ∃ d : Dense ℝ, d.rows = b ∧ d.cols = b ∧
        (∀ r < b, ∀ s < b, d.val r s = f (i * b + r : Nat) (j * b + s : Nat)) ∧
        ((∃ l, lowRankOfEps E L d eps = .ok l ∧ A i j = .lowRank l) ∨ A i j = .dense d)) :
    Mat.sumSq (.hier p q D) = ∑ x ∈ range (p * b), ∑ y ∈ range (q * b), f x y ^ 2 ∧
    Mat.sumSqDiff (.hier p q D) (.hier p q A) ≤ b * eps ^ 2 * Mat.sumSq (.hier p q D) +
      (p * b : Nat) * (q * b : Nat) * E.tol ^ 2 := by
  have e0 : ∀ n, psum (fun _ => b) n = n * b := fun n => by simp [psum]
  have entD := tD.entry hp hq (f := fun x y => f x y) eD
  have h1 : Mat.sumSq (.hier p q D) = ∑ x ∈ range (p * b), ∑ y ∈ range (q * b), f x y ^ 2 := by
    rw [Mat.sumSq, tD.rows hq, tD.cols hp]
    exact Finset.sum_congr rfl fun x hx => Finset.sum_congr rfl fun y hy => by
      rw [entD x (mem_range.1 hx) y (mem_range.1 hy), pow_two]
  refine ⟨h1, ?_⟩
  rw [h1, ← sum_budget (p * b) (q * b) (b * eps ^ 2) (E.tol ^ 2) (fun x y => f x y), Mat.sumSqDiff, tD.rows hq, tD.cols hp]
  rw [← e0 p, ← e0 q, Mat.sum_blocks2, Mat.sum_blocks2]
  refine Finset.sum_le_sum fun i hi => Finset.sum_le_sum fun j hj => ?_
  have hi := mem_range.1 hi
  have hj := mem_range.1 hj
  have aA : ∀ r < b, ∀ s < b, (Mat.hier p q A).entry (i * b + r) (j * b + s) = (A i j).entry r s := by
    intro r hr s hs
    have := Mat.entry_at (blk := A) (h := fun _ => b) (w := fun _ => b) (fun i hi => (tA.size i hi 0 hq).1)
      (fun j hj => (tA.size 0 hp j hj).2) hi hj hr hs
    rwa [e0, e0] at this
  have aD : ∀ r < b, ∀ s < b, (Mat.hier p q D).entry (i * b + r) (j * b + s) = f (i * b + r : Nat) (j * b + s : Nat) := by
    intro r hr s hs
    have := Mat.entry_at (blk := D) (h := fun _ => b) (w := fun _ => b) (fun i hi => (tD.size i hi 0 hq).1)
      (fun j hj => (tD.size 0 hp j hj).2) hi hj hr hs
    rw [e0, e0] at this
    rw [this, eD i hi j hj r hr s hs]
  obtain ⟨d, d0, d1, d2, h⟩ := sA i hi j hj
  simp only [e0]
  rcases h with ⟨l, hl, e⟩ | e
  · have := lowRankOfEps_sq hE hL he ht (le_of_eq d1) hl
    rw [d0, d1] at this
    refine le_trans (le_of_eq ?_) (this.trans (le_of_eq ?_))
    · exact Finset.sum_congr rfl fun r hr => Finset.sum_congr rfl fun s hs => by
        have hr := mem_range.1 hr
        have hs := mem_range.1 hs
        rw [aA r hr s hs, aD r hr s hs, e, d2 r hr s hs, pow_two, Mat.entry]
    · exact Finset.sum_congr rfl fun r hr => Finset.sum_congr rfl fun s hs => by
        rw [d2 r (mem_range.1 hr) s (mem_range.1 hs)]
  · refine Finset.sum_le_sum fun r hr => Finset.sum_le_sum fun s hs => ?_
    have hr := mem_range.1 hr
    have hs := mem_range.1 hs
    rw [aA r hr s hs, aD r hr s hs, e, ← d2 r hr s hs, Mat.entry, sub_self, mul_zero]
    positivity

variable {kn : QrKernels ℝ} {Q : LowRank ℝ → Prop} {o : LrOps ℝ} {k kid : KernelFn ℝ} {f : Int → Int → ℝ}
  {compressD : Dense ℝ → Except Err (LowRank ℝ)} {p q b : Nat} {a : Int} {E : Geqp3Env} {L : Lapack ℝ} {eps : ℝ}

/-- C61: the compression error printed by the blocked QR program: the sum of the squared entries
is that of the kernel matrix, and the sum of the squared errors is at most `b eps²` times it (`b` is
the tile size), up to machine precision. -/
theorem C61_blocked_program (hE : E.Sound) (ht : 0 ≤ E.tol) (hL : L.Factors) (he : 0 ≤ eps) (hK : QrContract kn)
    (h : BlrQrInput Q f k kid o (fun d => lowRankOfEps E L d eps) p q b a) {fuel : Nat} (hfu : 5 ≤ fuel)
    {r : BlrQrRun ℝ} (hr : blockedQrProgram (K := K) fuel k kid compressD (fun d => lowRankOfEps E L d eps) kn o
      (p * b) (q * b) b a = .ok r) :
    r.comp.2 = ∑ x ∈ range (p * b), ∑ y ∈ range (q * b), f x y ^ 2 ∧
    r.comp.1 ≤ b * eps ^ 2 * r.comp.2 + (p * b : Nat) * (q * b : Nat) * E.tol ^ 2 := by
  obtain ⟨D, A, _, _, _, _, _, _, _, hr', tD, eD, -, gA, -, sA, -⟩ :=
    blrQr_runs (K := K) (compressD := compressD) h.kernel h.ident
    h.kernelRet h.identRet h.compr h.fits h.total h.shape h.one_b h.one_q h.le (blocked_fac hK h hfu)
    (mul := fun p q Y T C trans => Mat.leftMulBlocked o fuel p q Y q 1 T p q C trans)
    (fac := fun p q A => Mat.blockedQr kn o fuel p q A q 1 (fun _ _ => .empty 0 0)) h.admis hfu
  have := hr.symm.trans hr'
  cases Except.ok.inj this
  refine blr_error hE ht hL he (by have := h.one_q; have := h.le; omega) h.one_q tD (BlrTiles.of_grid gA) eD
    fun i hi j hj => ?_
  obtain ⟨d, d0, d1, d2, ⟨-, -, h⟩ | h⟩ := sA i hi j hj
  · exact ⟨d, d0, d1, d2, Or.inl h⟩
  · exact ⟨d, d0, d1, d2, Or.inr h⟩

/-- C61: the same for the tiled QR program. -/
theorem C61_tiled_program (hE : E.Sound) (ht : 0 ≤ E.tol) (hL : L.Factors) (he : 0 ≤ eps)
    (h : BlrQrInput Q f k kid o (fun d => lowRankOfEps E L d eps) p q b a) {fuel : Nat} (hfu : 5 ≤ fuel)
    {r : BlrQrRun ℝ} (hr : tiledQrProgram (K := K) fuel k kid compressD (fun d => lowRankOfEps E L d eps) kn o
      (p * b) (q * b) b a = .ok r) :
    r.comp.2 = ∑ x ∈ range (p * b), ∑ y ∈ range (q * b), f x y ^ 2 ∧
    r.comp.1 ≤ b * eps ^ 2 * r.comp.2 + (p * b : Nat) * (q * b : Nat) * E.tol ^ 2 := by
  obtain ⟨D, A, _, _, _, _, _, _, _, hr', tD, eD, -, gA, -, sA, -⟩ :=
    blrQr_runs (K := K) (compressD := compressD) h.kernel h.ident
    h.kernelRet h.identRet h.compr h.fits h.total h.shape h.one_b h.one_q h.le (tiled_fac (kn := kn) h hfu)
    (mul := fun p q Y T C trans => Mat.leftMulTiled o fuel p q Y p q T p q C trans)
    (fac := fun p q A => Mat.tiledQr kn o fuel p q A p q
      (fun i j => .dense ⟨if i < j then 0 else b, if i < j then 0 else b, fun _ _ => 0⟩)) h.admis hfu
  have := hr.symm.trans hr'
  cases Except.ok.inj this
  refine blr_error hE ht hL he (by have := h.one_q; have := h.le; omega) h.one_q tD (BlrTiles.of_grid gA) eD
    fun i hi j hj => ?_
  obtain ⟨d, d0, d1, d2, ⟨-, -, h⟩ | h⟩ := sA i hi j hj
  · exact ⟨d, d0, d1, d2, Or.inl h⟩
  · exact ⟨d, d0, d1, d2, Or.inr h⟩

/-- The input of the programs with the library's own kernel and compression. -/
theorem library_input {x : ℝ} (hpast : E.past = .ok x) (hE : E.Sound) (ht : 0 ≤ E.tol) (hL : L.Ranks)
    {mode : LraMode} (hm : mode ≠ .naive) (hb : 1 ≤ b) (hq : 1 ≤ q) (hp : q ≤ p) (he : 0 < eps)
    (hs : eps * eps * b < 1) (ha : 0 ≤ a) (fuel : Nat) :
    BlrQrInput LowRank.WithTolerance (gridLaplace (p * b))
      (Builtin.laplacend.kernel [equallySpacedVector (p * b) 0 1, equallySpacedVector (p * b) 0 1])
      (Builtin.identity.kernel []) (L.ops mode fuel) (fun d => lowRankOfEps E L d eps) p q b a :=
  ⟨C10_computes_entries _ _, laplace_returns (Nat.mul_le_mul_right b hp), identity_computes,
    identity_returns _ _, L.ops_fits mode fuel, Lapack.ops_total_false hL hm fuel, shapeOnly_tolerance,
    Or.inl (lowRankOfEps_blr hpast hE ht L he hb hs), hb, hq, hp, ha⟩

end

/-! ### the hypotheses can be met -/

section Examples

/-- Routines that meet all the contracts. -/
theorem Lapack.exists_ranked : ∃ L : Lapack ℝ, L.Factors ∧ L.Ortho ∧ L.Ranks := by
  obtain ⟨L, hF, hO, -, hT⟩ := Lapack.exists_contract
  refine ⟨{ L with geqp3 := fun A e => (max 1 (L.geqp3 A e).1, (L.geqp3 A e).2) }, ⟨hF.qr, hF.rq, hF.svd⟩,
    ⟨hO.qr, hO.rq, hO.svdU, hO.svdV⟩, ⟨fun S e h => ?_, fun _ _ => le_max_left _ _⟩⟩
  have := hT S e
  rw [findSvdTruncationRank] at this
  obtain ⟨k, hk, h1, h2, -⟩ := truncLoop_ok S (e * Real.sqrt (Mat.normDense S)) (min S.rows S.cols)
    (min S.rows S.cols + 1) 0 (by omega) (by omega)
  rw [hk] at this
  cases Except.ok.inj this
  simp only
  omega

/-- The default arguments of the programs: 256 by 128, tiles of order 32, tolerance 1e-6, machine
precision 2^-53.  The printed error is at most `6e-6`, up to `3e-14 / ‖A‖`. -/
example : ∃ (E : Geqp3Env) (L : Lapack ℝ) (kn : QrKernels ℝ) (r s : BlrQrRun ℝ),
    blockedQrProgram (K := ℝ) 5
      (Builtin.laplacend.kernel [equallySpacedVector 256 0 1, equallySpacedVector 256 0 1])
      (Builtin.identity.kernel []) (fun d => L.ofRank d 32) (fun d => lowRankOfEps E L d (1 / 10 ^ 6)) kn (L.ops .rounded 5)
      256 128 32 0 = .ok r ∧
    tiledQrProgram (K := ℝ) 5
      (Builtin.laplacend.kernel [equallySpacedVector 256 0 1, equallySpacedVector 256 0 1])
      (Builtin.identity.kernel []) (fun d => L.ofRank d 32) (fun d => lowRankOfEps E L d (1 / 10 ^ 6)) kn (L.ops .rounded 5)
      256 128 32 0 = .ok s ∧
    r.comp.1 ≤ 32 * (1 / 10 ^ 6) ^ 2 * r.comp.2 + 256 * 128 * (1 / 2 ^ 53) ^ 2 ∧
    s.comp.1 ≤ 32 * (1 / 10 ^ 6) ^ 2 * s.comp.2 + 256 * 128 * (1 / 2 ^ 53) ^ 2 := by
  obtain ⟨E, hE, ht, hp⟩ := Geqp3Env.exists_sound (1 / 2 ^ 53) (.ok 0)
  obtain ⟨L, hF, -, hL⟩ := Lapack.exists_ranked
  obtain ⟨kn, hK⟩ := QrKernels.exists_contract
  have ht0 : 0 ≤ E.tol := by rw [ht]; positivity
  have h := library_input (p := 8) (q := 4) (b := 32) (a := 0) (eps := 1 / 10 ^ 6) hp hE ht0 hL (mode := .rounded)
    (by simp) (by omega) (by omega) (by omega) (by positivity) (by norm_num) le_rfl 5
  obtain ⟨r, hr⟩ := C54_blocked_program_returns (K := ℝ) (compressD := fun d => L.ofRank d 32) hK h le_rfl
  obtain ⟨s, hs⟩ := C54_tiled_program_returns (K := ℝ) (kn := kn) (compressD := fun d => L.ofRank d 32) h le_rfl
  have h1 := (C61_blocked_program hE ht0 hF (by positivity) hK h le_rfl hr).2
  have h2 := (C61_tiled_program hE ht0 hF (by positivity) h le_rfl hs).2
  rw [ht] at h1 h2
  exact ⟨E, L, kn, r, s, hr, hs, by exact_mod_cast h1, by exact_mod_cast h2⟩

/-- A kernel matrix to which `C61_kernel` and `C61_l2_error` apply: any function, 3-by-2 tiles of order 4. -/
example (f : Int → Int → ℝ) : ∃ (E : Geqp3Env) (L : Lapack ℝ) (M : Mat ℝ) (A : Dense ℝ) (e : ℝ), E.Sound ∧ 0 ≤ E.tol ∧
    L.Factors ∧ Dense.ofKernel (indexKernel f) 12 8 0 0 = .ok A ∧
    hierOfKernel 2 (indexKernel f) (fun d => lowRankOfEps E L d (1 / 100)) 12 8 4 (Admis.position 0 : Admis ℝ) 3 2 0 0 =
      .ok M ∧ l2Error (1 / 2 ^ 52) 5 (.dense A) M = .ok e := by
  obtain ⟨E, hE, ht, hp⟩ := Geqp3Env.exists_sound (1 / 2 ^ 53) (.ok 0)
  obtain ⟨L, hF, -, -⟩ := Lapack.exists_ranked
  have ht0 : 0 ≤ E.tol := by rw [ht]; positivity
  have he : (0 : ℝ) ≤ 1 / 100 := by positivity
  have hc : ∀ d : Dense ℝ, d.rows = 4 → ∃ l, lowRankOfEps E L d (1 / 100) = .ok l := fun d h =>
    C61_returns E hp hE L (by omega) he
  obtain ⟨A, hA, sA⟩ := blr_structure (K := ℝ) (p := 3) (q := 2) (b := 4) (indexKernel_computes f)
    (fun _ _ _ _ _ _ _ _ => ⟨_, rfl⟩) 0 (fun _ _ _ _ _ _ d h _ => hc d h) (fuel := 2) le_rfl
  have tA : BlrTiles 3 2 4 A := by
    refine ⟨fun i hi j hj => ?_, fun i hi j hj => ?_⟩ <;> obtain ⟨d, d0, d1, -, ⟨-, -, l, hl, e⟩ | ⟨-, e⟩⟩ := sA i hi j hj
    · obtain ⟨-, l0, l1⟩ := lowRankOfEps_fits hE he d l hl
      rw [e]
      exact ⟨l0.trans d0, l1.trans d1⟩
    · rw [e]
      exact ⟨d0, d1⟩
    · rw [e]
      exact ⟨(lowRankOfEps_fits hE he d l hl).1, trivial⟩
    · rw [e]
      exact ⟨trivial, trivial⟩
  obtain ⟨D, hD, d0, d1⟩ : ∃ D, Dense.ofKernel (indexKernel f) 12 8 0 0 = .ok D ∧ D.rows = 12 ∧ D.cols = 8 :=
    ⟨_, rfl, rfl, rfl⟩
  have l1 := l2ErrorParts_run (fuel := 5) (A := .dense D) (B := .hier 3 2 A) trivial (tA.wf (by omega) (by omega)) trivial
    tA.noEmpty trivial (tA.even (by omega) (by omega)) (d0.trans (tA.rows (by omega)).symm)
    (d1.trans (tA.cols (by omega)).symm) (by simp [Mat.depth]) tA.depth le_rfl
  exact ⟨E, L, _, D, _, hE, ht0, hF, hD, hA, by rw [l2Error, l1]; rfl⟩

/-- `C61_sharp` for 100 columns: with tolerance 0.1 all is lost. -/
example : ∃ (E : Geqp3Env) (L : Lapack ℝ) (C : LowRank ℝ),
    lowRankOfEps E L ⟨50, 100, fun _ _ => 1⟩ (1 / 10) = .ok C ∧ C.rank = 0 := by
  obtain ⟨E, -, ht, -⟩ := Geqp3Env.exists_sound (1 / 2 ^ 53) (.ok 0)
  obtain ⟨L, -⟩ := Lapack.exists_ranked
  have h10 : Real.sqrt ((100 : Nat) : ℝ) = 10 := by
    rw [show ((100 : Nat) : ℝ) = 10 ^ 2 by norm_num, Real.sqrt_sq (by norm_num)]
  obtain ⟨C, hC, hr, -⟩ := C61_sharp E L (m := 50) (n := 100) (by omega) (by
    rw [ht]
    refine lt_of_lt_of_le (b := 1) (by norm_num) ?_
    rw [Real.one_le_sqrt]
    norm_num)
  rw [h10] at hC
  exact ⟨E, L, C, hC, hr⟩

end Examples
end Verif
