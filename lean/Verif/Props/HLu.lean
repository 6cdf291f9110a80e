import Verif.Model.HLu
import Verif.Lemmas.BuiltLu
import Verif.Props.Construct
import Verif.Props.Dispatch
import Verif.Props.DispatchTri
import Verif.Props.GemmTotal
import Verif.Props.MatBasic

/-
C53: constructing, factorizing and solving (examples/h_lu.cpp).
-/

namespace Verif
open Finset

variable {R : Type} {K : Type} [Field K] [LinearOrder K]

/-! ### uniqueness of the solution -/

/-- A matrix with strictly diagonally dominant columns has a trivial kernel. -/
theorem dominant_injective [Field R] [LinearOrder R] [IsStrictOrderedRing R] {n : Nat} {a : Nat → Nat → R}
    (hd : ∀ j < n, ∑ i ∈ (range n).erase j, |a i j| < |a j j|) {z : Nat → R}
    (hz : ∀ i < n, ∑ l ∈ range n, a i l * z l = 0) : ∀ j < n, z j = 0 := by
  by_contra hne
  push Not at hne
  obtain ⟨j, hj, hzj⟩ := hne
  have h1 : ∀ i ∈ range n, |a i i| * |z i| ≤ ∑ l ∈ (range n).erase i, |a i l| * |z l| := by
    intro i hi
    have e := hz i (mem_range.1 hi)
    rw [← Finset.add_sum_erase _ _ hi] at e
    have : a i i * z i = -∑ l ∈ (range n).erase i, a i l * z l := by linear_combination e
    rw [← abs_mul, this, abs_neg]
    refine (Finset.abs_sum_le_sum_abs _ _).trans (le_of_eq ?_)
    exact Finset.sum_congr rfl (fun l _ => abs_mul _ _)
  have h2 := Finset.sum_le_sum h1
  have h3 : ∑ i ∈ range n, ∑ l ∈ (range n).erase i, |a i l| * |z l| =
      ∑ l ∈ range n, (∑ i ∈ (range n).erase l, |a i l|) * |z l| := by
    simp only [Finset.sum_mul]
    rw [Finset.sum_comm' (t' := range n) (s' := fun l => (range n).erase l)]
    intro x y
    simp only [mem_erase, mem_range]
    constructor
    · rintro ⟨h1, h2, h3⟩; exact ⟨⟨fun h => h2 h.symm, h1⟩, h3⟩
    · rintro ⟨⟨h1, h2⟩, h3⟩; exact ⟨h2, fun h => h1 h.symm, h3⟩
  rw [h3] at h2
  refine absurd h2 (not_le.2 (Finset.sum_lt_sum (fun l hl => ?_) ⟨j, mem_range.2 hj, ?_⟩))
  · exact mul_le_mul_of_nonneg_right (hd l (mem_range.1 hl)).le (abs_nonneg _)
  · exact mul_lt_mul_of_pos_right (hd j hj) (abs_pos.2 hzj)

/-! ### structure of constructed matrices -/

/-- Problem sizes the factorization handles: either the size divides evenly down to
the leaves, or (with the weakest admissibility condition) any size. -/
def HLuSizes (a : Admis K) (N : Nat) (nleaf : Int) (b : Nat) : Prop :=
  (DiagNever a ∧ ∃ n0 L : Nat, N = n0 * b ^ L ∧ (n0 : Int) ≤ nleaf ∧ 1 ≤ L) ∨ a = .position 0

/-- C53: a square matrix constructed from a kernel has the structure that the
operations require: regular subdivisions, at most as many levels as the cluster tree,
and a diagonal that is refined at least as far as the blocks beside it. -/
theorem C53_structure [CommRing R] {k : KernelFn R} {f : Int → Int → R} (hk : ComputesEntries k f)
    {compress : Dense R → Except Err (LowRank R)} (hc : FittingCompressor compress)
    {fuel N : Nat} {nleaf : Int} (hl : 1 ≤ nleaf) {a : Admis K} {b : Nat} (hb : 2 ≤ b)
    (hN : HLuSizes a N nleaf b) {M : Mat R}
    (h : hierOfKernel fuel k compress N N nleaf a b b 0 0 = .ok M) :
    M.Regular b ∧ M.LuSolvable b ∧ M.depth ≤ fuel := by
  rw [hierOfKernel, except_bind_eq_ok] at h
  obtain ⟨tr, htr, hM⟩ := h
  obtain ⟨ch, rfl⟩ := build_root_node htr
  obtain ⟨r1, -, r3⟩ := ClusterTree.toMat_regular hc (kernelFill_dims hk) (by omega : 1 ≤ b)
    (Q := fun _ => True) (fun _ _ _ => trivial) htr rfl rfl hM
  refine ⟨r1, ?_, r3⟩
  rcases hN with ⟨hd, n0, L, e, h1, h2⟩ | rfl
  · have S := ClusterTree.sizeRule_uniform a (n0 := n0) (by omega) h1 h2 hb
    refine ClusterTree.built_lu hc (kernelFill_dims hk) (by omega : 1 ≤ b) hd S (by omega) htr hM rfl rfl rfl rfl
      rfl (fun _ => ?_) ⟨L, ?_⟩ <;> simp [ClusterTree.rootInfo, e]
  · exact ClusterTree.built_lu hc (kernelFill_dims hk) (by omega : 1 ≤ b)
      (ClusterTree.diagNever_position le_rfl) (ClusterTree.sizeRule_weak (root := N) hl b) (by omega) htr hM rfl rfl
      rfl rfl rfl (fun _ => rfl) trivial

/-! ### the program -/

section
variable [Field R] [LinearOrder R] [IsStrictOrderedRing R] [DecidableEq R] [Inhabited R]

/-- C53: the program recovers the vector it started from, if the constructed matrix
has strictly diagonally dominant columns and the low-rank operations lose nothing. -/
theorem C53_hlu_of_matrix {k : KernelFn R} {f : Int → Int → R} (hk : ComputesEntries k f)
    {compress : Dense R → Except Err (LowRank R)} (hc : FittingCompressor compress)
    {lu : Dense R → Dense R × Bool} (hlu : LuContract lu) (hnp : LuNoPivot lu)
    {o : LrOps R} (hf : o.Fits False) {Q : LowRank R → Prop} (hT : o.Total False Q) (hQ : Mat.OuterStable Q)
    (sz : Nat × Nat × Nat × Nat) {f0 N : Nat} {nleaf : Int} (hl : 1 ≤ nleaf) {a : Admis K} {b : Nat} (hb : 2 ≤ b)
    (hN : HLuSizes a N nleaf b) {M : Mat R}
    (hM : hierOfKernel f0 k compress N N nleaf a b b 0 0 = .ok M)
    (hMs : M.Square) (hMq : M.All Q) (hdom : M.ColDominant) (hex : M.AllDense ∨ o.Exact False)
    {D : Dense R} (hD : Dense.ofKernel k N N 0 0 = .ok D) (x : Nat → R)
    {fuel : Nat} (hfuel : 6 * f0 + 2 ≤ fuel) :
    ∃ r, hLu fuel k compress lu o sz N nleaf a b x = .ok r ∧
      (∃ d : Dense R, r.sol = .dense d ∧ d.rows = N ∧ d.cols = 1 ∧ ∀ i < N, d.val i 0 = x i) ∧
      r.comp.1 = Mat.sumSqDiff (.dense D) M ∧ r.err.1 = 0 := by
  obtain ⟨wf, m0, m1, -⟩ := C08_kernel_matrix hk hc (by omega : 1 ≤ b) (by omega : 1 ≤ b) hM
  obtain ⟨reg, hS, hdep⟩ := C53_structure hk hc hl hb hN hM
  have hne : M.NoEmpty := reg.sub.noEmpty
  have hA : hierOfKernel fuel k compress N N nleaf a b b 0 0 = .ok M := by
    rw [hierOfKernel, except_bind_eq_ok] at hM ⊢
    obtain ⟨tr, htr, hM⟩ := hM
    exact ⟨tr, ClusterTree.build_mono htr (by omega), hM⟩
  obtain ⟨dD0, dD1⟩ : D.rows = N ∧ D.cols = N := by
    rw [Dense.ofKernel, except_bind_eq_ok] at hD
    obtain ⟨mem, -, h⟩ := hD
    cases h
    exact ⟨rfl, rfl⟩
  set xd : Dense R := ⟨N, 1, fun i _ => x i⟩ with hxd
  set b0 : Dense R := ⟨N, 1, fun _ _ => 0⟩ with hb0
  obtain ⟨B, hB⟩ := C22_gemm_returns_partial hf (LrOps.total_false o False) hb (A := M) (B := .dense xd)
    (C := .dense b0) (α := 1) (β := 1) (ta := false) (tb := false) reg ⟨trivial, trivial, trivial⟩
    ⟨trivial, trivial, trivial⟩ trivial trivial (Mat.TransSafe_ff _ _) (fun h => h.elim) m0 m1 rfl
    (fuel := fuel) (by simp only [Mat.depth]; omega)
  obtain ⟨Bw, Bsh, Be⟩ := C21_gemm_untransposed hf fuel wf (B := .dense xd) (C := .dense b0) trivial trivial trivial hB
  obtain ⟨d, rfl⟩ : ∃ d, B = .dense d := by cases B <;> first | exact Bsh.elim | exact ⟨_, rfl⟩
  have d0 : d.rows = N := Bsh.1.symm
  have d1 : d.cols = 1 := Bsh.2.symm
  have de : ∀ i < N, d.val i 0 = ∑ l ∈ range N, M.entry i l * x l := by
    intro i hi
    have := ((Mat.entryIs_iff _ Bw i 0 _).1 (Be i hi 0 Nat.one_pos (Or.inl trivial))).2.2
    simp only [m1] at this
    rw [show d.val i 0 = (Mat.dense d).entry i 0 from rfl, ← this]
    simp [Mat.entry, hxd, hb0]
  have hSB : Mat.Solvable b .upper .left M (.dense d) := by
    cases M with
    | dense => trivial
    | hier => exact fun h => (nomatch h.2)
    | lowRank => exact hS.elim
    | empty => exact hS.elim
  obtain ⟨L, U, Y, X, h1, h2, h3, Xsh, x0, -, he⟩ := C31_solve_returns hf hT hQ hlu hnp hb reg hMs hMq hS hdom
    (B := .dense d) trivial trivial trivial trivial hSB (by rw [m0]; exact d0.symm)
    (hex.imp (fun h => ⟨h, fun _ _ _ _ => trivial⟩) id) (fuel := fuel) (by simp only [Mat.depth]; omega)
  obtain ⟨s, rfl⟩ : ∃ s, X = .dense s := by cases X <;> first | exact Xsh.elim | exact ⟨_, rfl⟩
  have s0 : s.rows = N := Xsh.1.symm.trans d0
  have s1 : s.cols = 1 := Xsh.2.symm.trans d1
  have sv : ∀ i < N, s.val i 0 = x i := by
    intro i hi
    refine sub_eq_zero.1 (dominant_injective (n := N) (a := M.entry) (z := fun i => s.val i 0 - x i) ?_ ?_ i hi)
    · intro j hj
      have := hdom j (by rw [m1]; exact hj)
      rwa [m0] at this
    · intro i hi
      have := he i (by show i < d.rows; omega) 0 (by show 0 < d.cols; omega)
      rw [m1] at this
      simp only [mul_sub, Finset.sum_sub_distrib]
      rw [← de i hi]
      exact sub_eq_zero.2 this
  obtain ⟨cp, hcp⟩ := Mat.collectDiffNorm_total fuel (.dense D) M trivial wf trivial hne trivial reg.even
    (dD0.trans m0.symm) (dD1.trans m1.symm) (by simp only [Mat.depth]; omega)
  obtain ⟨er, her⟩ := Mat.collectDiffNorm_total fuel (.dense xd) (.dense s) trivial trivial trivial trivial trivial
    trivial s0.symm s1.symm (by simp only [Mat.depth]; omega)
  have hz := (Mat.collectDiffNorm_correct fuel (.dense xd) (.dense s) trivial trivial er.1 er.2 her).2.1
  obtain ⟨mA, hmA⟩ := (C46_unary_nested M 0 sz.1 sz.2.1 sz.2.2.1 sz.2.2.2 true).2.2.2.2.1.2 hne
  refine ⟨⟨cp, D.rows * D.cols * 8 + sz.1, mA, .dense s, er⟩, ?_, ⟨s, rfl, s0, s1, sv⟩,
    (Mat.collectDiffNorm_correct fuel (.dense D) M trivial wf cp.1 cp.2 hcp).2.1, ?_⟩
  · unfold hLu
    have c1 : Mat.l2ErrorParts fuel (.dense D) M = .ok cp := by
      rw [← hcp]
      simp [Mat.l2ErrorParts, Mat.nRows, Mat.nCols, dD0, dD1, m0, m1, assertM]
    have c2 : Mat.l2ErrorParts fuel (.dense xd) (.dense s) = .ok er := by
      rw [← her]
      simp [Mat.l2ErrorParts, Mat.nRows, Mat.nCols, hxd, s0, s1, assertM]
    simp only [hD, hA, except_bind_ok]
    rw [← hxd, ← hb0]
    simp only [hB, c1, hmA, h1, h2, h3, c2, except_bind_ok, Mat.memUsage, if_true]
  · show er.1 = 0
    rw [hz, Mat.sumSqDiff]
    refine Finset.sum_eq_zero (fun i hi => Finset.sum_eq_zero (fun j hj => ?_))
    have hj0 : j = 0 := by
      have : j < 1 := mem_range.1 hj
      omega
    subst hj0
    show (xd.val i 0 - s.val i 0) * (xd.val i 0 - s.val i 0) = 0
    rw [sv i (mem_range.1 hi)]
    simp [hxd]

omit [Field R] [LinearOrder R] [IsStrictOrderedRing R] [DecidableEq R] [Inhabited R] in
theorem square_of_all {M : Mat R} (h : M.All LowRank.Square) : M.Square := by
  induction M with
  | dense => trivial
  | lowRank l => exact h
  | empty => trivial
  | hier p q A ih => exact fun i hi j hj => ih i j (h i hi j hj)

omit [LinearOrder R] [IsStrictOrderedRing R] [DecidableEq R] [Inhabited R] in
/-- The constructor returns for position-based admissibility if the sizes divide
evenly down to the leaves, or with two blocks per direction. -/
theorem hierOfKernel_returns {k : KernelFn R} (hk : ∀ mem m n stride rs cs, ∃ mem', k mem m n stride rs cs = .ok mem')
    {compress : Dense R → Except Err (LowRank R)} (hc : ∀ d, ∃ l, compress d = .ok l)
    {N b : Nat} {nleaf admis : Int} (hl : 1 ≤ nleaf) (hb : 2 ≤ b)
    (hN : (∃ n0 L : Nat, N = n0 * b ^ L ∧ (n0 : Int) ≤ nleaf ∧ 1 ≤ L) ∨ b = 2) :
    ∃ fuel M, hierOfKernel fuel k compress N N nleaf (Admis.position admis : Admis K) b b 0 0 = .ok M := by
  set t := ClusterTree.rootInfo ⟨0, N⟩ ⟨0, N⟩ b b nleaf with ht
  have hpow : N ≤ b ^ (N + 1) :=
    ((Nat.lt_pow_self hb).le).trans (Nat.pow_le_pow_right (by omega) (Nat.le_succ N))
  obtain ⟨tr, htr, -⟩ := ClusterTree.build_terminates (N + 1) true t b hb le_rfl le_rfl hl
    (by simpa [ht, ClusterTree.rootInfo] using hpow) (by simpa [ht, ClusterTree.rootInfo] using hpow)
    (fun _ => by omega)
  refine ⟨N + 1 + 1, ?_⟩
  obtain ⟨ch, rfl⟩ := build_root_node htr
  have hok : ClusterTree.SplitsOk (.node t ch) := by
    rcases hN with ⟨n0, L, e, h1, h2⟩ | rfl
    · exact ClusterTree.splitsOk_of_pow L htr (by show 1 ≤ b; omega) (by show 1 ≤ b; omega) n0 n0 (by omega) (by omega)
        (by simp [ht, ClusterTree.rootInfo, e, mul_comm]) (by simp [ht, ClusterTree.rootInfo, e, mul_comm])
        h1 h1 (fun _ => h2)
    · exact ClusterTree.splitsOk_of_le_two htr (by show 1 ≤ 2; omega) (by show 1 ≤ 2; omega) le_rfl le_rfl
        (by simp [ht, ClusterTree.rootInfo]) (by simp [ht, ClusterTree.rootInfo])
  have htil := (ClusterTree.tiling htr (by show 1 ≤ b; omega) (by show 1 ≤ b; omega)
    (by simp [ht, ClusterTree.rootInfo]) (by simp [ht, ClusterTree.rootInfo]) hok).2
  obtain ⟨M, hM⟩ := ClusterTree.toMat_total (a := (Admis.position admis : Admis K))
    (fill := kernelFill k) hc htr (by
      intro p s hp
      refine ⟨⟨_, rfl⟩, ?_⟩
      obtain ⟨h1, h2, -⟩ := htil p s hp
      obtain ⟨mem, hm⟩ := hk (fun _ => 0) s.info.rows.n.toNat s.info.cols.n.toNat s.info.cols.n.toNat
        s.info.rows.start s.info.cols.start
      simp only [kernelFill, h1, h2, and_self, if_true, Dense.ofKernel, hm, except_bind_ok]
      exact ⟨_, rfl⟩)
  exact ⟨M, by simp only [hierOfKernel, ← ht, htr, except_bind_ok, hM]⟩

/-- **C53**.  For a kernel whose matrix has strictly diagonally dominant columns, a
compressor and low-rank operations that lose nothing, and sizes that divide evenly down
to the leaves, or any size with two blocks per direction and the weakest admissibility
condition: the program returns, the reported compression error and solution error are
zero, and the computed solution is the vector it started from. -/
theorem C53_hlu {k : KernelFn R} {f : Int → Int → R} (hk : ComputesEntries k f)
    (hkr : ∀ mem m n stride rs cs, ∃ mem', k mem m n stride rs cs = .ok mem')
    {compress : Dense R → Except Err (LowRank R)} (hc : FittingCompressor compress) (hce : ExactCompressor compress)
    (hcr : ∀ d, ∃ l, compress d = .ok l) {Q : LowRank R → Prop}
    (hcq : ∀ d l, compress d = .ok l → l.Square ∧ Q l)
    {lu : Dense R → Dense R × Bool} (hlu : LuContract lu) (hnp : LuNoPivot lu)
    {o : LrOps R} (hf : o.Fits False) (hT : o.Total False Q) (hQ : Mat.OuterStable Q) (hex : o.Exact False)
    (sz : Nat × Nat × Nat × Nat) {N b : Nat} {nleaf admis : Int} (hl : 1 ≤ nleaf) (ha : 0 ≤ admis) (hb : 2 ≤ b)
    (hN : (∃ n0 L : Nat, N = n0 * b ^ L ∧ (n0 : Int) ≤ nleaf ∧ 1 ≤ L) ∨ (b = 2 ∧ admis = 0))
    (hdom : ∀ j < N, ∑ i ∈ (range N).erase j, |f i j| < |f j j|) (x : Nat → R) :
    ∃ F, ∀ fuel, F ≤ fuel → ∃ r,
      hLu fuel k compress lu o sz N nleaf (Admis.position admis : Admis K) b x = .ok r ∧
      (∃ d : Dense R, r.sol = .dense d ∧ d.rows = N ∧ d.cols = 1 ∧ ∀ i < N, d.val i 0 = x i) ∧
      r.comp.1 = 0 ∧ r.err.1 = 0 := by
  obtain ⟨f0, M, hM⟩ := hierOfKernel_returns (K := K) (admis := admis) hkr hcr hl hb (hN.imp id And.left)
  obtain ⟨wf, m0, m1, DM, hDM, e0, e1, -, eD⟩ := C08_kernel_matrix hk hc (by omega : 1 ≤ b) (by omega : 1 ≤ b) hM
  obtain ⟨DM', hDM', -, -, ev⟩ := Mat.toDense_ok M wf
  rw [hDM] at hDM'
  cases hDM'
  have ent : ∀ i < N, ∀ j < N, M.entry i j = f i j := by
    intro i hi j hj
    rw [← ev i (by omega) j (by omega), eD hce i hi j hj]
    simp
  obtain ⟨all1, all2⟩ : M.All LowRank.Square ∧ M.All Q := by
    have h := hM
    rw [hierOfKernel, except_bind_eq_ok] at h
    obtain ⟨tr, htr, h⟩ := h
    obtain ⟨ch, rfl⟩ := build_root_node htr
    exact ⟨(ClusterTree.toMat_regular hc (kernelFill_dims hk) (by omega : 1 ≤ b)
      (fun d l h => (hcq d l h).1) htr rfl rfl h).2.1,
      (ClusterTree.toMat_regular hc (kernelFill_dims hk) (by omega : 1 ≤ b)
      (fun d l h => (hcq d l h).2) htr rfl rfl h).2.1⟩
  have hdM : M.ColDominant := by
    intro j hj
    rw [m1] at hj
    rw [m0, ent j hj j hj]
    refine lt_of_eq_of_lt (Finset.sum_congr rfl (fun i hi => ?_)) (hdom j hj)
    rw [ent i (mem_range.1 (mem_of_mem_erase hi)) j hj]
  obtain ⟨mem, hmem⟩ := hkr (fun _ => 0) N N N 0 0
  have hD : Dense.ofKernel k N N 0 0 = .ok ⟨N, N, fun i j => mem (i * N + j)⟩ := by
    simp only [Dense.ofKernel, hmem, except_bind_ok]
  have hs : HLuSizes (Admis.position admis : Admis K) N nleaf b :=
    hN.imp (fun h => ⟨ClusterTree.diagNever_position ha, h⟩) (fun h => by rw [h.2])
  refine ⟨6 * f0 + 2, fun fuel hfuel => ?_⟩
  obtain ⟨r, h1, h2, h3, h4⟩ := C53_hlu_of_matrix hk hc hlu hnp hf hT hQ sz hl hb hs hM (square_of_all all1) all2
    hdM (Or.inr hex) hD x hfuel
  refine ⟨r, h1, h2, ?_, h4⟩
  rw [h3, Mat.sumSqDiff]
  refine Finset.sum_eq_zero (fun i hi => Finset.sum_eq_zero (fun j hj => ?_))
  have hi : i < N := mem_range.1 hi
  have hj : j < N := mem_range.1 hj
  show (mem (i * N + j) - M.entry i j) * (mem (i * N + j) - M.entry i j) = 0
  rw [ent i hi j hj, hk _ _ _ _ _ _ _ le_rfl hmem i hi j hj]
  simp

/-- C53, library operations of any kind, for matrices without compressed blocks. -/
theorem C53_hlu_library {k : KernelFn R} {f : Int → Int → R} (hk : ComputesEntries k f)
    {compress : Dense R → Except Err (LowRank R)} (hc : FittingCompressor compress)
    {lu : Dense R → Dense R × Bool} (hlu : LuContract lu) (hnp : LuNoPivot lu)
    (W : Lapack R) (mode : LraMode) (lfuel : Nat)
    (sz : Nat × Nat × Nat × Nat) {f0 N : Nat} {nleaf : Int} (hl : 1 ≤ nleaf) {a : Admis K} {b : Nat} (hb : 2 ≤ b)
    (hN : HLuSizes a N nleaf b) {M : Mat R}
    (hM : hierOfKernel f0 k compress N N nleaf a b b 0 0 = .ok M)
    (hMd : M.DenseLeaves) (hdom : M.ColDominant)
    {D : Dense R} (hD : Dense.ofKernel k N N 0 0 = .ok D) (x : Nat → R)
    {fuel : Nat} (hfuel : 6 * f0 + 2 ≤ fuel) :
    ∃ r, hLu fuel k compress lu (W.ops mode lfuel) sz N nleaf a b x = .ok r ∧
      (∃ d : Dense R, r.sol = .dense d ∧ d.rows = N ∧ d.cols = 1 ∧ ∀ i < N, d.val i 0 = x i) ∧
      r.err.1 = 0 := by
  obtain ⟨r, h1, h2, -, h4⟩ := C53_hlu_of_matrix hk hc hlu hnp (W.ops_fits mode lfuel) (LrOps.total_false _ _)
    outerStable_false sz hl hb hN hM hMd.square (hMd.all _) hdom
    (Or.inl (fun _ hi _ hj => hMd.denseAt hi hj (C53_structure hk hc hl hb hN hM).1.wf)) hD x hfuel
  exact ⟨r, h1, h2, h4⟩

end

/-! ### sizes the factorization does not handle -/

theorem childBlock_nested {a : Admis K} {fill : FillFn R} {compress : Dense R → Except Err (LowRank R)}
    {fuel : Nat} {t : NodeInfo} {c : ClusterTree} {X : Mat R} (hbu : ClusterTree.build fuel false t = .ok c)
    (h : ClusterTree.childBlock a fill compress c = .ok X) (ha : isAdmissible a t = .ok false)
    (hl : ClusterTree.isLeaf t = false) :
    ∃ (f : Nat) (ch : Nat → Nat → ClusterTree) (blk : Nat → Nat → Mat R), X = .hier t.br t.bc blk ∧ ∀ i < t.br, ∀ j < t.bc,
      ClusterTree.build f false (ClusterTree.childInfo t i j) = .ok (ch i j) ∧
      ClusterTree.childBlock a fill compress (ch i j) = .ok (blk i j) := by
  rcases ClusterTree.childBlock_cases hbu h with ⟨_, _, h', -⟩ | ⟨_, -, h', -⟩ | ⟨ch, -, -, rfl, hM⟩
  · rw [ha] at h'; cases h'
  · rw [hl] at h'; cases h'
  · obtain ⟨f, blk, -, e, hc⟩ := ClusterTree.toMat_level hbu hM
    exact ⟨f, ch, blk, e, hc⟩

theorem childBlock_dense {a : Admis K} {fill : FillFn R} {compress : Dense R → Except Err (LowRank R)}
    {fuel : Nat} {t : NodeInfo} {c : ClusterTree} {X : Mat R} (hbu : ClusterTree.build fuel false t = .ok c)
    (h : ClusterTree.childBlock a fill compress c = .ok X) (ha : isAdmissible a t = .ok false)
    (hl : ClusterTree.isLeaf t = true) : ∃ d, X = .dense d := by
  rcases ClusterTree.childBlock_cases hbu h with ⟨_, _, h', -⟩ | ⟨d, -, -, -, e⟩ | ⟨ch, -, h', -⟩
  · rw [ha] at h'; cases h'
  · exact ⟨d, e⟩
  · rw [hl] at h'; cases h'

/-- C53: ten unknowns, leaf size two, two blocks per direction, and blocks admissible
from distance two on: whatever the kernel, the compression and the low-rank kernels,
the program never returns.  The parts of sizes 3 and 2 leave a diagonal block of size
2 undivided although the block of size 2-by-3 beside it is divided. -/
theorem C53_uneven_never_returns [Field R] [DecidableEq R] [Inhabited R] {k : KernelFn R} {f : Int → Int → R}
    (hk : ComputesEntries k f) {compress : Dense R → Except Err (LowRank R)} (hc : FittingCompressor compress)
    (hcs : ∀ d l, compress d = .ok l → l.Square) (lu : Dense R → Dense R × Bool)
    (W : Lapack R) (mode : LraMode) (lfuel : Nat) (sz : Nat × Nat × Nat × Nat) (x : Nat → R) :
    NeverReturns (fun fuel => hLu fuel k compress lu (W.ops mode lfuel) sz 10 2 (Admis.position 1 : Admis K) 2 x) := by
  intro fuel r h
  simp only [hLu, except_bind_eq_ok] at h
  obtain ⟨-, -, M, hM, -, -, -, -, -, -, -, -, fac, hfac, -⟩ := h
  rw [hierOfKernel, except_bind_eq_ok] at hM
  obtain ⟨tr, htr, hM⟩ := hM
  obtain ⟨ch, rfl⟩ := build_root_node htr
  obtain ⟨R1, R2, -⟩ := ClusterTree.toMat_regular hc (kernelFill_dims hk) (by omega : 1 ≤ 2) hcs htr rfl rfl hM
  have K1 := C46_getrf_nested (W.ops_fits mode lfuel) R1.wf (square_of_all R2) hfac
  obtain ⟨_, blk, -, rfl, hb⟩ := ClusterTree.toMat_level htr hM
  obtain ⟨f1, c1, d1, e1, h1⟩ := childBlock_nested (hb 0 (by decide) 0 (by decide)).1
    (hb 0 (by decide) 0 (by decide)).2 rfl rfl
  obtain ⟨f2, c2, d2, e2, h2⟩ := childBlock_nested (hb 0 (by decide) 1 (by decide)).1
    (hb 0 (by decide) 1 (by decide)).2 rfl rfl
  obtain ⟨y, ey⟩ := childBlock_dense (h1 1 (by decide) 1 (by decide)).1 (h1 1 (by decide) 1 (by decide)).2 rfl rfl
  obtain ⟨_, _, z, ez, -⟩ := childBlock_nested (h2 1 (by decide) 0 (by decide)).1 (h2 1 (by decide) 0 (by decide)).2
    rfl rfl
  have K2 := (K1.2 0 (by decide)).2.2 1 (by decide) (by decide)
  rw [e1, e2] at K2
  have K3 := K2.2.2.2.2 1 (by decide) 0 (by decide)
  simp only [Side.pick] at K3
  rw [ey, ez] at K3
  exact K3

/-! ### concrete cases -/

/-- A kernel given by a function of the global indices. -/
def indexKernel (f : Int → Int → R) : KernelFn R := fun _ _ _ stride rs cs =>
  .ok (fun a => f (rs + (a / stride : Nat)) (cs + (a % stride : Nat)))

theorem indexKernel_computes (f : Int → Int → R) : ComputesEntries (indexKernel f) f := by
  intro mem m n stride rs cs mem' hn h i hi j hj
  cases h
  have e1 : (i * stride + j) / stride = i := by
    rw [Nat.mul_comm, Nat.mul_add_div (by omega), Nat.div_eq_of_lt (by omega), Nat.add_zero]
  have e2 : (i * stride + j) % stride = j := by
    rw [Nat.mul_comm, Nat.mul_add_mod, Nat.mod_eq_of_lt (by omega)]
  simp only [e1, e2]

/-- A diagonally dominant kernel matrix. -/
def domKernel : Int → Int → ℚ := fun i j => if i = j then 9 else 1 / (1 + |(i : ℚ) - j|)

/-- Eight unknowns, leaves of size 2, any admissibility. -/
example (admis : Int) (ha : 0 ≤ admis) (sz : Nat × Nat × Nat × Nat) (x : Nat → ℚ) :
    ∃ F, ∀ fuel, F ≤ fuel → ∃ r,
      hLu fuel (indexKernel domKernel) keepAll doolittle (exactOps ℚ) sz 8 2 (Admis.position admis : Admis ℚ) 2 x
        = .ok r ∧
      (∃ d : Dense ℚ, r.sol = .dense d ∧ d.rows = 8 ∧ d.cols = 1 ∧ ∀ i < 8, d.val i 0 = x i) ∧
      r.comp.1 = 0 ∧ r.err.1 = 0 :=
  C53_hlu (indexKernel_computes _) (fun _ _ _ _ _ _ => ⟨_, rfl⟩) keepAll_fitting keepAll_exact
    (fun _ => ⟨_, rfl⟩) (Q := LowRank.WF) (fun d l h => ⟨by cases h; rfl, (keepAll_fitting d l h).1⟩)
    doolittle_contract doolittle_noPivot exactOps_fits exactOps_total outerStable_wf exactOps_exact sz
    (by omega) ha le_rfl (Or.inl ⟨2, 2, rfl, by omega, by omega⟩) (by decide +kernel) x

/-- Seven unknowns, weakest admissibility. -/
example (sz : Nat × Nat × Nat × Nat) (x : Nat → ℚ) :
    ∃ F, ∀ fuel, F ≤ fuel → ∃ r,
      hLu fuel (indexKernel domKernel) keepAll doolittle (exactOps ℚ) sz 7 1 (Admis.position 0 : Admis ℚ) 2 x
        = .ok r ∧
      (∃ d : Dense ℚ, r.sol = .dense d ∧ d.rows = 7 ∧ d.cols = 1 ∧ ∀ i < 7, d.val i 0 = x i) ∧
      r.comp.1 = 0 ∧ r.err.1 = 0 :=
  C53_hlu (indexKernel_computes _) (fun _ _ _ _ _ _ => ⟨_, rfl⟩) keepAll_fitting keepAll_exact
    (fun _ => ⟨_, rfl⟩) (Q := LowRank.WF) (fun d l h => ⟨by cases h; rfl, (keepAll_fitting d l h).1⟩)
    doolittle_contract doolittle_noPivot exactOps_fits exactOps_total outerStable_wf exactOps_exact sz
    le_rfl le_rfl le_rfl (Or.inr ⟨rfl, rfl⟩) (by decide +kernel) x

/-- The size the program cannot handle. -/
example (W : Lapack ℚ) (mode : LraMode) (lfuel : Nat) (sz : Nat × Nat × Nat × Nat) (x : Nat → ℚ) :
    NeverReturns (fun fuel => hLu fuel (indexKernel domKernel) keepAll doolittle (W.ops mode lfuel) sz 10 2
      (Admis.position 1 : Admis ℚ) 2 x) :=
  C53_uneven_never_returns (indexKernel_computes _) keepAll_fitting (fun d l h => by cases h; rfl) _ W mode lfuel sz x

end Verif
