import Verif.Lemmas.Storage
import Verif.Props.LrAdd
import Verif.Props.HLu
import Verif.Lemmas.FitOps
import Mathlib.Data.Nat.Log

/-
C72: storage of hierarchical matrices.
-/

namespace Verif
open Finset

variable {R : Type} {K : Type} [Field K] [LinearOrder K]

/-- The compressor returns factors of the dimensions of its argument, of at most the
given rank and not of a larger one than the argument can have. -/
def RankBounded (r : Nat) (compress : Dense R → Except Err (LowRank R)) : Prop :=
  ∀ d l, compress d = .ok l → l.dim0 = d.rows ∧ l.dim1 = d.cols ∧ l.rank ≤ r ∧
    l.rank ≤ d.rows ∧ l.rank ≤ d.cols

theorem storage_root {adm : Int} (ha : 0 ≤ adm) {fill : FillFn R}
    {compress : Dense R → Except Err (LowRank R)} {r : Nat} (hr : 1 ≤ r)
    (hfill : ∀ rows cols d, fill rows cols = .ok d → (d.rows : Int) = rows.n ∧ (d.cols : Int) = cols.n)
    (hcomp : RankBounded r compress) {b nl L : Nat} (hb : 1 ≤ b) (hl : 1 ≤ nl) (hL : 1 ≤ L) {fuel m n : Nat}
    {rs cs : Int} {tr : ClusterTree} {M : Mat R}
    (h0 : m ≤ nl * b ^ L) (h1 : n ≤ nl * b ^ L)
    (ht : ClusterTree.build fuel true (ClusterTree.rootInfo ⟨rs, m⟩ ⟨cs, n⟩ b b nl) = .ok tr)
    (hM : tr.toMat (Admis.position adm : Admis K) fill compress = .ok M) :
    2 * storedElements M ≤ L * (2 * adm.toNat + 1) * (2 * nl * m + 3 * b * r * (m + n)) := by
  obtain ⟨ch, rfl⟩ := build_root_node ht
  obtain ⟨-, -, f, rfl, -⟩ := ClusterTree.build_node ht
  obtain ⟨p1, p2, blk, rfl, hch⟩ := ClusterTree.toMat_children hfill ht hb hb hM
  obtain ⟨H, rfl⟩ : ∃ H, L = H + 1 := ⟨L - 1, by omega⟩
  set t := ClusterTree.rootInfo ⟨rs, m⟩ ⟨cs, n⟩ b b nl with htd
  have g0 : (m : Int) ≤ nl * (b : Int) ^ H * b := by
    rw [mul_assoc, ← pow_succ]; exact_mod_cast h0
  have g1 : (n : Int) ≤ nl * (b : Int) ^ H * b := by
    rw [mul_assoc, ← pow_succ]; exact_mod_cast h1
  have S := ClusterTree.near_sum (adm := adm) (nl := nl) (r := r) H (t := t) (b := b) rfl rfl p1 p2
    (s := fun k l => storedElements (blk k l)) (fun k hk l hl' => by
      by_cases hk' : Near adm (ClusterTree.childInfo t k l).absRow (ClusterTree.childInfo t k l).absCol
      · exact le_trans ((hch k hk l hl').near hr hfill hcomp hb hl H rfl rfl rfl
          (ClusterTree.splitChild_le hb p1.1 g0 k) (ClusterTree.splitChild_le hb p2.1 g1 l) hk')
          (Nat.le_add_left _ _)
      · exact le_trans ((hch k hk l hl').far hr hfill hcomp hb hb hk') (Nat.le_add_right _ _))
  rw [show storedElements (Mat.hier t.br t.bc blk) = ∑ k ∈ range b, ∑ l ∈ range b, storedElements (blk k l)
    from rfl]
  refine S.trans ?_
  have R0 : ∀ h, nearRows adm b h t ≤ (2 * adm.toNat + 1) * m := fun h => nearRows_le ha h t rfl rfl
  have C0 : ∀ h, nearCols adm b h t ≤ (2 * adm.toNat + 1) * n := fun h => nearCols_le ha h t rfl rfl
  have er : t.rows.n.toNat = m := rfl
  have ec : t.cols.n.toNat = n := rfl
  rw [er, ec]
  have s1 : ∑ h ∈ range (H + 1), 2 * nl * nearRows adm b (h + 1) t ≤
      (H + 1) * (2 * nl * ((2 * adm.toNat + 1) * m)) := by
    refine (sum_le_sum fun h _ => Nat.mul_le_mul_left _ (R0 (h + 1))).trans ?_
    simp
  have s2 : ∑ h ∈ range H, 3 * b * r * (nearRows adm b (h + 1) t + nearCols adm b (h + 1) t) ≤
      H * (3 * b * r * ((2 * adm.toNat + 1) * m + (2 * adm.toNat + 1) * n)) := by
    refine (sum_le_sum fun h _ => Nat.mul_le_mul_left _ (Nat.add_le_add (R0 (h + 1)) (C0 (h + 1)))).trans ?_
    simp
  have s3 : 3 * b * r * (m + n) ≤ 3 * b * r * ((2 * adm.toNat + 1) * m + (2 * adm.toNat + 1) * n) := by
    refine Nat.mul_le_mul_left _ ?_
    nlinarith [Nat.zero_le (adm.toNat * m), Nat.zero_le (adm.toNat * n)]
  calc _ ≤ 3 * b * r * ((2 * adm.toNat + 1) * m + (2 * adm.toNat + 1) * n) +
        ((H + 1) * (2 * nl * ((2 * adm.toNat + 1) * m)) +
        H * (3 * b * r * ((2 * adm.toNat + 1) * m + (2 * adm.toNat + 1) * n))) := by omega
    _ = _ := by ring

/-- C72.  A matrix built from a kernel with position-based admissibility constant
`adm`, at most `b` times `b` blocks per level, leaf size `nleaf` and low-rank blocks
of rank at most `r` stores at most
`L * (2 * adm + 1) * (nleaf * m + 3/2 * b * r * (m + n))` numbers, where `L` is the
number of levels: any number with `m, n ≤ nleaf * b^L`. -/
theorem C72_storage [Zero R] {k : KernelFn R} {f : Int → Int → R} (hk : ComputesEntries k f)
    {compress : Dense R → Except Err (LowRank R)} {r : Nat} (hr : 1 ≤ r) (hc : RankBounded r compress)
    {fuel m n nleaf b L : Nat} {adm : Int} (ha : 0 ≤ adm) (hb : 1 ≤ b) (hl : 1 ≤ nleaf) (hL : 1 ≤ L)
    (h0 : m ≤ nleaf * b ^ L) (h1 : n ≤ nleaf * b ^ L) {rs cs : Int} {M : Mat R}
    (h : hierOfKernel fuel k compress m n nleaf (Admis.position adm : Admis K) b b rs cs = .ok M) :
    2 * storedElements M ≤ L * (2 * adm.toNat + 1) * (2 * nleaf * m + 3 * b * r * (m + n)) := by
  rw [hierOfKernel, except_bind_eq_ok] at h
  obtain ⟨tr, ht, hM⟩ := h
  exact storage_root ha hr (kernelFill_dims hk) hc hb hl hL h0 h1 ht hM

/-- C72, square matrices: the number of stored numbers is at most proportional to
`N * log N`. -/
theorem C72_storage_square [Zero R] {k : KernelFn R} {f : Int → Int → R} (hk : ComputesEntries k f)
    {compress : Dense R → Except Err (LowRank R)} {r : Nat} (hr : 1 ≤ r) (hc : RankBounded r compress)
    {fuel N nleaf b : Nat} {adm : Int} (ha : 0 ≤ adm) (hb : 2 ≤ b) (hl : 1 ≤ nleaf) {st : Int} {M : Mat R}
    (h : hierOfKernel fuel k compress N N nleaf (Admis.position adm : Admis K) b b st st = .ok M) :
    storedElements M ≤
      max 1 (Nat.clog b ((N + nleaf - 1) / nleaf)) * (2 * adm.toNat + 1) * (nleaf + 3 * b * r) * N := by
  set L := max 1 (Nat.clog b ((N + nleaf - 1) / nleaf)) with hLd
  have hN : N ≤ nleaf * b ^ L := by
    have e1 : (N + nleaf - 1) / nleaf ≤ b ^ L :=
      (Nat.le_pow_clog (by omega) _).trans (Nat.pow_le_pow_right (by omega) (le_max_right _ _))
    have e2 := Nat.lt_mul_div_succ (N + nleaf - 1) (show 0 < nleaf by omega)
    have e3 := Nat.mul_le_mul_left nleaf e1
    rw [Nat.mul_add] at e2
    omega
  have := C72_storage hk hr hc ha (by omega) hl (le_max_left _ _) hN hN h
  have e : L * (2 * adm.toNat + 1) * (2 * nleaf * N + 3 * b * r * (N + N)) =
    2 * (L * (2 * adm.toNat + 1) * (nleaf + 3 * b * r) * N) := by ring
  rw [e] at this
  omega

/-- C72, matrices built from a dense matrix. -/
theorem C72_storage_dense [Inhabited R] {A : Dense R}
    {compress : Dense R → Except Err (LowRank R)} {r : Nat} (hr : 1 ≤ r) (hc : RankBounded r compress)
    {fuel nleaf b L : Nat} {adm : Int} (ha : 0 ≤ adm) (hb : 1 ≤ b) (hl : 1 ≤ nleaf) (hL : 1 ≤ L)
    (h0 : A.rows ≤ nleaf * b ^ L) (h1 : A.cols ≤ nleaf * b ^ L) {rs cs : Int} {M : Mat R}
    (h : hierOfDense fuel A compress nleaf (Admis.position adm : Admis K) b b rs cs = .ok M) :
    2 * storedElements M ≤
      L * (2 * adm.toNat + 1) * (2 * nleaf * A.rows + 3 * b * r * (A.rows + A.cols)) := by
  rw [hierOfDense, except_bind_eq_ok] at h
  obtain ⟨tr, ht, hM⟩ := h
  exact storage_root ha hr blockFill_dims hc hb hl hL h0 h1 ht hM

/-- The library's fixed-rank compression is of this kind. -/
theorem ofRank_bounded [CommRing R] (L : Lapack R) (r : Nat) : RankBounded r (fun d => L.ofRank d r) := by
  intro d l h
  obtain ⟨-, -, h1, h2, h3⟩ := (C44_low_rank_from_dense L d r).2 l h
  have := (C44_low_rank_from_dense L d r).1.1 ⟨l, h⟩
  exact ⟨h1, h2, by omega, by omega, by omega⟩

/-- C72: what `get_memory_usage` reports for such a matrix, with the library's
fixed-rank compression: at most 8 bytes times this number. -/
theorem C72_memory [CommRing R] (L : Lapack R) {k : KernelFn R} {f : Int → Int → R} (hk : ComputesEntries k f)
    {r : Nat} (hr : 1 ≤ r) {fuel N nleaf b : Nat} {adm : Int} (ha : 0 ≤ adm) (hb : 2 ≤ b) (hl : 1 ≤ nleaf)
    {st : Int} {M : Mat R}
    (h : hierOfKernel fuel k (fun d => L.ofRank d r) N N nleaf (Admis.position adm : Admis K) b b st st = .ok M)
    {szD szL szH szP : Nat} (hsz : szD ≤ szL) :
    ∃ bytes, M.memUsage szD szL szH szP false = .ok bytes ∧
      bytes ≤ 8 * (max 1 (Nat.clog b ((N + nleaf - 1) / nleaf)) * (2 * adm.toNat + 1) *
        (nleaf + 3 * b * r) * N) := by
  have S := C72_storage_square hk hr (ofRank_bounded L r) ha hb hl h
  rw [hierOfKernel, except_bind_eq_ok] at h
  obtain ⟨tr, htr, hM⟩ := h
  have sq := Mat.toMat_square (fun d l hl => ((C44_low_rank_from_dense L d r).2 l hl).2.1) tr hM
  obtain ⟨ch, rfl⟩ := build_root_node htr
  obtain ⟨wf, ne, -⟩ := ClusterTree.toMat_spec (fun d l hl => by
    have := (C44_low_rank_from_dense L d r).2 l hl
    exact ⟨this.1, this.2.2.1, this.2.2.2.1⟩) (kernelFill_dims hk) htr
    (by simp only [ClusterTree.rootInfo]; omega) (by simp only [ClusterTree.rootInfo]; omega) hM
  refine ⟨_, C48_memory szD szL szH szP hsz false M wf sq ne, ?_⟩
  simp only [Bool.false_eq_true, if_false, add_zero]
  exact Nat.mul_le_mul_left 8 S

/-! ### example -/

/-- A compressor of rank one: all rows are taken to be the first one. -/
def firstRow (d : Dense ℤ) : Except Err (LowRank ℤ) :=
  .ok ⟨d.rows, d.cols, min 1 (min d.rows d.cols), 0, ⟨d.rows, min 1 (min d.rows d.cols), fun _ _ => 1⟩,
    ⟨min 1 (min d.rows d.cols), min 1 (min d.rows d.cols), fun _ _ => 1⟩,
    ⟨min 1 (min d.rows d.cols), d.cols, fun _ j => d.val 0 j⟩⟩

/-- C72: a matrix of order 4096 with low-rank blocks of rank one is built and stores
about a tenth of the 16777216 numbers of the dense matrix. -/
example (f : Int → Int → ℤ) : ∃ fuel M,
    hierOfKernel fuel (indexKernel f) firstRow 4096 4096 64 (Admis.position 0 : Admis ℚ) 2 2 0 0 = .ok M ∧
    storedElements M ≤ 1720320 := by
  obtain ⟨fuel, M, h⟩ := C08_kernel_matrix_succeeds (K := ℚ) (k := indexKernel f)
    (fun _ _ _ _ _ _ => ⟨_, rfl⟩) (compress := firstRow) (fun _ => ⟨_, rfl⟩) 4096 4096 64 (by norm_num) 0 0 0
  refine ⟨fuel, M, h, ?_⟩
  have := C72_storage (indexKernel_computes f) (r := 1) le_rfl (fun d l hl => by
    cases hl
    exact ⟨rfl, rfl, by simp only; omega, by simp only; omega, by simp only; omega⟩) (nleaf := 64) (L := 6) le_rfl
    (by norm_num) (by norm_num) (by norm_num) (by norm_num) (by norm_num) h
  norm_num at this
  omega

end Verif
