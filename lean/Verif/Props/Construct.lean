import Verif.Lemmas.Construct
import Verif.Lemmas.MatOps
import Verif.Model.Kernels

/-
C06, C08, C09, C10: construction from kernels and dense matrices.
-/

namespace Verif
open Finset
variable {R : Type}

/-! ### vocabulary -/

/-- The kernel writes, into every block it is asked for, the numbers `f` at the
global indices of the block. -/
def ComputesEntries (k : KernelFn R) (f : Int → Int → R) : Prop :=
  ∀ mem m n stride rs cs mem', n ≤ stride → k mem m n stride rs cs = .ok mem' →
    ∀ i < m, ∀ j < n, mem' (i * stride + j) = f (rs + i) (cs + j)

/-- The compressor returns factors that fit together and to the matrix. -/
def FittingCompressor (compress : Dense R → Except Err (LowRank R)) : Prop :=
  ∀ d l, compress d = .ok l → l.WF ∧ l.dim0 = d.rows ∧ l.dim1 = d.cols

/-- The compressor reproduces its input. -/
def ExactCompressor [CommRing R] (compress : Dense R → Except Err (LowRank R)) : Prop :=
  ∀ d l, compress d = .ok l → ∀ i < d.rows, ∀ j < d.cols, l.entry i j = d.val i j

/-- An exact compressor: `A = A * I * I`; its rank is the number of columns. -/
def keepAll [CommRing R] (d : Dense R) : Except Err (LowRank R) :=
  .ok { dim0 := d.rows, dim1 := d.cols, rank := d.cols, eps := 0, U := d
        S := ⟨d.cols, d.cols, fun i j => if i = j then 1 else 0⟩
        V := ⟨d.cols, d.cols, fun i j => if i = j then 1 else 0⟩ }

theorem keepAll_fitting [CommRing R] : FittingCompressor (keepAll (R := R)) := by
  intro d l h
  cases h
  exact ⟨⟨rfl, rfl, rfl, rfl, rfl⟩, rfl, rfl⟩

theorem keepAll_exact [CommRing R] : ExactCompressor (keepAll (R := R)) := by
  intro d l h i hi j hj
  cases h
  simp only [LowRank.entry]
  rw [Finset.sum_eq_single j]
  · rw [Finset.sum_eq_single j]
    · simp
    · intro b _ hb; simp [hb]
    · intro h; exact absurd (Finset.mem_range.2 hj) h
  · intro b _ hb; simp [hb]
  · intro h; exact absurd (Finset.mem_range.2 hj) h

theorem kernelFill_ok [Zero R] {k : KernelFn R} {f : Int → Int → R} (hk : ComputesEntries k f)
    (rows cols : IndexRange) (d : Dense R) (h : kernelFill k rows cols = .ok d) :
    (d.rows : Int) = rows.n ∧ (d.cols : Int) = cols.n ∧ ∀ i < d.rows, ∀ j < d.cols,
      d.val i j = f (rows.start + i) (cols.start + j) := by
  unfold kernelFill at h
  split at h
  · rename_i hn
    rw [Dense.ofKernel, except_bind_eq_ok] at h
    obtain ⟨mem, hm, h⟩ := h
    cases h
    refine ⟨by simp; omega, by simp; omega, ?_⟩
    intro i hi j hj
    exact hk _ _ _ _ _ _ _ (le_refl _) hm i hi j hj
  · cases h

theorem blockFill_ok [Inhabited R] {A : Dense R}
    (rows cols : IndexRange) (d : Dense R) (h : blockFill A rows cols = .ok d) :
    (d.rows : Int) = rows.n ∧ (d.cols : Int) = cols.n ∧ ∀ i < d.rows, ∀ j < d.cols,
      d.val i j = A.val (rows.start + i).toNat (cols.start + j).toNat := by
  unfold blockFill at h
  split at h
  · rename_i hn
    rw [except_bind_eq_ok] at h
    obtain ⟨g, hg, h⟩ := h
    cases h
    refine ⟨by simp; omega, by simp; omega, ?_⟩
    intro i hi j hj
    have := collect2_ok hg i hi j hj
    split at this
    · split at this
      · exact (Except.ok.inj this).symm
      · cases this
    · cases this
  · cases h

theorem kernelFill_dims [Zero R] {k : KernelFn R} {f : Int → Int → R} (hk : ComputesEntries k f)
    (rows cols : IndexRange) (d : Dense R) (h : kernelFill k rows cols = .ok d) :
    (d.rows : Int) = rows.n ∧ (d.cols : Int) = cols.n :=
  ⟨(kernelFill_ok hk rows cols d h).1, (kernelFill_ok hk rows cols d h).2.1⟩

theorem blockFill_dims [Inhabited R] {A : Dense R}
    (rows cols : IndexRange) (d : Dense R) (h : blockFill A rows cols = .ok d) :
    (d.rows : Int) = rows.n ∧ (d.cols : Int) = cols.n :=
  ⟨(blockFill_ok rows cols d h).1, (blockFill_ok rows cols d h).2.1⟩

/-- A successful fill read only entries of the matrix. -/
theorem blockFill_inside [Inhabited R] {A : Dense R} {rows cols : IndexRange} {d : Dense R}
    (h : blockFill A rows cols = .ok d) {x y : Int} (hx : rows.Has x) (hy : cols.Has y) :
    0 ≤ x ∧ x < A.rows ∧ 0 ≤ y ∧ y < A.cols := by
  unfold blockFill at h
  split at h
  · rename_i hn
    rw [except_bind_eq_ok] at h
    obtain ⟨g, hg, h⟩ := h
    obtain ⟨x1, x2⟩ := hx
    obtain ⟨y1, y2⟩ := hy
    have := collect2_ok hg (x - rows.start).toNat (by omega) (y - cols.start).toNat (by omega)
    split at this
    · split at this
      · omega
      · cases this
    · cases this
  · cases h

theorem build_root_node {fuel : Nat} {t : NodeInfo} {tr : ClusterTree}
    (h : ClusterTree.build fuel true t = .ok tr) : ∃ ch, tr = .node t ch := by
  cases tr with
  | leaf s => have := (ClusterTree.build_leaf h).2.1; simp at this
  | node s ch => exact ⟨ch, by rw [(ClusterTree.build_node h).1]⟩

variable {K : Type} [Field K] [LinearOrder K]

/-! ### C08 -/

/-- **C08**.  Whenever the constructor from a kernel returns, the matrix has the
requested dimensions, converting it to dense succeeds, every entry outside the
low-rank blocks is the kernel value at the global indices, and every entry is if
the compressor reproduces its input. -/
theorem C08_kernel_matrix [CommRing R] {k : KernelFn R} {f : Int → Int → R}
    (hk : ComputesEntries k f) {compress : Dense R → Except Err (LowRank R)}
    (hc : FittingCompressor compress) {fuel nRows nCols : Nat} {nleaf : Int} {a : Admis K}
    {br bc : Nat} (hbr : 1 ≤ br) (hbc : 1 ≤ bc) {rs cs : Int} {M : Mat R}
    (h : hierOfKernel fuel k compress nRows nCols nleaf a br bc rs cs = .ok M) :
    M.WF ∧ M.nRows = nRows ∧ M.nCols = nCols ∧
    ∃ D, M.toDense = .ok D ∧ D.rows = nRows ∧ D.cols = nCols ∧
      (∀ i < nRows, ∀ j < nCols, ¬ M.lowRankAt i j →
        D.val i j = f (rs + i) (cs + j)) ∧
      (ExactCompressor compress → ∀ i < nRows, ∀ j < nCols, D.val i j = f (rs + i) (cs + j)) := by
  rw [hierOfKernel, except_bind_eq_ok] at h
  obtain ⟨tr, htr, hM⟩ := h
  obtain ⟨ch, rfl⟩ := build_root_node htr
  obtain ⟨wf, -, h1, h2, -, h3⟩ := ClusterTree.toMat_spec hc (kernelFill_dims hk) htr hbr hbc hM
  simp only [ClusterTree.rootInfo] at h1 h2 h3
  have e1 : M.nRows = nRows := by omega
  have e2 : M.nCols = nCols := by omega
  obtain ⟨D, hD, d0, d1, dv⟩ := Mat.toDense_ok M wf
  refine ⟨wf, e1, e2, D, hD, by omega, by omega, ?_, ?_⟩
  · intro i hi j hj hl
    rw [dv i (by omega) j (by omega)]
    obtain ⟨p, s, d, -, gr, gc, gd, ⟨-, g⟩ | ⟨g, -⟩⟩ := h3 i (by omega) j (by omega)
    · obtain ⟨q1, q2, q3⟩ := kernelFill_ok hk _ _ _ gd
      obtain ⟨r1, r2⟩ := gr
      obtain ⟨c1, c2⟩ := gc
      rw [g, q3 _ (by omega) _ (by omega)]
      congr 1 <;> omega
    · exact absurd g hl
  · intro hex i hi j hj
    rw [dv i (by omega) j (by omega)]
    obtain ⟨p, s, d, -, gr, gc, gd, ⟨-, g⟩ | ⟨-, -, l, gl, ge⟩⟩ := h3 i (by omega) j (by omega)
    · obtain ⟨q1, q2, q3⟩ := kernelFill_ok hk _ _ _ gd
      obtain ⟨r1, r2⟩ := gr
      obtain ⟨c1, c2⟩ := gc
      rw [g, q3 _ (by omega) _ (by omega)]
      congr 1 <;> omega
    · obtain ⟨q1, q2, q3⟩ := kernelFill_ok hk _ _ _ gd
      obtain ⟨r1, r2⟩ := gr
      obtain ⟨c1, c2⟩ := gc
      rw [ge, hex d l gl _ (by omega) _ (by omega), q3 _ (by omega) _ (by omega)]
      congr 1 <;> omega

/-- **C08**, the constructor does return: with at most two blocks per direction
(at least two in one of them, so that the tree is finite), a leaf size of at
least one, position-based admissibility, a kernel and a compressor that return. -/
theorem C08_kernel_matrix_succeeds [CommRing R] {k : KernelFn R}
    (hk : ∀ mem m n stride rs cs, ∃ mem', k mem m n stride rs cs = .ok mem')
    {compress : Dense R → Except Err (LowRank R)} (hc : ∀ d, ∃ l, compress d = .ok l)
    (nRows nCols : Nat) (nleaf : Int) (hl : 1 ≤ nleaf) (admis : Int) (rs cs : Int) :
    ∃ fuel M, hierOfKernel fuel k compress nRows nCols nleaf (Admis.position admis : Admis K)
      2 2 rs cs = .ok M := by
  set t := ClusterTree.rootInfo ⟨rs, nRows⟩ ⟨cs, nCols⟩ 2 2 nleaf with ht
  obtain ⟨tr, htr, -⟩ := ClusterTree.build_terminates (nRows + nCols + 1) true t 2 (le_refl _)
    (le_refl _) (le_refl _) hl
    (by simp [ht, ClusterTree.rootInfo]
        exact le_trans (by omega) (Nat.lt_two_pow_self (n := nRows + nCols + 1)).le)
    (by simp [ht, ClusterTree.rootInfo]
        exact le_trans (by omega) (Nat.lt_two_pow_self (n := nRows + nCols + 1)).le)
    (by intro _; omega)
  refine ⟨nRows + nCols + 1 + 1, ?_⟩
  obtain ⟨ch, rfl⟩ := build_root_node htr
  have hok := ClusterTree.splitsOk_of_le_two htr (by simp [ht, ClusterTree.rootInfo])
    (by simp [ht, ClusterTree.rootInfo]) (by simp [ht, ClusterTree.rootInfo])
    (by simp [ht, ClusterTree.rootInfo]) (by simp [ht, ClusterTree.rootInfo])
    (by simp [ht, ClusterTree.rootInfo])
  have htil := (ClusterTree.tiling htr (by simp [ht, ClusterTree.rootInfo])
    (by simp [ht, ClusterTree.rootInfo]) (by simp [ht, ClusterTree.rootInfo])
    (by simp [ht, ClusterTree.rootInfo]) hok).2
  obtain ⟨M, hM⟩ := ClusterTree.toMat_total (a := (Admis.position admis : Admis K))
    (fill := kernelFill k) hc htr (by
      intro p s hp
      refine ⟨⟨_, rfl⟩, ?_⟩
      obtain ⟨h1, h2, -⟩ := htil p s hp
      obtain ⟨mem, hm⟩ := hk (fun _ => 0) s.info.rows.n.toNat s.info.cols.n.toNat s.info.cols.n.toNat
        s.info.rows.start s.info.cols.start
      simp only [kernelFill, h1, h2, and_self, if_true, Dense.ofKernel, hm, except_bind_ok]
      exact ⟨_, rfl⟩)
  exact ⟨M, by rw [hierOfKernel, ← ht, htr]; exact hM⟩

/-! ### C06 -/

/-- **C06**, matrices built from a kernel: with position-based admissibility and a
non-negative constant on a square tree, no diagonal entry lies in a low-rank
block, and every low-rank block, at any depth, has at least two rows and two
columns. -/
theorem C06_diagonal_never_compressed [CommRing R] {k : KernelFn R} {f : Int → Int → R}
    (hk : ComputesEntries k f) {compress : Dense R → Except Err (LowRank R)}
    (hc : FittingCompressor compress) {fuel n : Nat} {nleaf admis : Int} (ha : 0 ≤ admis)
    {b : Nat} (hb : 1 ≤ b) {st : Int} {M : Mat R}
    (h : hierOfKernel fuel k compress n n nleaf (Admis.position admis : Admis K) b b st st = .ok M) :
    (∀ i < n, ¬ M.lowRankAt i i) ∧
    (∀ l, Mat.BlockOf (.lowRank l) M → 1 < l.dim0 ∧ 1 < l.dim1) := by
  rw [hierOfKernel, except_bind_eq_ok] at h
  obtain ⟨tr, htr, hM⟩ := h
  obtain ⟨ch, rfl⟩ := build_root_node htr
  obtain ⟨wf, -, h1, h2, h3, -⟩ := ClusterTree.toMat_spec hc (kernelFill_dims hk) htr hb hb hM
  constructor
  · have := ClusterTree.toMat_diag ha hc (kernelFill_dims hk) htr hb rfl rfl rfl hM
    intro i hi
    refine this i ?_
    simp only [ClusterTree.rootInfo] at h1
    omega
  · intro l hl
    obtain ⟨p, s, d, -, q2, q3, q4⟩ := h3 l hl
    obtain ⟨d0, d1, -⟩ := kernelFill_ok hk _ _ _ q3
    obtain ⟨-, l0, l1⟩ := hc d l q4
    simp only [isAdmissible] at q2
    have := Except.ok.inj q2
    simp at this
    omega

/-- **C06**, matrices built from a square dense matrix. -/
theorem C06_diagonal_never_compressed_dense [CommRing R] [Inhabited R] {A : Dense R}
    (hsq : A.rows = A.cols)
    {compress : Dense R → Except Err (LowRank R)} (hc : FittingCompressor compress) {fuel : Nat}
    {nleaf admis : Int} (ha : 0 ≤ admis) {b : Nat} (hb : 1 ≤ b) {st : Int} {M : Mat R}
    (h : hierOfDense fuel A compress nleaf (Admis.position admis : Admis K) b b st st = .ok M) :
    (∀ i < A.rows, ¬ M.lowRankAt i i) ∧
    (∀ l, Mat.BlockOf (.lowRank l) M → 1 < l.dim0 ∧ 1 < l.dim1) := by
  rw [hierOfDense, except_bind_eq_ok] at h
  obtain ⟨tr, htr, hM⟩ := h
  obtain ⟨ch, rfl⟩ := build_root_node htr
  obtain ⟨wf, -, h1, h2, h3, -⟩ := ClusterTree.toMat_spec hc blockFill_dims htr hb hb hM
  constructor
  · have := ClusterTree.toMat_diag ha hc blockFill_dims htr hb rfl
      (by simp [ClusterTree.rootInfo, hsq]) rfl hM
    intro i hi
    refine this i ?_
    simp only [ClusterTree.rootInfo] at h1
    omega
  · intro l hl
    obtain ⟨p, s, d, -, q2, q3, q4⟩ := h3 l hl
    obtain ⟨d0, d1⟩ := blockFill_dims _ _ _ q3
    obtain ⟨-, l0, l1⟩ := hc d l q4
    simp only [isAdmissible] at q2
    have := Except.ok.inj q2
    simp at this
    omega

/-- **C06**, geometry-based admissibility: low-rank blocks again have at least
two rows and columns. -/
theorem C06_vectors_never_compressed [CommRing R] {k : KernelFn R} {f : Int → Int → R}
    (hk : ComputesEntries k f) {compress : Dense R → Except Err (LowRank R)}
    (hc : FittingCompressor compress) {fuel nRows nCols : Nat} {nleaf : Int} {a : Admis K}
    {br bc : Nat} (hbr : 1 ≤ br) (hbc : 1 ≤ bc) {rs cs : Int} {M : Mat R}
    (h : hierOfKernel fuel k compress nRows nCols nleaf a br bc rs cs = .ok M) :
    ∀ l, Mat.BlockOf (.lowRank l) M → 1 < l.dim0 ∧ 1 < l.dim1 := by
  rw [hierOfKernel, except_bind_eq_ok] at h
  obtain ⟨tr, htr, hM⟩ := h
  obtain ⟨ch, rfl⟩ := build_root_node htr
  obtain ⟨wf, -, h1, h2, h3, -⟩ := ClusterTree.toMat_spec hc (kernelFill_dims hk) htr hbr hbc hM
  intro l hl
  obtain ⟨p, s, d, -, q2, q3, q4⟩ := h3 l hl
  obtain ⟨d0, d1, -⟩ := kernelFill_ok hk _ _ _ q3
  obtain ⟨-, l0, l1⟩ := hc d l q4
  have : 1 < s.info.rows.n ∧ 1 < s.info.cols.n := by
    unfold isAdmissible at q2
    cases a with
    | position adm =>
      have := Except.ok.inj q2
      simp at this
      omega
    | geometry adm params =>
      simp only [except_bind_eq_ok] at q2
      obtain ⟨bs, -, q2⟩ := q2
      have := Except.ok.inj q2
      simp at this
      omega
  omega

/-! ### C09 -/

/-- **C09**.  Converting a dense matrix to a hierarchical one and back: if the
offsets are zero, every entry outside low-rank blocks comes back unchanged, and
if no block was compressed (or the compressor is exact) the result is the given
matrix. -/
theorem C09_dense_round_trip_partial [CommRing R] [Inhabited R] {A : Dense R}
    {compress : Dense R → Except Err (LowRank R)} (hc : FittingCompressor compress) {fuel : Nat}
    {nleaf : Int} {a : Admis K} {br bc : Nat} (hbr : 1 ≤ br) (hbc : 1 ≤ bc) {M : Mat R}
    (h : hierOfDense fuel A compress nleaf a br bc 0 0 = .ok M) :
    ∃ D, M.toDense = .ok D ∧ D.rows = A.rows ∧ D.cols = A.cols ∧
      (∀ i < A.rows, ∀ j < A.cols, ¬ M.lowRankAt i j → D.val i j = A.val i j) ∧
      ((∀ l, ¬ Mat.BlockOf (.lowRank l) M) → Dense.Same D A) ∧
      (ExactCompressor compress → Dense.Same D A) := by
  rw [hierOfDense, except_bind_eq_ok] at h
  obtain ⟨tr, htr, hM⟩ := h
  obtain ⟨ch, rfl⟩ := build_root_node htr
  obtain ⟨wf, -, h1, h2, -, h3⟩ := ClusterTree.toMat_spec hc blockFill_dims htr hbr hbc hM
  simp only [ClusterTree.rootInfo] at h1 h2 h3
  obtain ⟨D, hD, d0, d1, dv⟩ := Mat.toDense_ok M wf
  have key : ∀ i < A.rows, ∀ j < A.cols, ¬ M.lowRankAt i j → D.val i j = A.val i j := by
    intro i hi j hj hl
    rw [dv i (by omega) j (by omega)]
    obtain ⟨p, s, d, -, gr, gc, gd, ⟨-, g⟩ | ⟨g, -⟩⟩ := h3 i (by omega) j (by omega)
    · obtain ⟨q1, q2, q3⟩ := blockFill_ok _ _ _ gd
      obtain ⟨r1, r2⟩ := gr
      obtain ⟨c1, c2⟩ := gc
      rw [g, q3 _ (by omega) _ (by omega)]
      congr 1 <;> omega
    · exact absurd g hl
  refine ⟨D, hD, by omega, by omega, key, ?_, ?_⟩
  · intro hno
    refine ⟨by omega, by omega, fun i hi j hj => key i (by omega) j (by omega) ?_⟩
    have aux : ∀ (M : Mat R) (wf : M.WF) (i j : Nat), i < M.nRows → j < M.nCols → M.lowRankAt i j →
        ∃ l, Mat.BlockOf (.lowRank l) M := by
      intro M
      induction M with
      | dense d => intro _ i j _ _ h; exact h.elim
      | lowRank l => intro _ i j _ _ _; exact ⟨l, .refl _⟩
      | hier br bc blk ih =>
        intro wf i j hi hj h
        rw [Mat.nRows_hier] at hi
        rw [Mat.nCols_hier] at hj
        rw [Mat.lowRankAt_hier] at h
        obtain ⟨p1, p2, -⟩ := Mat.locate_spec _ _ _ hi
        obtain ⟨q1, q2, -⟩ := Mat.locate_spec _ _ _ hj
        rw [Mat.WF] at wf
        obtain ⟨-, -, wf⟩ := wf
        obtain ⟨w1, w2, w3⟩ := wf _ p1 _ q1
        obtain ⟨l, hl⟩ := ih _ _ w1 _ _ (by rw [w2]; exact p2) (by rw [w3]; exact q2) h
        exact ⟨l, .block _ _ _ _ _ _ p1 q1 hl⟩
      | empty m n => intro _ i j _ _ h; exact h.elim
    intro hl
    obtain ⟨l, hl⟩ := aux M wf i j (by omega) (by omega) hl
    exact hno l hl
  · intro hex
    refine ⟨by omega, by omega, fun i hi j hj => ?_⟩
    rw [dv i (by omega) j (by omega)]
    obtain ⟨p, s, d, -, gr, gc, gd, ⟨-, g⟩ | ⟨-, -, l, gl, ge⟩⟩ := h3 i (by omega) j (by omega)
    · obtain ⟨q1, q2, q3⟩ := blockFill_ok _ _ _ gd
      obtain ⟨r1, r2⟩ := gr
      obtain ⟨c1, c2⟩ := gc
      rw [g, q3 _ (by omega) _ (by omega)]
      congr 1 <;> omega
    · obtain ⟨q1, q2, q3⟩ := blockFill_ok _ _ _ gd
      obtain ⟨r1, r2⟩ := gr
      obtain ⟨c1, c2⟩ := gc
      rw [ge, hex d l gl _ (by omega) _ (by omega), q3 _ (by omega) _ (by omega)]
      congr 1 <;> omega

/-- **C09**, the conversion returns (2-by-2 blocks, position-based admissibility,
zero offsets, any size). -/
theorem C09_dense_succeeds_partial [CommRing R] [Inhabited R] (A : Dense R)
    {compress : Dense R → Except Err (LowRank R)} (hc : ∀ d, ∃ l, compress d = .ok l)
    (nleaf : Int) (hl : 1 ≤ nleaf) (admis : Int) :
    ∃ fuel M, hierOfDense fuel A compress nleaf (Admis.position admis : Admis K) 2 2 0 0 = .ok M := by
  set t := ClusterTree.rootInfo ⟨0, A.rows⟩ ⟨0, A.cols⟩ 2 2 nleaf with ht
  obtain ⟨tr, htr, -⟩ := ClusterTree.build_terminates (A.rows + A.cols + 1) true t 2 (le_refl _)
    (le_refl _) (le_refl _) hl
    (by simp [ht, ClusterTree.rootInfo]
        exact le_trans (by omega) (Nat.lt_two_pow_self (n := A.rows + A.cols + 1)).le)
    (by simp [ht, ClusterTree.rootInfo]
        exact le_trans (by omega) (Nat.lt_two_pow_self (n := A.rows + A.cols + 1)).le)
    (by intro _; omega)
  refine ⟨A.rows + A.cols + 1 + 1, ?_⟩
  obtain ⟨ch, rfl⟩ := build_root_node htr
  have hok := ClusterTree.splitsOk_of_le_two htr (by simp [ht, ClusterTree.rootInfo])
    (by simp [ht, ClusterTree.rootInfo]) (by simp [ht, ClusterTree.rootInfo])
    (by simp [ht, ClusterTree.rootInfo]) (by simp [ht, ClusterTree.rootInfo])
    (by simp [ht, ClusterTree.rootInfo])
  have htil := (ClusterTree.tiling htr (by simp [ht, ClusterTree.rootInfo])
    (by simp [ht, ClusterTree.rootInfo]) (by simp [ht, ClusterTree.rootInfo])
    (by simp [ht, ClusterTree.rootInfo]) hok).2
  obtain ⟨M, hM⟩ := ClusterTree.toMat_total (a := (Admis.position admis : Admis K))
    (fill := blockFill A) hc htr (by
      intro p s hp
      refine ⟨⟨_, rfl⟩, ?_⟩
      obtain ⟨h1, h2, h3, h4⟩ := htil p s hp
      simp only [blockFill, h1, h2, and_self, if_true]
      obtain ⟨g, hg⟩ := collect2_exists (m := s.info.rows.n.toNat) (n := s.info.cols.n.toNat)
        (f := fun i j =>
          if s.info.rows.start + i < A.rows ∧ s.info.cols.start + j < A.cols then
            if 0 ≤ s.info.rows.start + i ∧ 0 ≤ s.info.cols.start + j then
              (.ok (A.val (s.info.rows.start + i).toNat (s.info.cols.start + j).toNat) : Except Err R)
            else .error .ub
          else .error .assertFail) (by
          intro i hi j hj
          have q1 := h3 (s.info.rows.start + i) ⟨by omega, by omega⟩
          have q2 := h4 (s.info.cols.start + j) ⟨by omega, by omega⟩
          simp only [ht, ClusterTree.rootInfo, IndexRange.Has] at q1 q2
          rw [if_pos (by omega), if_pos (by omega)]
          exact ⟨_, rfl⟩)
      rw [hg]
      exact ⟨_, rfl⟩)
  exact ⟨M, by rw [hierOfDense, ← ht, htr]; exact hM⟩

/-- **C09**, offsets: if the conversion of a matrix with at least one row and
column returns, both offsets were zero.  So the claim "with non-zero offsets
every read stays inside the given matrix" is false for every matrix: the tree
ranges are `{row_start, A.dim[0]}`, and the initializer reads the matrix at the
shifted indices. -/
theorem C09_offset_reads_outside [CommRing R] [Inhabited R] {A : Dense R} (h0 : 0 < A.rows)
    (h1 : 0 < A.cols) {compress : Dense R → Except Err (LowRank R)}
    (hc : FittingCompressor compress) {fuel : Nat} {nleaf : Int} {a : Admis K} {br bc : Nat}
    (hbr : 1 ≤ br) (hbc : 1 ≤ bc) {rs cs : Int} {M : Mat R}
    (h : hierOfDense fuel A compress nleaf a br bc rs cs = .ok M) : rs = 0 ∧ cs = 0 := by
  rw [hierOfDense, except_bind_eq_ok] at h
  obtain ⟨tr, htr, hM⟩ := h
  obtain ⟨ch, rfl⟩ := build_root_node htr
  obtain ⟨wf, -, r1, r2, -, e1⟩ := ClusterTree.toMat_spec hc blockFill_dims htr hbr hbc hM
  simp only [ClusterTree.rootInfo] at r1 r2 e1
  have key : ∀ i < A.rows, ∀ j < A.cols, 0 ≤ rs + (i : Int) ∧ rs + (i : Int) < A.rows ∧
      0 ≤ cs + (j : Int) ∧ cs + (j : Int) < A.cols := by
    intro i hi j hj
    obtain ⟨p, s, d, -, gr, gc, gd, -⟩ := e1 i (by omega) j (by omega)
    exact blockFill_inside gd gr gc
  have k1 := key 0 h0 0 h1
  have k2 := key (A.rows - 1) (by omega) (A.cols - 1) (by omega)
  omega

/-! ### C10 -/

theorem kernelLoop_inner {e : Nat → Nat → Nat → Int → Int → Except Err R} {n stride : Nat}
    {rs cs : Int} {i : Nat} {mem mem' : Nat → R}
    (h : loop n (fun j mem => do
      let v ← e i j n (rs + i) (cs + j)
      .ok (fun x => if x = i * stride + j then v else mem x)) mem = .ok mem') :
    (∀ j < n, e i j n (rs + i) (cs + j) = .ok (mem' (i * stride + j))) ∧
    (∀ x, (∀ j < n, x ≠ i * stride + j) → mem' x = mem x) := by
  have key : ∀ k ≤ n, ∀ mem', loop k (fun j mem => do
      let v ← e i j n (rs + i) (cs + j)
      .ok (fun x => if x = i * stride + j then v else mem x)) mem = .ok mem' →
      (∀ j < k, e i j n (rs + i) (cs + j) = .ok (mem' (i * stride + j))) ∧
      (∀ x, (∀ j < k, x ≠ i * stride + j) → mem' x = mem x) := by
    intro k
    induction k with
    | zero =>
      intro _ mem' h
      cases h
      exact ⟨fun j hj => by omega, fun _ _ => rfl⟩
    | succ k ih =>
      intro hk mem' h
      rw [loop_succ, except_bind_eq_ok] at h
      obtain ⟨m1, h1, h2⟩ := h
      rw [except_bind_eq_ok] at h2
      obtain ⟨v, hv, h2⟩ := h2
      cases h2
      obtain ⟨g1, g2⟩ := ih (by omega) m1 h1
      constructor
      · intro j hj
        by_cases hjk : j = k
        · subst hjk; simpa using hv
        · simp only
          rw [if_neg (by omega)]
          exact g1 j (by omega)
      · intro x hx
        simp only
        rw [if_neg (hx k (by omega))]
        exact g2 x (fun j hj => hx j (by omega))
  exact key n (le_refl _) mem' h

/-- What a kernel loop writes: the block, and nothing else. -/
theorem kernelLoop_spec {e : Nat → Nat → Nat → Int → Int → Except Err R} {m n stride : Nat}
    {rs cs : Int} {mem mem' : Nat → R} (hs : n ≤ stride)
    (h : kernelLoop e mem m n stride rs cs = .ok mem') :
    (∀ i < m, ∀ j < n, e i j n (rs + i) (cs + j) = .ok (mem' (i * stride + j))) ∧
    (∀ x, (∀ i < m, ∀ j < n, x ≠ i * stride + j) → mem' x = mem x) := by
  unfold kernelLoop at h
  refine loop_inv (fun k (x : Nat → R) =>
    (∀ i < k, ∀ j < n, e i j n (rs + i) (cs + j) = .ok (x (i * stride + j))) ∧
    (∀ y, (∀ i < k, ∀ j < n, y ≠ i * stride + j) → x y = mem y)) ?_ ?_ h
  · exact ⟨fun i hi => by omega, fun _ _ => rfl⟩
  · intro i hi a b ⟨h1, h2⟩ hb
    obtain ⟨g1, g2⟩ := kernelLoop_inner hb
    constructor
    · intro i' hi' j hj
      by_cases hii : i' = i
      · subst hii; exact g1 j hj
      · rw [g2 _ ?_]
        · exact h1 i' (by omega) j hj
        · intro j' hj' he
          have h3 : (i' + 1) * stride ≤ i * stride := Nat.mul_le_mul_right _ (by omega)
          rw [Nat.succ_mul] at h3
          omega
    · intro y hy
      rw [g2 y (fun j hj => hy i (by omega) j hj)]
      exact h2 y (fun i' hi' j hj => hy i' (by omega) j hj)

theorem kernelLoop_exists {e : Nat → Nat → Nat → Int → Int → Except Err R} {m n stride : Nat}
    {rs cs : Int} {mem : Nat → R}
    (h : ∀ i < m, ∀ j < n, ∃ v, e i j n (rs + i) (cs + j) = .ok v) :
    ∃ mem', kernelLoop e mem m n stride rs cs = .ok mem' := by
  unfold kernelLoop
  obtain ⟨x, hx, -⟩ := loop_total (n := m) (s := mem) (body := fun i mem => loop n (fun j mem => do
    let v ← e i j n (rs + i) (cs + j)
    .ok (fun x => if x = i * stride + j then v else mem x)) mem) (fun _ _ => True) trivial (by
      intro i hi a _
      obtain ⟨y, hy, -⟩ := loop_total (n := n) (s := a) (body := fun j mem => do
        let v ← e i j n (rs + i) (cs + j)
        .ok (fun x => if x = i * stride + j then v else mem x)) (fun _ _ => True) trivial (by
          intro j hj b _
          obtain ⟨v, hv⟩ := h i hi j hj
          simp only [hv, except_bind_ok]
          exact ⟨_, rfl, trivial⟩)
      exact ⟨y, hy, trivial⟩)
  exact ⟨x, hx⟩

/-- **C10**.  Filling a block with offsets `(r,c)` inside a full matrix gives the
numbers of the full matrix at `(r+i, c+j)`, whatever the strides; the fill of the
block succeeds if the fill of the full matrix does, and writes nothing outside
the block. -/
theorem C10_block_consistent (b : Builtin) (x : List (List ℝ)) {M N m n r c strideF strideB : Nat}
    {rs cs : Int} (hm : r + m ≤ M) (hn : c + n ≤ N) (hF : N ≤ strideF) (hB : n ≤ strideB)
    {memF memB full : Nat → ℝ} (h : b.kernel x memF M N strideF rs cs = .ok full) :
    ∃ blk, b.kernel x memB m n strideB (rs + r) (cs + c) = .ok blk ∧
      (∀ i < m, ∀ j < n, blk (i * strideB + j) = full ((r + i) * strideF + (c + j))) ∧
      (∀ y, (∀ i < m, ∀ j < n, y ≠ i * strideB + j) → blk y = memB y) := by
  obtain ⟨f1, -⟩ := kernelLoop_spec hF h
  have hex : ∀ i < m, ∀ j < n, b.entry x (rs + r + (i : Nat)) (cs + c + (j : Nat)) =
      .ok (full ((r + i) * strideF + (c + j))) := by
    intro i hi j hj
    rw [← f1 (r + i) (by omega) (c + j) (by omega)]
    congr 1 <;> push_cast <;> omega
  obtain ⟨blk, hb⟩ := kernelLoop_exists (mem := memB) (stride := strideB)
    (e := fun _ _ _ gi gj => b.entry x gi gj) (fun i hi j hj => ⟨_, hex i hi j hj⟩)
  obtain ⟨b1, b2⟩ := kernelLoop_spec hB hb
  refine ⟨blk, hb, ?_, b2⟩
  intro i hi j hj
  have := b1 i hi j hj
  rw [hex i hi j hj] at this
  exact (Except.ok.inj this).symm

theorem distSq_eq {x : List (List ℝ)} {gi gj : Nat} (hi : ∀ p ∈ x, gi < p.length)
    (hj : ∀ p ∈ x, gj < p.length) :
    distSq x gi gj = .ok ((x.map (fun p => (p.getD gi 0 - p.getD gj 0) ^ 2)).sum) := by
  have key : ∀ (y : List (List ℝ)) (a : ℝ), (∀ p ∈ y, gi < p.length) → (∀ p ∈ y, gj < p.length) →
      y.foldlM (m := Except Err) (fun rij xk => do
        let a ← coordAt xk (gi : Int)
        let b ← coordAt xk (gj : Int)
        .ok (rij + (a - b) * (a - b))) a =
      .ok (a + (y.map (fun p => (p.getD gi 0 - p.getD gj 0) ^ 2)).sum) := by
    intro y
    induction y with
    | nil => intro a _ _; simp; rfl
    | cons p y ih =>
      intro a h1 h2
      have e1 := h1 p (by simp)
      have e2 := h2 p (by simp)
      rw [List.foldlM_cons]
      have c1 : coordAt p (gi : Int) = .ok p[gi] := by simp [coordAt, e1]
      have c2 : coordAt p (gj : Int) = .ok p[gj] := by simp [coordAt, e2]
      simp only [c1, c2, except_bind_ok]
      rw [ih _ (fun q hq => h1 q (by simp [hq])) (fun q hq => h2 q (by simp [hq]))]
      have g1 : p.getD gi 0 = p[gi] := by simp [List.getD, e1]
      have g2 : p.getD gj 0 = p[gj] := by simp [List.getD, e2]
      simp only [List.map_cons, List.sum_cons, g1, g2]
      congr 1
      ring
  have := key x 0 hi hj
  rw [zero_add] at this
  exact this

/-- **C10**, values.  Entry `(i,j)` of each built-in kernel in terms of the points
(`x` lists the coordinates, one list per dimension; point `i` has coordinates
`x[k][i]`). -/
theorem C10_values (x : List (List ℝ)) (i j : Nat) (hi : ∀ p ∈ x, i < p.length)
    (hj : ∀ p ∈ x, j < p.length) :
    Builtin.zeros.entry x i j = .ok 0 ∧
    Builtin.identity.entry x i j = .ok (if i = j then 1 else 0) ∧
    Builtin.laplacend.entry x i j =
      .ok (1 / (√((x.map (fun p => (p.getD i 0 - p.getD j 0) ^ 2)).sum) + 1 / 1000)) ∧
    Builtin.helmholtznd.entry x i j =
      .ok (Real.exp (-((x.map (fun p => (p.getD i 0 - p.getD j 0) ^ 2)).sum)) /
        (√((x.map (fun p => (p.getD i 0 - p.getD j 0) ^ 2)).sum) + 1 / 1000)) ∧
    (2 ≤ x.length → Builtin.cauchy2d.entry x i j =
      .ok (1 / ((x.getD 0 []).getD i 0 - (x.getD 1 []).getD j 0 + 1 / 100))) := by
  refine ⟨rfl, ?_, ?_, ?_, ?_⟩
  · simp [Builtin.entry]
  · simp [Builtin.entry, distSq_eq hi hj]
  · simp [Builtin.entry, distSq_eq hi hj]
  · intro hx
    match x, hx with
    | p :: q :: x, _ =>
      have e1 := hi p (by simp)
      have e2 := hj q (by simp)
      simp [Builtin.entry, dimAt, coordAt, e1, e2]

/-- Reading a coordinate. -/
theorem coordAt_cases (p : List ℝ) (i : Int) :
    (∃ v, coordAt p i = .ok v ∧ 0 ≤ i ∧ i < p.length) ∨ (coordAt p i = .error .ub ∧ ¬(0 ≤ i ∧ i < p.length)) := by
  unfold coordAt
  by_cases h : 0 ≤ i ∧ i.toNat < p.length
  · exact .inl ⟨_, dif_pos h, h.1, by omega⟩
  · exact .inr ⟨dif_neg h, fun k => h ⟨k.1, by omega⟩⟩

theorem distSq_cases (x : List (List ℝ)) (gi gj : Int) :
    (∃ v, distSq x gi gj = .ok v ∧ ∀ p ∈ x, (0 ≤ gi ∧ gi < p.length) ∧ 0 ≤ gj ∧ gj < p.length) ∨
    (distSq x gi gj = .error .ub ∧ ¬ ∀ p ∈ x, (0 ≤ gi ∧ gi < p.length) ∧ 0 ≤ gj ∧ gj < p.length) := by
  unfold distSq
  generalize (0 : ℝ) = a
  induction x generalizing a with
  | nil => exact .inl ⟨a, rfl, by simp⟩
  | cons p x ih =>
    simp only [List.foldlM_cons, List.mem_cons, forall_eq_or_imp]
    rcases coordAt_cases p gi with ⟨u, h1, h2⟩ | ⟨h1, h2⟩
    swap
    · exact .inr ⟨by rw [h1]; rfl, fun h => h2 h.1.1⟩
    rcases coordAt_cases p gj with ⟨w, h3, h4⟩ | ⟨h3, h4⟩
    swap
    · exact .inr ⟨by rw [h1, h3]; rfl, fun h => h4 h.1.2⟩
    rcases ih (a + (u - w) * (u - w)) with ⟨v, h5, h6⟩ | ⟨h5, h6⟩
    · exact .inl ⟨v, by rw [h1, h3]; exact h5, ⟨h2, h4⟩, h6⟩
    · exact .inr ⟨by rw [h1, h3]; exact h5, fun h => h6 h.2⟩

/-- The positions for which a kernel has the points it needs. -/
def Builtin.HasPoints (x : List (List ℝ)) (gi gj : Int) : Builtin → Prop
  | .zeros => True
  | .identity => True
  | .laplacend => ∀ p ∈ x, (0 ≤ gi ∧ gi < p.length) ∧ 0 ≤ gj ∧ gj < p.length
  | .helmholtznd => ∀ p ∈ x, (0 ≤ gi ∧ gi < p.length) ∧ 0 ≤ gj ∧ gj < p.length
  | .cauchy2d => ∃ p q l, x = p :: q :: l ∧ (0 ≤ gi ∧ gi < p.length) ∧ 0 ≤ gj ∧ gj < q.length

/-- **C10**, which entries exist.  A kernel gives a number for exactly the positions that have the
points it needs; for every other position the code reads outside a coordinate list. -/
theorem C10_defined (b : Builtin) (x : List (List ℝ)) (gi gj : Int) :
    ((∃ v, b.entry x gi gj = .ok v) ↔ b.HasPoints x gi gj) ∧
    (¬ b.HasPoints x gi gj → b.entry x gi gj = .error .ub) := by
  cases b with
  | zeros => exact ⟨⟨fun _ => trivial, fun _ => ⟨_, rfl⟩⟩, fun h => (h trivial).elim⟩
  | identity => exact ⟨⟨fun _ => trivial, fun _ => ⟨_, rfl⟩⟩, fun h => (h trivial).elim⟩
  | laplacend =>
    simp only [Builtin.entry, Builtin.HasPoints]
    rcases distSq_cases x gi gj with ⟨v, h1, h2⟩ | ⟨h1, h2⟩
    · exact ⟨⟨fun _ => h2, fun _ => ⟨_, by rw [h1]; rfl⟩⟩, fun h => (h h2).elim⟩
    · exact ⟨⟨fun ⟨v, h⟩ => by rw [h1] at h; exact (nomatch h), fun h => (h2 h).elim⟩, fun _ => by rw [h1]; rfl⟩
  | helmholtznd =>
    simp only [Builtin.entry, Builtin.HasPoints]
    rcases distSq_cases x gi gj with ⟨v, h1, h2⟩ | ⟨h1, h2⟩
    · exact ⟨⟨fun _ => h2, fun _ => ⟨_, by rw [h1]; rfl⟩⟩, fun h => (h h2).elim⟩
    · exact ⟨⟨fun ⟨v, h⟩ => by rw [h1] at h; exact (nomatch h), fun h => (h2 h).elim⟩, fun _ => by rw [h1]; rfl⟩
  | cauchy2d =>
    simp only [Builtin.entry, Builtin.HasPoints]
    match x with
    | [] => exact ⟨⟨fun ⟨v, h⟩ => (nomatch h), fun ⟨_, _, _, h, _⟩ => (nomatch h)⟩, fun _ => rfl⟩
    | [p] =>
      have d0 : dimAt [p] 0 = .ok p := rfl
      have d1 : dimAt [p] 1 = .error .ub := rfl
      have key : (do
          let a ← coordAt (← dimAt [p] 0) gi
          let b ← coordAt (← dimAt [p] 1) gj
          .ok (1 / ((a - b) + 1 / 100)) : Except Err ℝ) = .error .ub := by
        rw [d0, d1]
        rcases coordAt_cases p gi with ⟨u, h1, h2⟩ | ⟨h1, h2⟩
        · simp only [except_bind_ok, h1]; rfl
        · simp only [except_bind_ok, h1]; rfl
      refine ⟨⟨fun ⟨v, h⟩ => ?_, fun ⟨_, _, _, h, _⟩ => ?_⟩, fun _ => key⟩
      · rw [key] at h; exact (nomatch h)
      · simp at h
    | p :: q :: l =>
      have d0 : dimAt (p :: q :: l) 0 = .ok p := rfl
      have d1 : dimAt (p :: q :: l) 1 = .ok q := rfl
      have hiff : (∃ p' q' l', p :: q :: l = p' :: q' :: l' ∧ (0 ≤ gi ∧ gi < p'.length) ∧ 0 ≤ gj ∧ gj < q'.length) ↔
          (0 ≤ gi ∧ gi < p.length) ∧ 0 ≤ gj ∧ gj < q.length := by
        constructor
        · rintro ⟨p', q', l', h, h'⟩
          obtain ⟨rfl, rfl, rfl⟩ : p = p' ∧ q = q' ∧ l = l' := by simpa using h
          exact h'
        · intro h
          exact ⟨p, q, l, rfl, h⟩
      rw [hiff, d0, d1]
      simp only [except_bind_ok]
      rcases coordAt_cases p gi with ⟨u, h1, h2⟩ | ⟨h1, h2⟩
      swap
      · rw [h1]
        exact ⟨⟨fun ⟨v, h⟩ => (nomatch h), fun h => (h2 h.1).elim⟩, fun _ => rfl⟩
      rcases coordAt_cases q gj with ⟨w, h3, h4⟩ | ⟨h3, h4⟩
      swap
      · rw [h1, h3]
        exact ⟨⟨fun ⟨v, h⟩ => (nomatch h), fun h => (h4 h.2).elim⟩, fun _ => rfl⟩
      rw [h1, h3]
      exact ⟨⟨fun _ => ⟨h2, h4⟩, fun _ => ⟨_, rfl⟩⟩, fun h => (h ⟨h2, h4⟩).elim⟩

/-- Three points on a line: positions 0 to 2 exist, position 3 does not. -/
example : (∃ v, Builtin.laplacend.entry [[0, 1, 2]] 2 0 = .ok v) ∧
    Builtin.laplacend.entry [[0, 1, 2]] 3 0 = .error .ub := by
  refine ⟨(C10_defined .laplacend [[0, 1, 2]] 2 0).1.2 ?_, (C10_defined .laplacend [[0, 1, 2]] 3 0).2 ?_⟩
  · simp [Builtin.HasPoints]
  · simp [Builtin.HasPoints]

/-- **C10**, symmetry.  `identity`, `laplacend` and `helmholtznd` (and `zeros`)
give symmetric matrices: the block at offsets `(c,r)` is the transpose of the
block at `(r,c)`. -/
theorem C10_symmetric (b : Builtin) (hb : b ≠ .cauchy2d) (x : List (List ℝ)) (gi gj : Int) :
    b.entry x gi gj = b.entry x gj gi := by
  have hd : distSq x gi gj = distSq x gj gi := by
    unfold distSq
    have : ∀ (y : List (List ℝ)) (a : ℝ), (∀ p : List ℝ, p ∈ y → True) →
      y.foldlM (m := Except Err) (fun rij xk => do
        let a ← coordAt xk gi
        let b ← coordAt xk gj
        .ok (rij + (a - b) * (a - b))) a =
      y.foldlM (m := Except Err) (fun rij xk => do
        let a ← coordAt xk gj
        let b ← coordAt xk gi
        .ok (rij + (a - b) * (a - b))) a := by
      intro y a _
      congr 1
      funext rij xk
      unfold coordAt
      split <;> split <;> simp only [except_bind_ok, except_bind_error]
      congr 1
      ring
    exact this x 0 (fun _ _ => trivial)
  cases b with
  | zeros => rfl
  | identity => simp only [Builtin.entry, eq_comm]
  | cauchy2d => exact absurd rfl hb
  | laplacend => simp only [Builtin.entry, hd]
  | helmholtznd => simp only [Builtin.entry, hd]

/-- **C10**, symmetry as seen in memory. -/
theorem C10_symmetric_blocks (b : Builtin) (hb : b ≠ .cauchy2d) (x : List (List ℝ)) {m n s1 s2 : Nat}
    {rs cs : Int} (h1 : n ≤ s1) (h2 : m ≤ s2) {mem1 mem2 A B : Nat → ℝ}
    (hA : b.kernel x mem1 m n s1 rs cs = .ok A) (hB : b.kernel x mem2 n m s2 cs rs = .ok B) :
    ∀ i < m, ∀ j < n, A (i * s1 + j) = B (j * s2 + i) := by
  intro i hi j hj
  have e1 := (kernelLoop_spec h1 hA).1 i hi j hj
  have e2 := (kernelLoop_spec h2 hB).1 j hj i hi
  rw [C10_symmetric b hb] at e1
  exact Except.ok.inj (e1.symm.trans e2)

/-- `arange` numbers the entries of the block row by row and touches nothing else. -/
theorem C10_arange {m n stride : Nat} (hs : n ≤ stride) (mem : Nat → ℝ) (rs cs : Int) :
    ∃ mem', arange mem m n stride rs cs = .ok mem' ∧
      (∀ i < m, ∀ j < n, mem' (i * stride + j) = (i * n + j : Nat)) ∧
      ∀ x, (∀ i < m, ∀ j < n, x ≠ i * stride + j) → mem' x = mem x := by
  obtain ⟨mem', h⟩ := kernelLoop_exists (mem := mem) (m := m) (n := n) (stride := stride) (rs := rs)
    (cs := cs) (e := fun i j n _ _ => .ok ((i * n + j : Nat) : ℝ)) (fun i _ j _ => ⟨_, rfl⟩)
  obtain ⟨h1, h2⟩ := kernelLoop_spec hs h
  exact ⟨mem', h, fun i hi j hj => (Except.ok.inj (h1 i hi j hj)).symm, h2⟩

/-- `arange` is not block consistent (it is not in the list of C10): the block at
offset `(0,1)` of a 1-by-2 matrix gets 0 instead of 1. -/
theorem C10_arange_not_consistent : ∃ full blk : Nat → ℝ,
    arange (fun _ => 0) 1 2 2 0 0 = .ok full ∧ arange (fun _ => 0) 1 1 1 0 1 = .ok blk ∧
    blk 0 ≠ full 1 := by
  refine ⟨_, _, rfl, rfl, ?_⟩
  simp

/-- The built-in kernels satisfy the hypothesis of C08 wherever they return. -/
theorem C10_computes_entries (b : Builtin) (x : List (List ℝ)) :
    ComputesEntries (b.kernel x)
      (fun gi gj => match b.entry x gi gj with | .ok v => v | .error _ => 0) := by
  intro mem m n stride rs cs mem' hs h i hi j hj
  have := (kernelLoop_spec hs h).1 i hi j hj
  simp only [this]

/-! ### the hypotheses can be met -/

section Examples

/-- 5-by-7 identity pattern, leaves of size at most 2, any compressor. -/
example : ∃ fuel M, hierOfKernel fuel (Builtin.identity.kernel []) keepAll 5 7 2
    (Admis.position 0 : Admis ℚ) 2 2 3 4 = .ok M :=
  C08_kernel_matrix_succeeds (fun mem m n stride rs cs =>
    kernelLoop_exists (fun i _ j _ => ⟨_, rfl⟩)) (fun d => ⟨_, rfl⟩) 5 7 2 (by omega) 0 3 4

/-- A kernel with integer values `100 i + j`. -/
def numbering : KernelFn ℤ := kernelLoop (fun _ _ _ gi gj => .ok (100 * gi + gj))

theorem numbering_computes : ComputesEntries numbering (fun i j => 100 * i + j) := by
  intro mem m n stride rs cs mem' hs h i hi j hj
  exact (Except.ok.inj ((kernelLoop_spec hs h).1 i hi j hj)).symm

/-- The constructor does produce low-rank blocks: a 4-by-4 matrix with 2-by-2
blocks has one at block position (0,1). -/
example : ∃ M l, hierOfKernel 3 numbering keepAll 4 4 2 (Admis.position 0 : Admis ℚ) 2 2 0 0 = .ok M ∧
    Mat.BlockOf (.lowRank l) M ∧ M.lowRankAt 0 3 := by
  refine ⟨_, _, rfl, .block _ _ _ _ 0 1 (by decide) (by decide) (.refl _), ?_⟩
  trivial

/-- C09: a 3-by-3 matrix survives the round trip with an exact compressor. -/
example (A : Dense ℤ) : ∃ fuel M D, hierOfDense fuel A keepAll 1 (Admis.position 1 : Admis ℚ) 2 2 0 0
    = .ok M ∧ M.toDense = .ok D ∧ Dense.Same D A := by
  obtain ⟨fuel, M, h⟩ := C09_dense_succeeds_partial (K := ℚ) A (compress := keepAll) (fun d => ⟨_, rfl⟩) 1
    (by omega) 1
  obtain ⟨D, hD, -, -, -, -, hS⟩ := C09_dense_round_trip_partial keepAll_fitting (by omega) (by omega) h
  exact ⟨fuel, M, D, h, hD, hS keepAll_exact⟩

/-- C10: the kernels do return when the points are there. -/
example : ∃ full, Builtin.laplacend.kernel [[0, 1, 2], [5, 6, 7]] (fun _ => 0) 2 2 4 0 1 = .ok full := by
  apply kernelLoop_exists
  intro i hi j hj
  have h := (C10_values [[0, 1, 2], [5, 6, 7]] i (1 + j) (by intro p hp; simp at hp; rcases hp with rfl | rfl <;> simp <;> omega)
    (by intro p hp; simp at hp; rcases hp with rfl | rfl <;> simp <;> omega)).2.2.1
  rw [show (0 : Int) + (i : Int) = ((i : Nat) : Int) by omega,
    show (1 : Int) + (j : Int) = ((1 + j : Nat) : Int) by omega]
  exact ⟨_, h⟩

end Examples
end Verif
