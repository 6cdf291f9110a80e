import Verif.Lemmas.DiffNorm
import Verif.Model.RealOps

/-
C02 (matrix version), C15-C20, C48, C51: structure-independent meaning of the
basic operations.
-/

namespace Verif
open Finset

variable {R : Type}

namespace MatEx

/-- Low-rank block of the example matrix. -/
def lr : LowRank ℤ :=
  { dim0 := 2, dim1 := 3, rank := 1, eps := 0
    U := ⟨2, 1, fun i _ => i + 1⟩, S := ⟨1, 1, fun _ _ => 2⟩, V := ⟨1, 3, fun _ j => j + 1⟩ }

/-- A nested example matrix: 2x2 blocks with heights 2,1 and widths 2,3; dense,
low-rank and again hierarchical blocks. -/
def nestedBlk (i j : Nat) : Mat ℤ :=
  if i = 0 then (if j = 0 then .hier 1 2 (fun _ k => .dense ⟨2, 1, fun r _ => r + k⟩)
    else .lowRank lr)
  else (if j = 0 then .dense ⟨1, 2, fun _ s => s⟩ else .dense ⟨1, 3, fun _ s => 10 + s⟩)

def nested : Mat ℤ := .hier 2 2 nestedBlk

theorem lr_wf : lr.WF := ⟨rfl, rfl, rfl, rfl, rfl⟩

theorem nested_wf : nested.WF := by
  simp only [nested, Mat.WF]
  refine ⟨by decide, by decide, ?_⟩
  intro i hi j hj
  have : (i = 0 ∨ i = 1) ∧ (j = 0 ∨ j = 1) := by omega
  obtain ⟨rfl | rfl, rfl | rfl⟩ := this <;>
    simp [nestedBlk, Mat.WF, Mat.nRows, Mat.nCols, lr_wf] <;> rfl

theorem nested_noEmpty : nested.NoEmpty := by
  simp only [nested, Mat.NoEmpty]
  intro i hi j hj
  have : (i = 0 ∨ i = 1) ∧ (j = 0 ∨ j = 1) := by omega
  obtain ⟨rfl | rfl, rfl | rfl⟩ := this <;> simp [nestedBlk, Mat.NoEmpty]

theorem nested_square : nested.Square := by
  simp only [nested, Mat.Square]
  intro i hi j hj
  have : (i = 0 ∨ i = 1) ∧ (j = 0 ∨ j = 1) := by omega
  obtain ⟨rfl | rfl, rfl | rfl⟩ := this <;>
    simp [nestedBlk, Mat.Square, LowRank.Square, lr]

end MatEx

/-- C02 for matrices: `split_like` along the rows of a hierarchical matrix returns
one part per block row with the height of that block row, tiling `[0, rows)`, and
likewise along the columns. -/
theorem C02_split_like_partition_mat (r : IndexRange) (br bc : Nat) (blk : Nat → Nat → Mat R) :
    (r.splitLike (Mat.blockHeights br blk)).length = br ∧
    (∀ i < br, (Mat.rangeAt (r.splitLike (Mat.blockHeights br blk)) i).n = ((blk i 0).nRows : Int)) ∧
    IsPartition ⟨0, ((Mat.hier br bc blk).nRows : Int)⟩ (r.splitLike (Mat.blockHeights br blk)) ∧
    (r.splitLike (Mat.blockWidths bc blk)).length = bc ∧
    (∀ j < bc, (Mat.rangeAt (r.splitLike (Mat.blockWidths bc blk)) j).n = ((blk 0 j).nCols : Int)) ∧
    IsPartition ⟨0, ((Mat.hier br bc blk).nCols : Int)⟩ (r.splitLike (Mat.blockWidths bc blk)) := by
  obtain ⟨p1, l1⟩ := Mat.splitLike_isPartition br (fun i => (blk i 0).nRows) _
    (Mat.nRows_hier br bc blk)
  obtain ⟨p2, l2⟩ := Mat.splitLike_isPartition bc (fun j => (blk 0 j).nCols) _
    (Mat.nCols_hier br bc blk)
  refine ⟨l1, fun i hi => ?_, p1, l2, fun j hj => ?_, p2⟩
  · have h1 := Mat.partition_nonneg p1 (i := i) (by rw [l1]; exact hi)
    rw [Mat.partSizes_splitLike _ br (fun i => (blk i 0).nRows) i hi] at h1
    exact h1
  · have h1 := Mat.partition_nonneg p2 (i := j) (by rw [l2]; exact hj)
    rw [Mat.partSizes_splitLike _ bc (fun i => (blk 0 i).nCols) j hj] at h1
    exact h1

/-- C15: the dimension queries succeed on every consistent matrix; for a
hierarchical matrix they return the sum of the block heights (widths), read in
any block column (row). -/
theorem C15_dimensions (br bc : Nat) (blk : Nat → Nat → Mat R) (h : (Mat.hier br bc blk).WF) :
    (∀ j < bc, (Mat.hier br bc blk).getNRows = .ok (∑ i ∈ range br, (blk i j).nRows)) ∧
    (∀ i < br, (Mat.hier br bc blk).getNCols = .ok (∑ j ∈ range bc, (blk i j).nCols)) ∧
    (∀ i < br, ∀ j < bc, (blk i j).getNRows = .ok (blk i j).nRows ∧
      (blk i j).getNCols = .ok (blk i j).nCols) := by
  have h' := h
  simp only [Mat.WF] at h'
  refine ⟨fun j hj => ?_, fun i hi => ?_, fun i hi j hj =>
    ⟨Mat.getNRows_eq _ (h'.2.2 i hi j hj).1, Mat.getNCols_eq _ (h'.2.2 i hi j hj).1⟩⟩
  · rw [Mat.getNRows_eq _ h, Mat.nRows_hier]
    congr 1
    refine Finset.sum_congr rfl (fun i hi => ?_)
    exact (h'.2.2 i (by simpa using hi) j hj).2.1.symm
  · rw [Mat.getNCols_eq _ h, Mat.nCols_hier]
    congr 1
    refine Finset.sum_congr rfl (fun j hj => ?_)
    exact (h'.2.2 i hi j (by simpa using hj)).2.2.symm

/-- C15: the reported dimensions are those of the dense conversion, and
transposition swaps them. -/
theorem C15_dimensions_dense_transpose [CommRing R] (A : Mat R) (h : A.WF) :
    (∃ D, A.toDense = .ok D ∧ A.getNRows = .ok D.rows ∧ A.getNCols = .ok D.cols) ∧
    (∀ T, A.transpose = .ok T → A.NoEmpty →
      T.getNRows = A.getNCols ∧ T.getNCols = A.getNRows) := by
  refine ⟨?_, ?_⟩
  · obtain ⟨D, hD, h0, h1, -⟩ := Mat.toDense_ok A h
    exact ⟨D, hD, by rw [h0, Mat.getNRows_eq A h], by rw [h1, Mat.getNCols_eq A h]⟩
  · intro T hT hE
    obtain ⟨T', hT', hw, -, h0, h1, -⟩ := Mat.transpose_ok A h hE
    rw [hT] at hT'
    cases Except.ok.inj hT'
    rw [Mat.getNRows_eq _ hw, Mat.getNCols_eq _ hw, Mat.getNRows_eq _ h, Mat.getNCols_eq _ h,
      h0, h1]
    exact ⟨rfl, rfl⟩

example : MatEx.nested.getNRows = .ok 3 ∧ MatEx.nested.getNCols = .ok 5 := by
  constructor
  · rw [Mat.getNRows_eq _ MatEx.nested_wf]
    simp [MatEx.nested, MatEx.nestedBlk, Mat.nRows, Finset.sum_range_succ]
  · rw [Mat.getNCols_eq _ MatEx.nested_wf]
    simp [MatEx.nested, MatEx.nestedBlk, MatEx.lr, Mat.nCols, Finset.sum_range_succ]

/-- C16: converting to dense succeeds and puts at `(i,j)` exactly the number that
the matrix has at `(i,j)` in the sense of `Mat.EntryIs`. -/
theorem C16_to_dense [CommRing R] (A : Mat R) (h : A.WF) :
    ∃ D, A.toDense = .ok D ∧ D.rows = A.nRows ∧ D.cols = A.nCols ∧
      (∀ i < D.rows, ∀ j < D.cols, A.EntryIs i j (D.val i j)) ∧
      (∀ i j v, A.EntryIs i j v → i < D.rows ∧ j < D.cols ∧ D.val i j = v) := by
  obtain ⟨D, hD, h0, h1, hv⟩ := Mat.toDense_ok A h
  refine ⟨D, hD, h0, h1, ?_, ?_⟩
  · intro i hi j hj
    rw [h0] at hi
    rw [h1] at hj
    exact (Mat.entryIs_iff A h i j _).2 ⟨hi, hj, hv i hi j hj⟩
  · intro i j v he
    obtain ⟨hi, hj, rfl⟩ := (Mat.entryIs_iff A h i j _).1 he
    exact ⟨by rw [h0]; exact hi, by rw [h1]; exact hj, hv i hi j hj⟩

example : ∃ D, MatEx.nested.toDense = .ok D ∧ D.val 1 4 = 12 := by
  obtain ⟨D, hD, -, -, -, h⟩ := C16_to_dense _ MatEx.nested_wf
  refine ⟨D, hD, (h 1 4 12 ?_).2.2⟩
  have e := Mat.EntryIs.hier 2 2 MatEx.nestedBlk 0 1 1 2 12 (by omega) (by omega)
    (show Mat.EntryIs (Mat.lowRank MatEx.lr) 1 2 12 from
      .lowRank MatEx.lr 1 2 (by decide) (by decide))
  simpa [MatEx.nested, MatEx.nestedBlk, Mat.nCols, Finset.sum_range_succ] using e

/-- C17: splitting a dense or low-rank matrix along any partitions of its rows and
columns succeeds; the blocks have the sizes of the parts and the result
represents the original matrix. -/
theorem C17_split_leaf [CommRing R] (A : Mat R) (h : A.WF) (hl : A.Leaf)
    (rs cs : List IndexRange) (hrs : rs ≠ []) (hcs : cs ≠ [])
    (hr : IsPartition ⟨0, A.nRows⟩ rs) (hc : IsPartition ⟨0, A.nCols⟩ cs) :
    ∃ b, A.splitOmm rs cs = .ok (.hier rs.length cs.length b) ∧
      (∀ i < rs.length, ∀ j < cs.length,
        ((b i j).nRows : Int) = (Mat.rangeAt rs i).n ∧
        ((b i j).nCols : Int) = (Mat.rangeAt cs j).n) ∧
      (Mat.hier rs.length cs.length b).WF ∧
      (∀ i j v, (Mat.hier rs.length cs.length b).EntryIs i j v ↔ A.EntryIs i j v) := by
  obtain ⟨b, hb, hs⟩ := Mat.splitOmm_leaf_isSplit h hl hr hc
  have l1 := List.length_pos_iff.2 hrs
  have l2 := List.length_pos_iff.2 hcs
  have sm := hs.same l1 l2
  have w := hs.wf l1 l2
  refine ⟨b, hb, fun i hi j hj => ?_, w, fun i j v => ?_⟩
  · rw [(hs.dims i hi j hj).2.1, (hs.dims i hi j hj).2.2, Mat.partition_nonneg hr hi,
      Mat.partition_nonneg hc hj]
    exact ⟨rfl, rfl⟩
  · rw [Mat.entryIs_iff _ w, Mat.entryIs_iff _ h]
    constructor
    · rintro ⟨h1, h2, h3⟩
      exact ⟨by rw [← sm.1]; exact h1, by rw [← sm.2.1]; exact h2,
        by rw [h3, sm.2.2 i h1 j h2]⟩
    · rintro ⟨h1, h2, h3⟩
      have h1' : i < (Mat.hier rs.length cs.length b).nRows := by rw [sm.1]; exact h1
      have h2' : j < (Mat.hier rs.length cs.length b).nCols := by rw [sm.2.1]; exact h2
      exact ⟨h1', h2', by rw [h3, sm.2.2 i h1' j h2']⟩

/-- C17: splitting a hierarchical matrix (without `Empty` blocks) succeeds exactly
when the partition is its own, and then returns its blocks. -/
theorem C17_split_hierarchical [Zero R] (br bc : Nat) (blk : Nat → Nat → Mat R)
    (h : (Mat.hier br bc blk).WF) (hE : (Mat.hier br bc blk).NoEmpty) (rs cs : List IndexRange) :
    ((∃ M, (Mat.hier br bc blk).splitOmm rs cs = .ok M) ↔
      (rs.map IndexRange.n = (List.range br).map (fun i => ((blk i 0).nRows : Int)) ∧
       cs.map IndexRange.n = (List.range bc).map (fun j => ((blk 0 j).nCols : Int)))) ∧
    (∀ M, (Mat.hier br bc blk).splitOmm rs cs = .ok M →
      ∃ g, M = .hier br bc g ∧ ∀ i < br, ∀ j < bc, g i j = blk i j) := by
  simp only [Mat.WF] at h
  simp only [Mat.NoEmpty] at hE
  refine ⟨⟨?_, ?_⟩, ?_⟩
  · rintro ⟨M, hM⟩
    obtain ⟨h1, h2, h3, -⟩ := Mat.splitHier_ok_iff hM
    constructor
    · apply List.ext_getElem (by simp [h1])
      intro i hi hi'
      simp only [List.length_map, List.length_range] at hi hi'
      have := (h3 i hi' 0 h.2.1).1
      rw [Mat.rangeAt_eq hi] at this
      simpa using this
    · apply List.ext_getElem (by simp [h2])
      intro i hi hi'
      simp only [List.length_map, List.length_range] at hi hi'
      have := (h3 0 h.1 i hi').2.1
      rw [Mat.rangeAt_eq hi] at this
      simpa using this
  · rintro ⟨h1, h2⟩
    have l1 : rs.length = br := by have := congrArg List.length h1; simpa using this
    have l2 : cs.length = bc := by have := congrArg List.length h2; simpa using this
    obtain ⟨g, hg, -⟩ := Mat.splitHier_ok (blk := blk) l1 l2 (by
      intro i hi j hj
      have hi' : i < rs.length := by omega
      have hj' : j < cs.length := by omega
      have e1 := List.getElem_of_eq h1 (i := i) (by simpa using hi')
      have e2 := List.getElem_of_eq h2 (i := j) (by simpa using hj')
      simp only [List.getElem_map, List.getElem_range] at e1 e2
      rw [Mat.rangeAt_eq hi', Mat.rangeAt_eq hj', e1, e2, (h.2.2 i hi j hj).2.1,
        (h.2.2 i hi j hj).2.2]
      exact ⟨rfl, rfl, hE i hi j hj⟩)
    exact ⟨_, hg⟩
  · intro M hM
    obtain ⟨-, -, -, g, rfl, hg⟩ := Mat.splitHier_ok_iff hM
    exact ⟨g, rfl, hg⟩

example : ∃ b, (Mat.lowRank MatEx.lr).splitOmm ((⟨0, 2⟩ : IndexRange).split 2)
    ((⟨0, 3⟩ : IndexRange).splitAt 1) = .ok (.hier 2 2 b) := by
  obtain ⟨b, hb, -⟩ := C17_split_leaf (Mat.lowRank MatEx.lr) MatEx.lr_wf trivial
    ((⟨0, 2⟩ : IndexRange).split 2) ((⟨0, 3⟩ : IndexRange).splitAt 1) (by decide) (by decide)
    (C01_split_partition_partial 0 2 2 (by omega) (by omega)).2
    (C02_split_at_partition ⟨0, 3⟩ 1 (by decide) (by decide)).2.2
  exact ⟨b, hb⟩

/-- C18: transposition is entrywise transposition, for every structure. -/
theorem C18_transpose [CommRing R] (A : Mat R) (h : A.WF) (hE : A.NoEmpty) :
    ∃ T, A.transpose = .ok T ∧ T.WF ∧
      ∀ i j v, T.EntryIs j i v ↔ A.EntryIs i j v := by
  obtain ⟨T, hT, hw, -, h0, h1, hv⟩ := Mat.transpose_ok A h hE
  refine ⟨T, hT, hw, fun i j v => ?_⟩
  rw [Mat.entryIs_iff _ hw, Mat.entryIs_iff _ h, h0, h1]
  constructor
  · rintro ⟨a, b, c⟩; exact ⟨b, a, by rw [c, hv i b j a]⟩
  · rintro ⟨a, b, c⟩; exact ⟨b, a, by rw [c, hv i a j b]⟩

/-- C18: transposing twice gives back the represented matrix. -/
theorem C18_transpose_involution [CommRing R] (A : Mat R) (h : A.WF) (hE : A.NoEmpty) :
    ∃ T A', A.transpose = .ok T ∧ T.transpose = .ok A' ∧ A'.WF ∧
      ∀ i j v, A'.EntryIs i j v ↔ A.EntryIs i j v := by
  obtain ⟨T, hT, hw, hN, -⟩ := Mat.transpose_ok A h hE
  obtain ⟨T', hT', -, h1⟩ := C18_transpose A h hE
  rw [hT] at hT'
  cases Except.ok.inj hT'
  obtain ⟨A', hA', hw', h2⟩ := C18_transpose T hw hN
  exact ⟨T, A', hT, hA', hw', fun i j v => (h2 j i v).trans (h1 i j v)⟩

example : ∃ T, MatEx.nested.transpose = .ok T ∧ T.EntryIs 4 1 12 := by
  obtain ⟨T, hT, -, h⟩ := C18_transpose _ MatEx.nested_wf MatEx.nested_noEmpty
  refine ⟨T, hT, (h 1 4 12).2 ?_⟩
  have e := Mat.EntryIs.hier 2 2 MatEx.nestedBlk 0 1 1 2 12 (by omega) (by omega)
    (show Mat.EntryIs (Mat.lowRank MatEx.lr) 1 2 12 from
      .lowRank MatEx.lr 1 2 (by decide) (by decide))
  simpa [MatEx.nested, MatEx.nestedBlk, Mat.nCols, Finset.sum_range_succ] using e

/-- C19: `A *= b` multiplies every represented entry by `b`. -/
theorem C19_scale [CommRing R] (A : Mat R) (h : A.WF) (hE : A.NoEmpty) (b : R) :
    ∃ A', A.scale b = .ok A' ∧ A'.WF ∧ A'.nRows = A.nRows ∧ A'.nCols = A.nCols ∧
      ∀ i j v, A.EntryIs i j v → A'.EntryIs i j (v * b) := by
  obtain ⟨A', hA', hw, h0, h1, hv⟩ := Mat.scale_ok A h hE b
  refine ⟨A', hA', hw, h0, h1, fun i j v => ?_⟩
  rw [Mat.entryIs_iff _ hw, Mat.entryIs_iff _ h, h0, h1]
  rintro ⟨a, c, d⟩
  exact ⟨a, c, by rw [d, hv i a j c]⟩

/-- C19: `zero_all` makes every represented entry 0. -/
theorem C19_zero_all [CommRing R] (A : Mat R) (h : A.WF) (hE : A.NoEmpty) :
    ∃ A', A.zeroAll = .ok A' ∧ A'.WF ∧ A'.nRows = A.nRows ∧ A'.nCols = A.nCols ∧
      ∀ i < A.nRows, ∀ j < A.nCols, A'.EntryIs i j 0 := by
  obtain ⟨A', hA', hw, h0, h1, hv⟩ := Mat.zeroAll_ok A h hE
  refine ⟨A', hA', hw, h0, h1, fun i hi j hj => ?_⟩
  rw [Mat.entryIs_iff _ hw, h0, h1]
  exact ⟨hi, hj, (hv i hi j hj).symm⟩

/-- C19: `zero_lower` zeroes exactly the entries strictly below the diagonal. -/
theorem C19_zero_lower [CommRing R] (A : Mat R) (h : A.WF) (hE : A.NoEmpty) (hD : A.DiagOk) :
    ∃ A', A.zeroLower = .ok A' ∧ A'.WF ∧ A'.nRows = A.nRows ∧ A'.nCols = A.nCols ∧
      ∀ i j v, A.EntryIs i j v → A'.EntryIs i j (if j < i then 0 else v) := by
  obtain ⟨A', hA', hw, h0, h1, hv⟩ := Mat.zeroLower_ok A h hE hD
  refine ⟨A', hA', hw, h0, h1, fun i j v => ?_⟩
  rw [Mat.entryIs_iff _ hw, Mat.entryIs_iff _ h, h0, h1]
  rintro ⟨a, c, d⟩
  exact ⟨a, c, by rw [d, hv i a j c]⟩

/-- C19: `zero_upper` zeroes exactly the entries strictly above the diagonal. -/
theorem C19_zero_upper [CommRing R] (A : Mat R) (h : A.WF) (hE : A.NoEmpty) (hD : A.DiagOk) :
    ∃ A', A.zeroUpper = .ok A' ∧ A'.WF ∧ A'.nRows = A.nRows ∧ A'.nCols = A.nCols ∧
      ∀ i j v, A.EntryIs i j v → A'.EntryIs i j (if i < j then 0 else v) := by
  obtain ⟨A', hA', hw, h0, h1, hv⟩ := Mat.zeroUpper_ok A h hE hD
  refine ⟨A', hA', hw, h0, h1, fun i j v => ?_⟩
  rw [Mat.entryIs_iff _ hw, Mat.entryIs_iff _ h, h0, h1]
  rintro ⟨a, c, d⟩
  exact ⟨a, c, by rw [d, hv i a j c]⟩

-- the structure condition of the triangular versions is met by a nested matrix
-- with a rectangular last block
example : (Mat.hier 2 2 (fun i j =>
    if i = 0 ∧ j = 1 then .lowRank MatEx.lr
    else .dense ⟨if i = 0 then 2 else 1, if j = 0 then 2 else 3, fun r s => r + s⟩)).DiagOk := by
  simp only [Mat.DiagOk]
  intro k hk _
  have : k = 0 ∨ k = 1 := by omega
  rcases this with rfl | rfl <;> simp [Mat.DiagOk, Mat.nRows, Mat.nCols]

/-- The squareness condition is needed: with a 1x2 first diagonal block the
entry (1,1) of the matrix, on the diagonal, is zeroed. -/
theorem C19_zero_lower_needs_square :
    ∃ A A' : Mat ℤ, A.WF ∧ A.NoEmpty ∧ A.zeroLower = .ok A' ∧
      A.entry 1 1 = 1 ∧ A'.entry 1 1 = 0 := by
  refine ⟨.hier 2 1 (fun _ _ => .dense ⟨1, 2, fun _ _ => 1⟩), _, ?_, ?_, rfl, ?_, ?_⟩
  · simp only [Mat.WF]
    exact ⟨by decide, by decide, fun i _ j _ => ⟨trivial, trivial, by simp⟩⟩
  · simp only [Mat.NoEmpty]
    exact fun i _ j _ => trivial
  · rfl
  · rfl

/-- C20: the norm is the sum of the squares of all represented entries. -/
theorem C20_norm [CommRing R] [Inhabited R] (A : Mat R) (h : A.WF) (hE : A.NoEmpty) :
    ∃ D, A.toDense = .ok D ∧
      A.norm = .ok (∑ i ∈ range D.rows, ∑ j ∈ range D.cols, D.val i j * D.val i j) := by
  obtain ⟨D, hD, h0, h1, hv⟩ := Mat.toDense_ok A h
  refine ⟨D, hD, ?_⟩
  rw [Mat.norm_ok A h hE, ← Mat.normDense_eq h0 h1 hv]
  rfl

/-- C20: whatever the two structures, a successful `l2_error(A, B)` is
`sqrt(‖A-B‖² / (‖A‖² + eps))` of the represented matrices. -/
theorem C20_l2_error_value (ε : ℝ) (fuel : Nat) (A B : Mat ℝ) (hA : A.WF) (hB : B.WF) (e : ℝ)
    (h : l2Error ε fuel A B = .ok e) :
    ∃ a b, A.toDense = .ok a ∧ B.toDense = .ok b ∧ a.rows = b.rows ∧ a.cols = b.cols ∧
      e = Real.sqrt
        ((∑ i ∈ range a.rows, ∑ j ∈ range a.cols,
            (a.val i j - b.val i j) * (a.val i j - b.val i j)) /
          ((∑ i ∈ range a.rows, ∑ j ∈ range a.cols, a.val i j * a.val i j) + ε)) := by
  obtain ⟨a, ha, a0, a1, av⟩ := Mat.toDense_ok A hA
  obtain ⟨b, hb, b0, b1, bv⟩ := Mat.toDense_ok B hB
  simp only [l2Error, Mat.l2ErrorParts, except_bind_eq_ok] at h
  obtain ⟨p, ⟨-, -, -, -, hp⟩, hfin⟩ := h
  obtain ⟨⟨hr, hc⟩, hx, hy⟩ := Mat.collectDiffNorm_correct fuel A B hA hB p.1 p.2 hp
  refine ⟨a, b, ha, hb, by omega, by omega, ?_⟩
  rw [← Except.ok.inj hfin, hx, hy, a0, a1]
  congr 2
  · refine Finset.sum_congr rfl (fun i hi => Finset.sum_congr rfl (fun j hj => ?_))
    simp only [Finset.mem_range] at hi hj
    rw [av i hi j hj, bv i (by omega) j (by omega)]
  · congr 1
    refine Finset.sum_congr rfl (fun i hi => Finset.sum_congr rfl (fun j hj => ?_))
    simp only [Finset.mem_range] at hi hj
    rw [av i hi j hj]

/-- C20: two representations of the same matrices give the same `l2_error`. -/
theorem C20_l2_error_structure_independent (ε : ℝ) (f f' : Nat) (A B A' B' : Mat ℝ)
    (hA : A.WF) (hB : B.WF) (hA' : A'.WF) (hB' : B'.WF)
    (sA : ∀ i j v, A.EntryIs i j v ↔ A'.EntryIs i j v)
    (sB : ∀ i j v, B.EntryIs i j v ↔ B'.EntryIs i j v)
    (dA : A.nRows = A'.nRows ∧ A.nCols = A'.nCols)
    (e e' : ℝ) (h : l2Error ε f A B = .ok e) (h' : l2Error ε f' A' B' = .ok e') : e = e' := by
  simp only [l2Error, Mat.l2ErrorParts, except_bind_eq_ok] at h h'
  obtain ⟨p, ⟨-, -, -, -, hp⟩, hfin⟩ := h
  obtain ⟨p', ⟨-, -, -, -, hp'⟩, hfin'⟩ := h'
  obtain ⟨⟨hr, hc⟩, hx, hy⟩ := Mat.collectDiffNorm_correct f A B hA hB p.1 p.2 hp
  obtain ⟨⟨hr', hc'⟩, hx', hy'⟩ := Mat.collectDiffNorm_correct f' A' B' hA' hB' p'.1 p'.2 hp'
  have eA : Mat.SameEntries A A' := ⟨dA.1, dA.2, fun i hi j hj =>
    (((Mat.entryIs_iff A' hA' i j _).1
      ((sA i j (A.entry i j)).1 ((Mat.entryIs_iff A hA i j _).2 ⟨hi, hj, rfl⟩))).2.2)⟩
  have eB : Mat.SameEntries B B' := ⟨by omega, by omega, fun i hi j hj =>
    (((Mat.entryIs_iff B' hB' i j _).1
      ((sB i j (B.entry i j)).1 ((Mat.entryIs_iff B hB i j _).2 ⟨hi, hj, rfl⟩))).2.2)⟩
  rw [← Except.ok.inj hfin, ← Except.ok.inj hfin', hx, hy, hx', hy',
    Mat.sumSqDiff_congr eA eB hr' hc', Mat.sumSq_congr eA]

/-- C20: `l2_error` succeeds on all evenly split matrices of equal dimensions
(any mixture of leaves and nested blocks on either side). -/
theorem C20_l2_error_succeeds (ε : ℝ) (A B : Mat ℝ) (hA : A.WF) (hB : B.WF)
    (nA : A.NoEmpty) (nB : B.NoEmpty) (eA : A.Even) (eB : B.Even)
    (hr : A.nRows = B.nRows) (hc : A.nCols = B.nCols) :
    ∃ N, ∀ fuel, N ≤ fuel → ∃ e, l2Error ε fuel A B = .ok e := by
  refine ⟨2 * (A.depth + B.depth) + 1, fun fuel hf => ?_⟩
  obtain ⟨r, h⟩ := Mat.collectDiffNorm_total fuel A B hA hB nA nB eA eB hr hc hf
  exact ⟨_, by simp only [l2Error, Mat.l2ErrorParts, hr, hc, h, decide_true, assertM, if_true,
    except_bind_ok]; rfl⟩

/-- A hierarchical matrix with evenly split blocks of mixed kind, as used by the
examples. -/
example : ∃ N, ∀ fuel, N ≤ fuel → ∃ e, l2Error (1 / 2) fuel
    (.hier 2 2 (fun i j => .dense ⟨2 - i, 2 - j, fun r s => r + s⟩))
    (.dense ⟨3, 3, fun r s => r - s⟩) = .ok e := by
  apply C20_l2_error_succeeds
  · simp only [Mat.WF]
    exact ⟨by decide, by decide, fun i _ j _ => ⟨trivial, rfl, rfl⟩⟩
  · trivial
  · simp only [Mat.NoEmpty]; exact fun i _ j _ => trivial
  · trivial
  · simp only [Mat.Even]
    intro i hi j hj
    have : (i = 0 ∨ i = 1) ∧ (j = 0 ∨ j = 1) := by omega
    obtain ⟨rfl | rfl, rfl | rfl⟩ := this <;>
      simp [Mat.nRows, Mat.nCols, Finset.sum_range_succ] <;> decide
  · trivial
  · simp [Mat.nRows, Finset.sum_range_succ]
  · simp [Mat.nCols, Finset.sum_range_succ]

/-- Number of stored floating-point numbers. -/
def storedElements : Mat R → Nat
  | .dense d => d.rows * d.cols
  | .lowRank l => l.dim0 * l.rank + l.rank * l.rank + l.rank * l.dim1
  | .hier br bc blk => ∑ i ∈ range br, ∑ j ∈ range bc, storedElements (blk i j)
  | .empty _ _ => 0

/-- Fixed overhead per object: `szD` per dense matrix, `szL + 2*szD` per low-rank
matrix, `szH` per hierarchical matrix and `szP` per block. -/
def objectOverhead (szD szL szH szP : Nat) : Mat R → Nat
  | .dense _ => szD
  | .lowRank _ => szL + 2 * szD
  | .hier br bc blk => (∑ i ∈ range br, ∑ j ∈ range bc, objectOverhead szD szL szH szP (blk i j))
      + br * bc * szP + szH
  | .empty _ _ => 0

/-- C48: the reported memory is 8 bytes per stored number, plus the fixed overhead
per object when the structure is included. -/
theorem C48_memory (szD szL szH szP : Nat) (hsz : szD ≤ szL) (struc : Bool) (A : Mat R)
    (h : A.WF) (hS : A.Square) (hE : A.NoEmpty) :
    A.memUsage szD szL szH szP struc = .ok (8 * storedElements A +
      if struc then objectOverhead szD szL szH szP A else 0) := by
  induction A with
  | dense d =>
    simp only [Mat.memUsage, storedElements, objectOverhead, Nat.mul_comm]
  | lowRank l =>
    simp only [Mat.WF] at h
    simp only [Mat.memUsage, storedElements, objectOverhead, h.urows, h.ucols, h.srows, h.vrows, h.vcols,
      show l.S.cols = l.rank from hS]
    cases struc
    · simp; omega
    · simp; omega
  | empty => exact hE.elim
  | hier br bc blk ih =>
    simp only [Mat.WF] at h
    simp only [Mat.NoEmpty] at hE
    simp only [Mat.Square] at hS
    obtain ⟨g, hg⟩ := collect2_exists (m := br) (n := bc)
      (f := fun i j => (blk i j).memUsage szD szL szH szP struc)
      (fun i hi j hj => ⟨_, ih i j (h.2.2 i hi j hj).1 (hS i hi j hj) (hE i hi j hj)⟩)
    have e : ∀ i ∈ range br, ∀ j ∈ range bc, g i j = 8 * storedElements (blk i j) +
        if struc then objectOverhead szD szL szH szP (blk i j) else 0 := by
      intro i hi j hj
      simp only [Finset.mem_range] at hi hj
      have := collect2_ok hg i hi j hj
      rw [ih i j (h.2.2 i hi j hj).1 (hS i hi j hj) (hE i hi j hj)] at this
      exact (Except.ok.inj this).symm
    simp only [Mat.memUsage, hg, except_bind_ok]
    rw [Finset.sum_congr rfl (fun i hi => Finset.sum_congr rfl (fun j hj => e i hi j hj))]
    simp only [storedElements, objectOverhead]
    congr 1
    cases struc
    · simp [Finset.mul_sum]
    · simp only [if_true, Finset.sum_add_distrib, Finset.mul_sum]
      omega

/-- C48: additivity over the blocks. -/
theorem C48_memory_additive (szD szL szH szP : Nat) (hsz : szD ≤ szL) (br bc : Nat)
    (blk : Nat → Nat → Mat R) (h : (Mat.hier br bc blk).WF) (hS : (Mat.hier br bc blk).Square)
    (hE : (Mat.hier br bc blk).NoEmpty) :
    ∃ m : Nat → Nat → Nat,
      (∀ i < br, ∀ j < bc, (blk i j).memUsage szD szL szH szP false = .ok (m i j)) ∧
      (Mat.hier br bc blk).memUsage szD szL szH szP false =
        .ok (∑ i ∈ range br, ∑ j ∈ range bc, m i j) := by
  have h' := h
  simp only [Mat.WF] at h'
  have hE' := hE
  simp only [Mat.NoEmpty] at hE'
  have hS' := hS
  simp only [Mat.Square] at hS'
  refine ⟨fun i j => 8 * storedElements (blk i j), fun i hi j hj => ?_, ?_⟩
  · rw [C48_memory szD szL szH szP hsz false _ (h'.2.2 i hi j hj).1 (hS' i hi j hj) (hE' i hi j hj)]; simp
  · rw [C48_memory szD szL szH szP hsz false _ h hS hE]
    simp [storedElements, Finset.mul_sum]

example : (MatEx.nested.memUsage 104 360 64 8 false) = .ok 120 := by
  rw [C48_memory _ _ _ _ (by omega) false _ MatEx.nested_wf MatEx.nested_square MatEx.nested_noEmpty]
  simp [storedElements, MatEx.nested, MatEx.nestedBlk, MatEx.lr, Finset.sum_range_succ]

/-- C51: `resize` returns the leading block, and larger sizes are rejected by an
assertion. -/
theorem C51_resize (A : Dense R) (m n : Nat) :
    (m ≤ A.rows → n ≤ A.cols → ∃ D : Dense R, (Mat.dense A).resize m n = .ok (.dense D) ∧
      D.rows = m ∧ D.cols = n ∧ ∀ i < m, ∀ j < n, D.val i j = A.val i j) ∧
    (A.rows < m ∨ A.cols < n → (Mat.dense A).resize m n = .error .assertFail) := by
  constructor
  · intro h1 h2
    exact ⟨⟨m, n, fun i j => A.val (0 + i) (0 + j)⟩,
      by simp [Mat.resize, Dense.resize, assertM, h1, h2], rfl, rfl, fun i _ j _ => by simp⟩
  · intro h
    by_cases h1 : m ≤ A.rows
    · have h2 : ¬ n ≤ A.cols := by omega
      simp [Mat.resize, Dense.resize, assertM, h1, h2]
    · simp [Mat.resize, Dense.resize, assertM, h1]

/-- C51: `resize` aborts on every other kind of matrix. -/
theorem C51_resize_dense_only (A : Mat R) (hA : ∀ d, A ≠ .dense d) (m n : Nat) :
    A.resize m n = .error .abort := by
  cases A with
  | dense d => exact absurd rfl (hA d)
  | lowRank => rfl
  | hier => rfl
  | empty => rfl

end Verif
