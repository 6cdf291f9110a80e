import Verif.Props.MatBasic
import Verif.Props.Partition

/-!
C17: splitting a matrix into given numbers of blocks, splitting it like another matrix,
and the ranges that are rejected.
-/

namespace Verif

open Finset

variable {R : Type}

/-- Size of a part of `split`. -/
theorem splitPart_size {n k i m : Nat} (hk : 1 ≤ k) (h : (n + k - 1) / k * (k - 1) ≤ n) (hi : i < k)
    (e : (m : Int) = (Mat.rangeAt ((⟨0, n⟩ : IndexRange).split k) i).n) :
    m = if i + 1 = k then n - (n + k - 1) / k * (k - 1) else (n + k - 1) / k := by
  have c : Int.tdiv ((n : Int) + k - 1) k = (((n + k - 1) / k : Nat) : Int) := by
    have : ((n : Int) + k - 1) = ((n + k - 1 : Nat) : Int) := by omega
    rw [this, Int.tdiv_eq_ediv_of_nonneg (by omega)]
    rfl
  have k1 : ((k : Int) - 1) = ((k - 1 : Nat) : Int) := by omega
  rw [Mat.rangeAt_eq (by simpa [IndexRange.split] using hi)] at e
  simp only [IndexRange.split, List.getElem_map, List.getElem_range, IndexRange.splitChild, c, k1] at e
  by_cases g : i + 1 = k
  · rw [if_pos g]
    rw [if_pos (by omega), ← Nat.cast_mul] at e
    omega
  · rw [if_neg g]
    rw [if_neg (by omega)] at e
    omega

/-- C17: `split(A, nr, nc)` of a dense or low-rank matrix succeeds if the rows are cut
evenly enough (the condition of C01), and so are the columns; it gives `nr` block rows
and `nc` block columns that represent the matrix.  All blocks but those in the last row
(column) have the height (width) of the first ones, rounded up. -/
theorem C17_split_blocks [CommRing R] (A : Mat R) (h : A.WF) (hl : A.Leaf) {nr nc : Nat} (hr : 1 ≤ nr) (hc : 1 ≤ nc)
    (hr' : (A.nRows + nr - 1) / nr * (nr - 1) ≤ A.nRows) (hc' : (A.nCols + nc - 1) / nc * (nc - 1) ≤ A.nCols) :
    ∃ b, A.split nr nc = .ok (.hier nr nc b) ∧ (Mat.hier nr nc b).WF ∧
      (∀ i < nr, ∀ j < nc,
        (b i j).nRows = (if i + 1 = nr then A.nRows - (A.nRows + nr - 1) / nr * (nr - 1) else (A.nRows + nr - 1) / nr) ∧
        (b i j).nCols = (if j + 1 = nc then A.nCols - (A.nCols + nc - 1) / nc * (nc - 1) else (A.nCols + nc - 1) / nc)) ∧
      (∀ i j v, (Mat.hier nr nc b).EntryIs i j v ↔ A.EntryIs i j v) := by
  obtain ⟨l1, p1⟩ := C01_split_partition_iff 0 A.nRows nr hr
  obtain ⟨l2, p2⟩ := C01_split_partition_iff 0 A.nCols nc hc
  obtain ⟨b, e, d, w, v⟩ := C17_split_leaf A h hl _ _
    (fun n => by rw [n] at l1; simp at l1; omega)
    (fun n => by rw [n] at l2; simp at l2; omega) (p1.2 hr') (p2.2 hc')
  rw [l1, l2] at e d w v
  refine ⟨b, e, w, fun i hi j hj => ?_, v⟩
  obtain ⟨d0, d1⟩ := d i hi j hj
  exact ⟨splitPart_size hr hr' hi d0, splitPart_size hc hc' hj d1⟩

/-- C17: `split(A, like)` of a dense or low-rank matrix succeeds for every hierarchical
matrix `like` of the same dimensions; the blocks of the result are as large as those of
`like` and represent `A`. -/
theorem C17_split_like [CommRing R] (A : Mat R) (h : A.WF) (hl : A.Leaf) {br bc : Nat} {blk : Nat → Nat → Mat R}
    (hL : (Mat.hier br bc blk).WF) (h0 : A.nRows = (Mat.hier br bc blk).nRows)
    (h1 : A.nCols = (Mat.hier br bc blk).nCols) :
    ∃ b, A.splitLikeH br bc blk = .ok (.hier br bc b) ∧ (Mat.hier br bc b).WF ∧
      (∀ i < br, ∀ j < bc, (b i j).nRows = (blk i j).nRows ∧ (b i j).nCols = (blk i j).nCols) ∧
      (∀ i j v, (Mat.hier br bc b).EntryIs i j v ↔ A.EntryIs i j v) := by
  obtain ⟨l1, s1, p1, l2, s2, p2⟩ := C02_split_like_partition_mat ⟨0, A.nRows⟩ br bc blk
  obtain ⟨-, -, -, l2', s2', p2'⟩ := C02_split_like_partition_mat ⟨0, A.nCols⟩ br bc blk
  have hw := hL
  simp only [Mat.WF] at hw
  rw [← h0] at p1
  rw [← h1] at p2'
  obtain ⟨b, e, d, w, v⟩ := C17_split_leaf A h hl _ _
    (fun n => by rw [n] at l1; have := hw.1; simp at l1; omega)
    (fun n => by rw [n] at l2'; have := hw.2.1; simp at l2'; omega) p1 p2'
  rw [l1, l2'] at e d w v
  refine ⟨b, ?_, w, fun i hi j hj => ?_, v⟩
  · unfold Mat.splitLikeH
    rw [decide_eq_true h0, decide_eq_true h1]
    exact e
  · obtain ⟨d0, d1⟩ := d i hi j hj
    rw [s1 i hi, Int.natCast_inj] at d0
    rw [s2' j hj, Int.natCast_inj] at d1
    have q := hw.2.2 i hi j hj
    exact ⟨d0.trans q.2.1.symm, d1.trans q.2.2.symm⟩

/-- C17: matrices of different dimensions are rejected. -/
theorem C17_split_like_rejected [CommRing R] (A : Mat R) {br bc : Nat} {blk : Nat → Nat → Mat R}
    (h : A.nRows ≠ (Mat.hier br bc blk).nRows ∨ A.nCols ≠ (Mat.hier br bc blk).nCols) :
    A.splitLikeH br bc blk = .error .assertFail := by
  unfold Mat.splitLikeH assertM
  by_cases g : A.nRows = (Mat.hier br bc blk).nRows
  · have g' := h.resolve_left (fun k => k g)
    rw [decide_eq_true g, decide_eq_false g']
    rfl
  · rw [decide_eq_false g]
    rfl

/-- C17: a dense matrix is split exactly along ranges inside it. -/
theorem C17_split_dense_iff [CommRing R] (A : Dense R) (rs cs : List IndexRange) :
    (∃ M, (Mat.dense A).splitOmm rs cs = .ok M) ↔
      (∀ r ∈ rs, 0 ≤ r.start ∧ 0 ≤ r.n ∧ r.start + r.n ≤ A.rows) ∧
      ∀ c ∈ cs, 0 ≤ c.start ∧ 0 ≤ c.n ∧ c.start + c.n ≤ A.cols := by
  have key : (Mat.rangesInside A.rows rs ∧ Mat.rangesInside A.cols cs) ↔
      (∀ r ∈ rs, 0 ≤ r.start ∧ 0 ≤ r.n ∧ r.start + r.n ≤ A.rows) ∧
      ∀ c ∈ cs, 0 ≤ c.start ∧ 0 ≤ c.n ∧ c.start + c.n ≤ A.cols := by
    simp only [Mat.rangesInside, List.all_eq_true, decide_eq_true_eq]
  rw [← key]
  constructor
  · rintro ⟨M, hM⟩
    by_contra g
    have : (Mat.dense A).splitOmm rs cs = .error .ub := if_neg g
    rw [this] at hM
    exact (nomatch hM)
  · intro g
    exact ⟨_, if_pos g⟩

/-- A low-rank matrix of two rows and three columns cut in two by two blocks. -/
example : ∃ b, (Mat.lowRank MatEx.lr).split 2 2 = .ok (.hier 2 2 b) ∧ (b 0 0).nCols = 2 ∧ (b 0 1).nCols = 1 := by
  obtain ⟨b, e, -, d, -⟩ := C17_split_blocks (Mat.lowRank MatEx.lr) MatEx.lr_wf trivial (nr := 2) (nc := 2)
    (by decide) (by decide) (by decide) (by decide)
  exact ⟨b, e, (d 0 (by decide) 0 (by decide)).2, (d 0 (by decide) 1 (by decide)).2⟩

/-- A dense matrix split like the nested example. -/
example (A : Dense ℤ) (h0 : A.rows = MatEx.nested.nRows) (h1 : A.cols = MatEx.nested.nCols) :
    ∃ b, (Mat.dense A).splitLikeH 2 2 MatEx.nestedBlk = .ok (.hier 2 2 b) := by
  obtain ⟨b, e, -⟩ := C17_split_like (Mat.dense A) trivial trivial MatEx.nested_wf h0 h1
  exact ⟨b, e⟩

end Verif
