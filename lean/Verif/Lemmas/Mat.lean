import Verif.Spec.Mat
import Verif.Lemmas.Basic
import Verif.Lemmas.IndexRange
import Mathlib.Algebra.BigOperators.Intervals
import Mathlib.Tactic.Ring

namespace Verif
open Finset

variable {R : Type}

/-! ### locating blocks -/

theorem psum_succ (h : Nat → Nat) (n : Nat) : psum h (n + 1) = psum h n + h n :=
  Finset.sum_range_succ _ _

theorem psum_mono (h : Nat → Nat) {m n : Nat} (hmn : m ≤ n) : psum h m ≤ psum h n := by
  induction hmn with
  | refl => exact Nat.le_refl _
  | step _ ih => rw [Nat.succ_eq_add_one, psum_succ]; omega

theorem psum_le (h : Nat → Nat) {b n : Nat} (hb : b < n) : psum h b + h b ≤ psum h n := by
  rw [← psum_succ]; exact psum_mono h hb

theorem psum_congr {h h' : Nat → Nat} {n : Nat} (e : ∀ a < n, h a = h' a) :
    psum h n = psum h' n :=
  Finset.sum_congr rfl (fun a ha => e a (by simpa using ha))

namespace Mat

theorem locate_at (h : Nat → Nat) (n b r : Nat) (hb : b < n) (hr : r < h b) :
    locate h n (psum h b + r) = (b, r) := by
  induction n with
  | zero => omega
  | succ n ih =>
    by_cases hbn : b = n
    · subst hbn
      simp [locate]
    · have : psum h b + r < psum h n := by
        have := psum_le h (show b < n by omega)
        omega
      simp only [locate]
      rw [if_pos this]
      exact ih (by omega)

theorem locate_spec (h : Nat → Nat) (n i : Nat) (hi : i < psum h n) :
    (locate h n i).1 < n ∧ (locate h n i).2 < h (locate h n i).1 ∧
      psum h (locate h n i).1 + (locate h n i).2 = i := by
  induction n with
  | zero => simp [psum] at hi
  | succ n ih =>
    simp only [locate]
    split
    · rename_i hlt
      have := ih hlt
      exact ⟨by omega, this.2⟩
    · rename_i hge
      rw [psum_succ] at hi
      exact ⟨by simp, by show i - psum h n < h n; omega, by
        show psum h n + (i - psum h n) = i
        have : psum h n ≤ i := by simpa using hge
        omega⟩

theorem exists_block (h : Nat → Nat) (n i : Nat) (hi : i < psum h n) :
    ∃ b < n, ∃ r < h b, i = psum h b + r :=
  ⟨_, (locate_spec h n i hi).1, _, (locate_spec h n i hi).2.1, (locate_spec h n i hi).2.2.symm⟩

theorem locate_congr {h h' : Nat → Nat} {n : Nat} (e : ∀ a < n, h a = h' a) (i : Nat) :
    locate h n i = locate h' n i := by
  induction n with
  | zero => rfl
  | succ n ih =>
    have : psum h n = psum h' n := psum_congr (fun a ha => e a (by omega))
    simp only [locate]
    rw [this, ih (fun a ha => e a (by omega))]

theorem sum_blocks {M : Type} [AddCommMonoid M] (h : Nat → Nat) (n : Nat) (f : Nat → M) :
    ∑ i ∈ range (psum h n), f i = ∑ b ∈ range n, ∑ r ∈ range (h b), f (psum h b + r) := by
  induction n with
  | zero => simp [psum]
  | succ n ih =>
    rw [psum_succ, Finset.sum_range_add, ih, Finset.sum_range_succ]

theorem sum_blocks2 {M : Type} [AddCommMonoid M] (h w : Nat → Nat) (m n : Nat) (f : Nat → Nat → M) :
    ∑ i ∈ range (psum h m), ∑ j ∈ range (psum w n), f i j =
      ∑ a ∈ range m, ∑ b ∈ range n, ∑ r ∈ range (h a), ∑ s ∈ range (w b),
        f (psum h a + r) (psum w b + s) := by
  rw [sum_blocks]
  refine Finset.sum_congr rfl (fun a _ => ?_)
  rw [Finset.sum_comm]
  rw [sum_blocks]
  refine Finset.sum_congr rfl (fun b _ => ?_)
  rw [Finset.sum_comm]

/-! ### dimensions and entries -/

theorem nRows_hier (br bc : Nat) (blk : Nat → Nat → Mat R) :
    (Mat.hier br bc blk).nRows = psum (fun i => (blk i 0).nRows) br := by
  simp [nRows, psum]

theorem nCols_hier (br bc : Nat) (blk : Nat → Nat → Mat R) :
    (Mat.hier br bc blk).nCols = psum (fun j => (blk 0 j).nCols) bc := by
  simp [nCols, psum]

theorem denseAt_hier (br bc : Nat) (blk : Nat → Nat → Mat R) (i j : Nat) :
    (Mat.hier br bc blk).denseAt i j ↔
      (blk (locate (fun a => (blk a 0).nRows) br i).1
        (locate (fun b => (blk 0 b).nCols) bc j).1).denseAt
        (locate (fun a => (blk a 0).nRows) br i).2 (locate (fun b => (blk 0 b).nCols) bc j).2 := by
  simp [denseAt]

theorem denseAt_block {br bc : Nat} {blk : Nat → Nat → Mat R} {a b r s : Nat}
    (ha : a < br) (hb : b < bc) (hr : r < (blk a 0).nRows) (hs : s < (blk 0 b).nCols) :
    (Mat.hier br bc blk).denseAt (psum (fun a => (blk a 0).nRows) a + r)
      (psum (fun b => (blk 0 b).nCols) b + s) ↔ (blk a b).denseAt r s := by
  rw [denseAt_hier, locate_at (fun a => (blk a 0).nRows) br a r ha hr,
    locate_at (fun b => (blk 0 b).nCols) bc b s hb hs]

section entry
variable [CommRing R]

theorem entry_hier (br bc : Nat) (blk : Nat → Nat → Mat R) (i j : Nat) :
    (Mat.hier br bc blk).entry i j =
      (blk (locate (fun a => (blk a 0).nRows) br i).1 (locate (fun b => (blk 0 b).nCols) bc j).1).entry
        (locate (fun a => (blk a 0).nRows) br i).2 (locate (fun b => (blk 0 b).nCols) bc j).2 := by
  simp [entry]

theorem entry_block {br bc : Nat} {blk : Nat → Nat → Mat R} {a b r s : Nat}
    (ha : a < br) (hb : b < bc) (hr : r < (blk a 0).nRows) (hs : s < (blk 0 b).nCols) :
    (Mat.hier br bc blk).entry (psum (fun a => (blk a 0).nRows) a + r)
      (psum (fun b => (blk 0 b).nCols) b + s) = (blk a b).entry r s := by
  rw [entry_hier, locate_at (fun a => (blk a 0).nRows) br a r ha hr,
    locate_at (fun b => (blk 0 b).nCols) bc b s hb hs]

/-- Hierarchical matrices that agree block by block have the same entries. -/
theorem entry_hier_congr {br bc : Nat} {blk blk' : Nat → Nat → Mat R} {F : R → R}
    (hbr : 0 < br) (hbc : 0 < bc)
    (hw : ∀ i < br, ∀ j < bc,
      (blk i j).nRows = (blk i 0).nRows ∧ (blk i j).nCols = (blk 0 j).nCols)
    (hd : ∀ i < br, ∀ j < bc, (blk' i j).nRows = (blk i j).nRows ∧
      (blk' i j).nCols = (blk i j).nCols)
    (he : ∀ i < br, ∀ j < bc, ∀ r < (blk i j).nRows, ∀ s < (blk i j).nCols,
      (blk' i j).entry r s = F ((blk i j).entry r s)) :
    (Mat.hier br bc blk').nRows = (Mat.hier br bc blk).nRows ∧
    (Mat.hier br bc blk').nCols = (Mat.hier br bc blk).nCols ∧
    ∀ i < (Mat.hier br bc blk).nRows, ∀ j < (Mat.hier br bc blk).nCols,
      (Mat.hier br bc blk').entry i j = F ((Mat.hier br bc blk).entry i j) := by
  have h1 : ∀ a < br, (blk' a 0).nRows = (blk a 0).nRows := fun a ha => (hd a ha 0 hbc).1
  have h2 : ∀ b < bc, (blk' 0 b).nCols = (blk 0 b).nCols := fun b hb => (hd 0 hbr b hb).2
  refine ⟨?_, ?_, ?_⟩
  · rw [nRows_hier, nRows_hier]; exact psum_congr h1
  · rw [nCols_hier, nCols_hier]; exact psum_congr h2
  · intro i hi j hj
    rw [nRows_hier] at hi
    rw [nCols_hier] at hj
    obtain ⟨a, ha, r, hr, rfl⟩ := exists_block _ _ _ hi
    obtain ⟨b, hb, s, hs, rfl⟩ := exists_block _ _ _ hj
    rw [entry_block ha hb hr hs]
    rw [← he a ha b hb r (by rw [(hw a ha b hb).1]; exact hr) s (by rw [(hw a ha b hb).2]; exact hs)]
    have e1 : psum (fun a => (blk a 0).nRows) a = psum (fun a => (blk' a 0).nRows) a :=
      psum_congr (fun c hc => (h1 c (by omega)).symm)
    have e2 : psum (fun b => (blk 0 b).nCols) b = psum (fun b => (blk' 0 b).nCols) b :=
      psum_congr (fun c hc => (h2 c (by omega)).symm)
    rw [e1, e2]
    exact entry_block ha hb (by rw [h1 a ha]; exact hr) (by rw [h2 b hb]; exact hs)

/-- The function `entry` is the relation `EntryIs`. -/
theorem entryIs_iff (A : Mat R) (hA : A.WF) (i j : Nat) (v : R) :
    A.EntryIs i j v ↔ i < A.nRows ∧ j < A.nCols ∧ v = A.entry i j := by
  induction A generalizing i j v with
  | dense d =>
    constructor
    · intro h; cases h with
      | dense _ _ _ hi hj => exact ⟨hi, hj, rfl⟩
    · rintro ⟨hi, hj, rfl⟩; exact .dense d i j hi hj
  | lowRank l =>
    constructor
    · intro h; cases h with
      | lowRank _ _ _ hi hj => exact ⟨hi, hj, rfl⟩
    · rintro ⟨hi, hj, rfl⟩; exact .lowRank l i j hi hj
  | empty m n =>
    constructor
    · intro h; cases h with
      | empty _ _ _ _ hi hj => exact ⟨hi, hj, rfl⟩
    · rintro ⟨hi, hj, rfl⟩; exact .empty m n i j hi hj
  | hier br bc blk ih =>
    simp only [WF] at hA
    obtain ⟨hbr, hbc, hA⟩ := hA
    constructor
    · intro h
      cases h with
      | hier _ _ _ a b r s _ ha hb h =>
        obtain ⟨hr, hs, rfl⟩ := (ih a b (hA a ha b hb).1 r s _).1 h
        rw [(hA a ha b hb).2.1] at hr
        rw [(hA a ha b hb).2.2] at hs
        rw [nRows_hier, nCols_hier]
        have h1 := psum_le (fun a => (blk a 0).nRows) ha
        have h2 := psum_le (fun b => (blk 0 b).nCols) hb
        simp only [psum] at h1 h2
        refine ⟨by simp only [psum]; omega, by simp only [psum]; omega, ?_⟩
        exact (entry_block ha hb hr hs).symm
    · rintro ⟨hi, hj, rfl⟩
      rw [nRows_hier] at hi
      rw [nCols_hier] at hj
      obtain ⟨a, ha, r, hr, rfl⟩ := exists_block _ _ _ hi
      obtain ⟨b, hb, s, hs, rfl⟩ := exists_block _ _ _ hj
      rw [entry_block ha hb hr hs]
      show EntryIs _ ((∑ a' ∈ range a, (blk a' 0).nRows) + r)
        ((∑ b' ∈ range b, (blk 0 b').nCols) + s) _
      refine .hier br bc blk a b r s _ ha hb ?_
      exact (ih a b (hA a ha b hb).1 r s _).2
        ⟨by rw [(hA a ha b hb).2.1]; exact hr, by rw [(hA a ha b hb).2.2]; exact hs, rfl⟩

end entry

/-! ### dimension queries -/

theorem getNRows_eq (A : Mat R) (hA : A.WF) : A.getNRows = .ok A.nRows := by
  induction A with
  | dense d => rfl
  | lowRank l => rfl
  | empty m n => rfl
  | hier br bc blk ih =>
    simp only [WF] at hA
    obtain ⟨hbr, hbc, hA⟩ := hA
    simp only [getNRows, hbc, if_true]
    obtain ⟨g, hg⟩ := collect_exists (n := br) (f := fun i => (blk i 0).getNRows)
      (fun i hi => ⟨_, ih i 0 (hA i hi 0 hbc).1⟩)
    rw [hg]
    have := collect_ok hg
    rw [nRows_hier]
    simp only [except_bind_ok]
    congr 1
    refine Finset.sum_congr rfl (fun i hi => ?_)
    have hi : i < br := by simpa using hi
    have h1 := this i hi
    rw [ih i 0 (hA i hi 0 hbc).1] at h1
    exact Except.ok.inj h1.symm

theorem getNCols_eq (A : Mat R) (hA : A.WF) : A.getNCols = .ok A.nCols := by
  induction A with
  | dense d => rfl
  | lowRank l => rfl
  | empty m n => rfl
  | hier br bc blk ih =>
    simp only [WF] at hA
    obtain ⟨hbr, hbc, hA⟩ := hA
    simp only [getNCols, hbr, if_true]
    obtain ⟨g, hg⟩ := collect_exists (n := bc) (f := fun i => (blk 0 i).getNCols)
      (fun i hi => ⟨_, ih 0 i (hA 0 hbr i hi).1⟩)
    rw [hg]
    have := collect_ok hg
    rw [nCols_hier]
    simp only [except_bind_ok]
    congr 1
    refine Finset.sum_congr rfl (fun i hi => ?_)
    have hi : i < bc := by simpa using hi
    have h1 := this i hi
    rw [ih 0 i (hA 0 hbr i hi).1] at h1
    exact Except.ok.inj h1.symm

/-! ### dense products -/

theorem Dense_gemm_ok [CommRing R] {A B C : Dense R} {α β : R} {ta tb : Bool}
    (h1 : (if ta then A.cols else A.rows) = C.rows)
    (h2 : (if ta then A.rows else A.cols) = (if tb then B.cols else B.rows))
    (h3 : (if tb then B.rows else B.cols) = C.cols) :
    Dense.gemm A B C α β ta tb = .ok ⟨C.rows, C.cols, fun i j =>
      α * (∑ l ∈ range (if ta then A.rows else A.cols), A.opVal ta i l * B.opVal tb l j)
        + β * C.val i j⟩ := by
  simp only [Dense.gemm, h1, h2, h3, decide_true, assertM, if_true, except_bind_ok]

theorem Dense_gemm_eq_ok [CommRing R] {A B C D : Dense R} {α β : R} {ta tb : Bool}
    (h : Dense.gemm A B C α β ta tb = .ok D) :
    ((if ta then A.cols else A.rows) = C.rows ∧
    (if ta then A.rows else A.cols) = (if tb then B.cols else B.rows) ∧
    (if tb then B.rows else B.cols) = C.cols) ∧ D = ⟨C.rows, C.cols, fun i j =>
      α * (∑ l ∈ range (if ta then A.rows else A.cols), A.opVal ta i l * B.opVal tb l j)
        + β * C.val i j⟩ := by
  simp only [Dense.gemm, except_bind_eq_ok, assertM_eq_ok, decide_eq_true_eq] at h
  obtain ⟨-, h1, -, h2, -, h3, h4⟩ := h
  cases h4
  exact ⟨⟨h1, h2, h3⟩, rfl⟩

theorem fillDense_ok [CommRing R] (l : LowRank R) (hl : l.WF) (B : Dense R)
    (h0 : B.rows = l.dim0) (h1 : B.cols = l.dim1) :
    ∃ D, l.fillDense B = .ok D ∧ D.rows = B.rows ∧ D.cols = B.cols ∧
      ∀ i j, D.val i j = l.entry i j := by
  unfold LowRank.fillDense Dense.gemmNew
  have e : assertM (decide ((if false = true then l.U.rows else l.U.cols) =
      (if false = true then l.S.cols else l.S.rows))) = .ok () := by
    rw [assertM_eq_ok]; simp [hl.ucols, hl.srows]
  rw [e]
  simp only [except_bind_ok]
  rw [Dense_gemm_ok (by simp [Dense.zero]) (by simp [hl.ucols, hl.srows]) (by simp [Dense.zero])]
  simp only [except_bind_ok]
  rw [Dense_gemm_ok (by simp [Dense.zero, hl.urows, h0]) (by simp [Dense.zero, hl.vrows])
    (by simp [h1, hl.vcols])]
  refine ⟨_, rfl, rfl, rfl, fun i j => ?_⟩
  simp [LowRank.entry, Dense.opVal, Dense.zero, hl.ucols, hl.srows]

/-! ### partitions of a dimension -/

/-- Sizes of the parts. -/
def partSizes (l : List IndexRange) (i : Nat) : Nat := (rangeAt l i).n.toNat

theorem rangeAt_eq {l : List IndexRange} {i : Nat} (h : i < l.length) : rangeAt l i = l[i] := by
  simp [rangeAt, List.getD, h]

theorem partition_starts {n : Nat} {l : List IndexRange} (h : IsPartition ⟨0, n⟩ l) :
    ∀ i < l.length, (rangeAt l i).start = (psum (partSizes l) i : Nat) := by
  intro i
  induction i with
  | zero =>
    intro hi
    rw [rangeAt_eq hi, h.first hi]; simp [psum]
  | succ i ih =>
    intro hi
    have h1 := h.adjacent i hi
    have h2 := ih (by omega)
    have h3 := h.nonneg l[i] (List.getElem_mem _)
    rw [rangeAt_eq hi, ← h1, psum_succ, partSizes]
    rw [rangeAt_eq (show i < l.length by omega)] at h2 ⊢
    rw [h2]
    push_cast
    omega

theorem partition_nonneg {n : Nat} {l : List IndexRange} (h : IsPartition ⟨0, n⟩ l) {i : Nat}
    (hi : i < l.length) : (rangeAt l i).n = (partSizes l i : Nat) := by
  have := h.nonneg l[i] (List.getElem_mem _)
  rw [partSizes, rangeAt_eq hi]; omega

theorem partition_total {n : Nat} {l : List IndexRange} (h : IsPartition ⟨0, n⟩ l) :
    psum (partSizes l) l.length = n := by
  apply Nat.le_antisymm
  · by_contra hlt
    push Not at hlt
    obtain ⟨b, hb, r, hr, e⟩ := exists_block _ _ _ hlt
    have h1 := partition_starts h b hb
    have h2 := partition_nonneg h hb
    have := h.inside l[b] (List.getElem_mem _) n (by
      rw [← rangeAt_eq hb]
      constructor
      · rw [h1]; omega
      · rw [h1, h2]; omega)
    have := this.2
    simp at this
  · by_contra hlt
    push Not at hlt
    obtain ⟨b, ⟨hb, hin⟩, -⟩ := h.cover (psum (partSizes l) l.length : Nat)
      ⟨by show (0:Int) ≤ _; omega, by show _ < (0 : Int) + n; omega⟩
    have h1 := partition_starts h b hb
    have h2 := partition_nonneg h hb
    rw [← rangeAt_eq hb] at hin
    have h3 := hin.2
    rw [h1, h2] at h3
    have := psum_le (partSizes l) hb
    omega

theorem rangesInside_of_partition {n : Nat} {l : List IndexRange} (h : IsPartition ⟨0, n⟩ l) :
    rangesInside n l = true := by
  simp only [rangesInside, List.all_eq_true, decide_eq_true_eq]
  intro p hp
  obtain ⟨i, hi, rfl⟩ := List.getElem_of_mem hp
  have h1 := partition_starts h i hi
  have h2 := partition_nonneg h hi
  have h3 := partition_total h
  have h4 := psum_le (partSizes l) hi
  rw [rangeAt_eq hi] at h1 h2
  omega

theorem partition_exists_part {n : Nat} {l : List IndexRange} (h : IsPartition ⟨0, n⟩ l)
    (i : Nat) (hi : i < n) : ∃ b < l.length, ∃ r < partSizes l b, i = psum (partSizes l) b + r :=
  exists_block _ _ _ (by rw [partition_total h]; exact hi)

/-! ### splitting -/

theorem splitDense_ok {A : Dense R} {rs cs : List IndexRange}
    (hr : IsPartition ⟨0, A.rows⟩ rs) (hc : IsPartition ⟨0, A.cols⟩ cs) :
    ∃ b, splitDense A rs cs = .ok (.hier rs.length cs.length b) ∧
      ∀ i < rs.length, ∀ j < cs.length,
        b i j = .dense (A.sub (psum (partSizes rs) i) (psum (partSizes cs) j)
          (partSizes rs i) (partSizes cs j)) := by
  refine ⟨_, by
    unfold splitDense
    rw [if_pos ⟨rangesInside_of_partition hr, rangesInside_of_partition hc⟩], ?_⟩
  intro i hi j hj
  rw [partition_starts hr i hi, partition_starts hc j hj]
  rfl

theorem partition_length_one {n : Nat} {l : List IndexRange} (h : IsPartition ⟨0, n⟩ l)
    (h1 : l.length = 1) : partSizes l 0 = n := by
  have := partition_total h
  rw [h1] at this
  simpa [psum] using this

theorem partition_length_pos {n : Nat} {l : List IndexRange} (h : IsPartition ⟨0, n⟩ l)
    (hn : 0 < n) : 0 < l.length := by
  obtain ⟨b, ⟨hb, -⟩, -⟩ := h.cover 0 ⟨by simp, by show (0:Int) < 0 + n; omega⟩
  omega

end Mat
end Verif
