import Verif.Lemmas.Mat
import Verif.Props.Partition

namespace Verif
open Finset

variable {R : Type}

namespace Mat

/-- The part of a dense or low-rank matrix with `m` rows and `n` columns starting
at `(r,c)`. -/
def subBlock [Zero R] : Mat R → Nat → Nat → Nat → Nat → Mat R
  | .dense d, r, c, m, n => .dense (d.sub r c m n)
  | .lowRank l, r, c, m, n =>
    .lowRank (LowRank.ofFactors (l.U.sub r 0 m l.U.cols) l.S (l.V.sub 0 c l.V.rows n))
  | .hier _ _ _, _, _, m, n => .empty m n
  | .empty _ _, _, _, m, n => .empty m n

/-- Dense or low-rank. -/
def Leaf : Mat R → Prop
  | .dense _ => True
  | .lowRank _ => True
  | _ => False

section
variable [Zero R]

@[simp] theorem nRows_subBlock (A : Mat R) (r c m n : Nat) : (A.subBlock r c m n).nRows = m := by
  cases A <;> simp [subBlock, nRows, Dense.sub, LowRank.ofFactors]

@[simp] theorem nCols_subBlock (A : Mat R) (r c m n : Nat) : (A.subBlock r c m n).nCols = n := by
  cases A <;> simp [subBlock, nCols, Dense.sub, LowRank.ofFactors]

theorem ofFactors_wf {U S V : Dense R} (h1 : U.cols = S.rows)
    (h3 : V.rows = S.cols) : (LowRank.ofFactors U S V).WF :=
  { urows := rfl, ucols := h1, srows := rfl, vrows := h3, vcols := rfl }

theorem WF_subBlock (A : Mat R) (hA : A.WF) (r c m n : Nat) : (A.subBlock r c m n).WF := by
  cases A with
  | dense d => trivial
  | lowRank l =>
    simp only [WF] at hA
    simp only [subBlock, WF]
    exact ofFactors_wf (by simp [Dense.sub, hA.ucols, hA.srows])
      (by simp [Dense.sub, hA.vrows])
  | hier => trivial
  | empty => trivial

theorem denseAt_subBlock (A : Mat R) (hl : A.Leaf) (r c m n i j : Nat) :
    (A.subBlock r c m n).denseAt i j ↔ A.denseAt (r + i) (c + j) := by
  cases A with
  | dense d => simp [subBlock, denseAt]
  | lowRank l => simp [subBlock, denseAt]
  | hier => exact hl.elim
  | empty => exact hl.elim

end

theorem entry_subBlock [CommRing R] (A : Mat R) (hA : A.WF) (hl : A.Leaf) (r c m n i j : Nat) :
    (A.subBlock r c m n).entry i j = A.entry (r + i) (c + j) := by
  cases A with
  | dense d => simp [subBlock, entry, Dense.sub]
  | lowRank l =>
    simp only [WF] at hA
    simp [subBlock, entry, Dense.sub, LowRank.entry, LowRank.ofFactors]
  | hier => exact hl.elim
  | empty => exact hl.elim

theorem sub_self_rows (A : Dense R) : A.sub 0 0 A.rows A.cols = A := by
  cases A; simp [Dense.sub]

/-- Splitting a dense or low-rank matrix along partitions of its dimensions. -/
theorem splitOmm_leaf [Zero R] {A : Mat R} (hA : A.WF) (hl : A.Leaf) {rs cs : List IndexRange}
    (hr : IsPartition ⟨0, A.nRows⟩ rs) (hc : IsPartition ⟨0, A.nCols⟩ cs) :
    ∃ b, splitOmm A rs cs = .ok (.hier rs.length cs.length b) ∧
      ∀ i < rs.length, ∀ j < cs.length,
        b i j = A.subBlock (psum (partSizes rs) i) (psum (partSizes cs) j)
          (partSizes rs i) (partSizes cs j) := by
  cases A with
  | dense d =>
    obtain ⟨b, h1, h2⟩ := splitDense_ok (A := d) (by simpa [nRows] using hr)
      (by simpa [nCols] using hc)
    exact ⟨b, h1, h2⟩
  | lowRank l =>
    simp only [WF] at hA
    simp only [nRows] at hr
    simp only [nCols] at hc
    rw [← hA.urows] at hr
    rw [← hA.vcols] at hc
    refine ⟨_, by
      simp only [splitOmm]
      unfold splitLowRank
      rw [if_pos ⟨.inr (rangesInside_of_partition hr), .inr (rangesInside_of_partition hc)⟩], ?_⟩
    intro i hi j hj
    simp only [subBlock]
    have eU : (if 1 < rs.length then
          l.U.sub (rangeAt rs i).start.toNat 0 (rangeAt rs i).n.toNat l.U.cols
        else l.U) = l.U.sub (psum (partSizes rs) i) 0 (partSizes rs i) l.U.cols := by
      split
      · rw [partition_starts hr i hi]; rfl
      · have h1 : rs.length = 1 := by omega
        have h0 : i = 0 := by omega
        subst h0
        rw [partition_length_one hr h1]
        exact (sub_self_rows l.U).symm
    have eV : (if 1 < cs.length then
          l.V.sub 0 (rangeAt cs j).start.toNat l.V.rows (rangeAt cs j).n.toNat
        else l.V) = l.V.sub 0 (psum (partSizes cs) j) l.V.rows (partSizes cs j) := by
      split
      · rw [partition_starts hc j hj]; rfl
      · have h1 : cs.length = 1 := by omega
        have h0 : j = 0 := by omega
        subst h0
        rw [partition_length_one hc h1]
        exact (sub_self_rows l.V).symm
    simp only [eU, eV]
  | hier => exact hl.elim
  | empty => exact hl.elim

theorem hasEmpty_iff (A : Mat R) : A.hasEmpty = false ↔ A.NoEmpty := by
  induction A with
  | dense => simp [hasEmpty, NoEmpty]
  | lowRank => simp [hasEmpty, NoEmpty]
  | empty => simp [hasEmpty, NoEmpty]
  | hier br bc blk ih =>
    simp only [hasEmpty, NoEmpty, List.any_eq_false, List.mem_range, Bool.not_eq_true, ih]

/-- `shallow_copy` succeeds exactly on matrices without `Empty` block, otherwise
it ends in `std::abort`. -/
theorem shallowCopy_abort_iff (A : Mat R) :
    (A.hasEmpty = false ∧ ∃ A', A.shallowCopy = .ok A') ∨
    (A.hasEmpty = true ∧ A.shallowCopy = .error .abort) := by
  induction A with
  | dense => exact .inl ⟨rfl, _, rfl⟩
  | lowRank => exact .inl ⟨rfl, _, rfl⟩
  | empty => exact .inr ⟨rfl, rfl⟩
  | hier br bc blk ih =>
    cases hc : collect2 br bc (fun i j => (blk i j).shallowCopy) with
    | ok g =>
      refine .inl ⟨?_, _, by simp only [shallowCopy, hc]; rfl⟩
      simp only [hasEmpty, List.any_eq_false, List.mem_range, Bool.not_eq_true]
      intro i hi j hj
      rcases ih i j with h | h
      · exact h.1
      · have := collect2_ok hc i hi j hj
        rw [h.2] at this
        cases this
    | error e =>
      obtain ⟨i, hi, hc'⟩ := collect_error_elim hc
      obtain ⟨j, hj, hc'⟩ := collect_error_elim hc'
      simp only at hc'
      rcases ih i j with h | h
      · obtain ⟨A', h⟩ := h.2
        rw [h] at hc'
        cases hc'
      · rw [h.2] at hc'
        cases Except.error.inj hc'
        refine .inr ⟨?_, by simp only [shallowCopy, hc]; rfl⟩
        simp only [hasEmpty, List.any_eq_true, List.mem_range]
        exact ⟨i, hi, j, hj, h.1⟩

/-- The condition under which `split_omm(Hierarchical)` accepts block `(i,j)`. -/
theorem splitHier_ok_iff {br bc : Nat} {blk : Nat → Nat → Mat R} {rs cs : List IndexRange}
    {M : Mat R} :
    splitHier br bc blk rs cs = .ok M → rs.length = br ∧ cs.length = bc ∧
      (∀ i < br, ∀ j < bc, (rangeAt rs i).n = (blk i j).nRows ∧
        (rangeAt cs j).n = (blk i j).nCols ∧ (blk i j).NoEmpty) ∧
      ∃ g, M = .hier br bc g ∧ (∀ i < br, ∀ j < bc, g i j = blk i j) := by
  unfold splitHier
  intro h
  split at h
  · cases h
  · rename_i hlen
    rw [except_bind_eq_ok] at h
    obtain ⟨g, hg, h⟩ := h
    cases h
    push Not at hlen
    have hall : ∀ i < br, ∀ j < bc, ((rangeAt rs i).n = (blk i j).nRows ∧
        (rangeAt cs j).n = (blk i j).nCols ∧ (blk i j).NoEmpty) ∧ g i j = blk i j := by
      intro i hi j hj
      have := collect2_ok hg i hi j hj
      split at this
      · cases this
      · rename_i hne
        push Not at hne
        split at this
        · cases this
        · rename_i hem
          refine ⟨⟨hne.1, hne.2, ?_⟩, (Except.ok.inj this).symm⟩
          rw [← hasEmpty_iff]; simpa using hem
    exact ⟨hlen.1, hlen.2, fun i hi j hj => (hall i hi j hj).1, g, rfl,
      fun i hi j hj => (hall i hi j hj).2⟩

theorem splitHier_ok {br bc : Nat} {blk : Nat → Nat → Mat R} {rs cs : List IndexRange}
    (h1 : rs.length = br) (h2 : cs.length = bc)
    (h3 : ∀ i < br, ∀ j < bc, (rangeAt rs i).n = (blk i j).nRows ∧
      (rangeAt cs j).n = (blk i j).nCols ∧ (blk i j).NoEmpty) :
    ∃ g, splitHier br bc blk rs cs = .ok (.hier br bc g) ∧
      ∀ i < br, ∀ j < bc, g i j = blk i j := by
  obtain ⟨g, hg⟩ := collect2_exists (m := br) (n := bc)
    (f := fun i j => if (rangeAt rs i).n ≠ ((blk i j).nRows : Int) ∨
        (rangeAt cs j).n ≠ ((blk i j).nCols : Int) then .error .abort
        else if (blk i j).hasEmpty then .error .abort else .ok (blk i j))
    (fun i hi j hj => ⟨blk i j, by
      have := h3 i hi j hj
      rw [if_neg (by push Not; exact ⟨this.1, this.2.1⟩), if_neg]
      rw [(hasEmpty_iff _).2 this.2.2]; simp⟩)
  have hM : splitHier br bc blk rs cs = .ok (.hier br bc g) := by
    unfold splitHier
    rw [if_neg (by push Not; exact ⟨h1, h2⟩), hg]; rfl
  refine ⟨g, hM, ?_⟩
  obtain ⟨-, -, -, g', e, h⟩ := splitHier_ok_iff hM
  cases e
  exact h

/-! ### what splitting preserves -/

/-- A hierarchical matrix made of the parts of `A` along sizes `h`, `w`. -/
structure IsSplitOf [CommRing R] (A : Mat R) (br bc : Nat) (h w : Nat → Nat)
    (b : Nat → Nat → Mat R) : Prop where
  rows : psum h br = A.nRows
  cols : psum w bc = A.nCols
  dims : ∀ i < br, ∀ j < bc, (b i j).WF ∧ (b i j).nRows = h i ∧ (b i j).nCols = w j
  ent : ∀ i < br, ∀ j < bc, ∀ r < h i, ∀ s < w j,
    (b i j).entry r s = A.entry (psum h i + r) (psum w j + s) ∧
    ((b i j).denseAt r s ↔ A.denseAt (psum h i + r) (psum w j + s))

section
variable [CommRing R]

theorem IsSplitOf.wf {A : Mat R} {br bc : Nat} {h w : Nat → Nat} {b : Nat → Nat → Mat R}
    (H : IsSplitOf A br bc h w b) (hbr : 0 < br) (hbc : 0 < bc) : (Mat.hier br bc b).WF := by
  simp only [WF]
  refine ⟨hbr, hbc, fun i hi j hj => ⟨(H.dims i hi j hj).1, ?_, ?_⟩⟩
  · rw [(H.dims i hi j hj).2.1, (H.dims i hi 0 hbc).2.1]
  · rw [(H.dims i hi j hj).2.2, (H.dims 0 hbr j hj).2.2]

theorem IsSplitOf.nRows {A : Mat R} {br bc : Nat} {h w : Nat → Nat} {b : Nat → Nat → Mat R}
    (H : IsSplitOf A br bc h w b) (hbc : 0 < bc) :
    (Mat.hier br bc b).nRows = A.nRows := by
  rw [nRows_hier, ← H.rows]
  exact psum_congr (fun a ha => (H.dims a ha 0 hbc).2.1)

theorem IsSplitOf.nCols {A : Mat R} {br bc : Nat} {h w : Nat → Nat} {b : Nat → Nat → Mat R}
    (H : IsSplitOf A br bc h w b) (hbr : 0 < br) :
    (Mat.hier br bc b).nCols = A.nCols := by
  rw [nCols_hier, ← H.cols]
  exact psum_congr (fun a ha => (H.dims 0 hbr a ha).2.2)

/-- The split matrix represents the same entries. -/
theorem IsSplitOf.same {A : Mat R} {br bc : Nat} {h w : Nat → Nat} {b : Nat → Nat → Mat R}
    (H : IsSplitOf A br bc h w b) (hbr : 0 < br) (hbc : 0 < bc) :
    SameEntries (Mat.hier br bc b) A := by
  refine ⟨H.nRows hbc, H.nCols hbr, ?_⟩
  intro i hi j hj
  rw [H.nRows hbc, ← H.rows] at hi
  rw [H.nCols hbr, ← H.cols] at hj
  obtain ⟨p, hp, r, hr, rfl⟩ := exists_block _ _ _ hi
  obtain ⟨q, hq, s, hs, rfl⟩ := exists_block _ _ _ hj
  rw [← (H.ent p hp q hq r hr s hs).1]
  have e1 : psum h p = psum (fun a => (b a 0).nRows) p :=
    psum_congr (fun c hc => (H.dims c (by omega) 0 hbc).2.1.symm)
  have e2 : psum w q = psum (fun a => (b 0 a).nCols) q :=
    psum_congr (fun c hc => (H.dims 0 hbr c (by omega)).2.2.symm)
  rw [e1, e2]
  exact entry_block hp hq (by rw [(H.dims p hp 0 hbc).2.1]; exact hr)
    (by rw [(H.dims 0 hbr q hq).2.2]; exact hs)

theorem splitOmm_leaf_isSplit {A : Mat R} (hA : A.WF) (hl : A.Leaf) {rs cs : List IndexRange}
    (hr : IsPartition ⟨0, A.nRows⟩ rs) (hc : IsPartition ⟨0, A.nCols⟩ cs) :
    ∃ b, splitOmm A rs cs = .ok (.hier rs.length cs.length b) ∧
      IsSplitOf A rs.length cs.length (partSizes rs) (partSizes cs) b := by
  obtain ⟨b, h1, h2⟩ := splitOmm_leaf hA hl hr hc
  refine ⟨b, h1, partition_total hr, partition_total hc, ?_, ?_⟩
  · intro i hi j hj
    rw [h2 i hi j hj]
    exact ⟨WF_subBlock _ hA _ _ _ _, by simp, by simp⟩
  · intro i hi j hj r hr s hs
    rw [h2 i hi j hj, entry_subBlock _ hA hl, denseAt_subBlock _ hl]
    exact ⟨rfl, Iff.rfl⟩

theorem splitHier_isSplit {br bc : Nat} {blk : Nat → Nat → Mat R} {rs cs : List IndexRange}
    (hA : (Mat.hier br bc blk).WF) {M : Mat R}
    (h : splitOmm (.hier br bc blk) rs cs = .ok M) :
    ∃ b, M = .hier rs.length cs.length b ∧ rs.length = br ∧ cs.length = bc ∧
      (∀ i < br, (rangeAt rs i).n = (blk i 0).nRows) ∧
      (∀ j < bc, (rangeAt cs j).n = (blk 0 j).nCols) ∧
      (∀ i < br, ∀ j < bc, b i j = blk i j) ∧
      IsSplitOf (.hier br bc blk) rs.length cs.length (partSizes rs) (partSizes cs) b := by
  simp only [splitOmm] at h
  obtain ⟨h1, h2, h3, g, rfl, hg⟩ := splitHier_ok_iff h
  simp only [WF] at hA
  obtain ⟨hbr, hbc, hA⟩ := hA
  have p1 : ∀ i < br, partSizes rs i = (blk i 0).nRows := by
    intro i hi
    rw [partSizes, (h3 i hi 0 hbc).1]; simp
  have p2 : ∀ j < bc, partSizes cs j = (blk 0 j).nCols := by
    intro j hj
    rw [partSizes, (h3 0 hbr j hj).2.1]; simp
  subst h1 h2
  refine ⟨g, rfl, rfl, rfl, fun i hi => (h3 i hi 0 hbc).1, fun j hj => (h3 0 hbr j hj).2.1, hg, ?_⟩
  refine ⟨?_, ?_, ?_, ?_⟩
  · rw [nRows_hier]; exact psum_congr p1
  · rw [nCols_hier]; exact psum_congr p2
  · intro i hi j hj
    rw [hg i hi j hj, p1 i hi, p2 j hj]
    exact hA i hi j hj
  · intro i hi j hj r hr s hs
    rw [hg i hi j hj]
    rw [p1 i hi] at hr
    rw [p2 j hj] at hs
    rw [psum_congr (fun a ha => p1 a (by omega)), psum_congr (fun a ha => p2 a (by omega))]
    exact ⟨(entry_block hi hj hr hs).symm, (denseAt_block hi hj hr hs).symm⟩

/-! ### the two ways the code chooses the parts -/

theorem partSizes_splitLike (n : Nat) (m : Nat) (f : Nat → Nat) (i : Nat) (hi : i < m) :
    partSizes ((⟨0, n⟩ : IndexRange).splitLike ((List.range m).map (fun i => (f i : Int)))) i = f i := by
  have hlen : i < (IndexRange.splitLikeFrom 0 ((List.range m).map (fun i => (f i : Int)))).length := by
    rw [splitLikeFrom_length]; simpa using hi
  have := (splitLikeFrom_getElem 0 ((List.range m).map (fun i => (f i : Int))) i hlen).2
  unfold partSizes IndexRange.splitLike
  rw [rangeAt_eq hlen, this]
  simp

theorem splitLike_isPartition (m : Nat) (f : Nat → Nat) (n : Nat) (hn : n = psum f m) :
    IsPartition ⟨0, n⟩
      ((⟨0, n⟩ : IndexRange).splitLike ((List.range m).map (fun i => (f i : Int)))) ∧
    ((⟨0, n⟩ : IndexRange).splitLike ((List.range m).map (fun i => (f i : Int)))).length = m := by
  have h := (C02_split_like_partition ⟨0, n⟩ ((List.range m).map (fun i => (f i : Int))) (by
    intro c hc
    simp only [List.mem_map] at hc
    obtain ⟨i, -, rfl⟩ := hc
    omega)).2
  have e : ((List.range m).map (fun i => (f i : Int))).sum = (n : Int) := by
    subst hn
    clear h
    induction m with
    | zero => simp [psum]
    | succ m ih =>
      rw [List.range_succ, List.map_append, List.sum_append, ih, psum_succ]
      simp
  rw [e] at h
  refine ⟨h, ?_⟩
  unfold IndexRange.splitLike
  rw [splitLikeFrom_length]; simp

/-- `split(A, like)` on a dense or low-rank matrix with the dimensions of `like`. -/
theorem splitLikeH_leaf {A : Mat R} (hA : A.WF) (hl : A.Leaf) {br bc : Nat}
    {blk : Nat → Nat → Mat R}
    (hr : A.nRows = (Mat.hier br bc blk).nRows) (hc : A.nCols = (Mat.hier br bc blk).nCols) :
    ∃ b, splitLikeH A br bc blk = .ok (.hier br bc b) ∧
      (∀ i < br, ∀ j < bc, b i j = A.subBlock (psum (fun a => (blk a 0).nRows) i)
        (psum (fun a => (blk 0 a).nCols) j) (blk i 0).nRows (blk 0 j).nCols) ∧
      IsSplitOf A br bc (fun i => (blk i 0).nRows) (fun j => (blk 0 j).nCols) b := by
  unfold splitLikeH blockHeights blockWidths
  have hr' := hr; have hc' := hc
  rw [nRows_hier] at hr'
  rw [nCols_hier] at hc'
  have e1 : assertM (decide (A.nRows = (Mat.hier br bc blk).nRows)) = .ok () := by
    rw [assertM_eq_ok]; simpa using hr
  have e2 : assertM (decide (A.nCols = (Mat.hier br bc blk).nCols)) = .ok () := by
    rw [assertM_eq_ok]; simpa using hc
  simp only [e1, e2, except_bind_ok]
  obtain ⟨p1, l1⟩ := splitLike_isPartition br (fun i => (blk i 0).nRows) _ hr'
  obtain ⟨p2, l2⟩ := splitLike_isPartition bc (fun j => (blk 0 j).nCols) _ hc'
  obtain ⟨b, hb, hs⟩ := splitOmm_leaf hA hl p1 p2
  rw [l1, l2] at hb hs
  have s1 : ∀ i < br, partSizes ((⟨0, A.nRows⟩ : IndexRange).splitLike
      ((List.range br).map (fun i => ((blk i 0).nRows : Int)))) i = (blk i 0).nRows :=
    fun i hi => partSizes_splitLike _ br (fun i => (blk i 0).nRows) i hi
  have s2 : ∀ i < bc, partSizes ((⟨0, A.nCols⟩ : IndexRange).splitLike
      ((List.range bc).map (fun i => ((blk 0 i).nCols : Int)))) i = (blk 0 i).nCols :=
    fun i hi => partSizes_splitLike _ bc (fun i => (blk 0 i).nCols) i hi
  have hs' : ∀ i < br, ∀ j < bc, b i j = A.subBlock (psum (fun a => (blk a 0).nRows) i)
        (psum (fun a => (blk 0 a).nCols) j) (blk i 0).nRows (blk 0 j).nCols := by
    intro i hi j hj
    rw [hs i hi j hj, s1 i hi, s2 j hj]
    rw [psum_congr (fun a ha => s1 a (by omega)), psum_congr (fun a ha => s2 a (by omega))]
  refine ⟨b, hb, hs', hr'.symm, hc'.symm, ?_, ?_⟩
  · intro i hi j hj
    rw [hs' i hi j hj]
    exact ⟨WF_subBlock _ hA _ _ _ _, by simp, by simp⟩
  · intro i hi j hj r hr s hs
    rw [hs' i hi j hj, entry_subBlock _ hA hl, denseAt_subBlock _ hl]
    exact ⟨rfl, Iff.rfl⟩

end
end Mat
end Verif
