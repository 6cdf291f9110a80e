import Verif.Lemmas.MatOps

namespace Verif
open Finset

variable {R : Type}

namespace Mat

/-- Size of part `i` when `n` is split into `k` equal parts. -/
def evenSize (n k i : Nat) : Nat := partSizes ((⟨0, n⟩ : IndexRange).split k) i

theorem splitOk_of_last_nonneg (n k : Nat) (hk : 1 ≤ k)
    (h : 0 ≤ (rangeAt ((⟨0, n⟩ : IndexRange).split k) (k - 1)).n) :
    IsPartition ⟨0, n⟩ ((⟨0, n⟩ : IndexRange).split k) := by
  apply IndexRange.split_isPartition _ _ (by simp) hk
  rw [IndexRange.splitOk_iff _ _ (by simp) hk]
  rw [rangeAt_eq (by simp; omega), IndexRange.getElem_split] at h
  have h2 : (((k - 1 : Nat)) : Int) = (k : Int) - 1 := by omega
  simp only [IndexRange.splitChild, h2, if_true] at h
  simp only
  omega

theorem rangesInside_nonneg {n : Nat} {l : List IndexRange} (h : rangesInside n l = true) {i : Nat}
    (hi : i < l.length) : 0 ≤ (rangeAt l i).n := by
  simp only [rangesInside, List.all_eq_true, decide_eq_true_eq] at h
  rw [rangeAt_eq hi]
  exact (h l[i] (List.getElem_mem _)).2.1

theorem split_one_partition (n : Nat) : IsPartition ⟨0, n⟩ ((⟨0, n⟩ : IndexRange).split 1) := by
  apply IndexRange.split_isPartition _ _ (by simp) (by omega)
  simp [IndexRange.SplitOk]

section
variable [CommRing R]

/-- A successful equal split is a split along partitions. -/
theorem split_isSplit {A M : Mat R} (hA : A.WF) {nr nc : Nat} (hr : 1 ≤ nr) (hc : 1 ≤ nc)
    (h : A.split nr nc = .ok M) :
    ∃ b, M = .hier nr nc b ∧ IsSplitOf A nr nc (evenSize A.nRows nr) (evenSize A.nCols nc) b := by
  unfold split at h
  have lr := IndexRange.length_split (⟨0, A.nRows⟩ : IndexRange) nr
  have lc := IndexRange.length_split (⟨0, A.nCols⟩ : IndexRange) nc
  have leafcase : A.Leaf → (IsPartition ⟨0, A.nRows⟩ ((⟨0, A.nRows⟩ : IndexRange).split nr)) →
      (IsPartition ⟨0, A.nCols⟩ ((⟨0, A.nCols⟩ : IndexRange).split nc)) →
      ∃ b, M = .hier nr nc b ∧
        IsSplitOf A nr nc (evenSize A.nRows nr) (evenSize A.nCols nc) b := by
    intro hl p1 p2
    obtain ⟨b, hb, hs⟩ := splitOmm_leaf_isSplit hA hl p1 p2
    rw [hb] at h
    rw [lr, lc] at h hs
    exact ⟨b, (Except.ok.inj h).symm, hs⟩
  cases A with
  | dense d =>
    apply leafcase trivial
    · simp only [splitOmm, splitDense] at h
      split at h
      · rename_i hin
        exact splitOk_of_last_nonneg _ _ hr (rangesInside_nonneg hin.1 (by simp; omega))
      · cases h
    · simp only [splitOmm, splitDense] at h
      split at h
      · rename_i hin
        exact splitOk_of_last_nonneg _ _ hc (rangesInside_nonneg hin.2 (by simp; omega))
      · cases h
  | lowRank l =>
    apply leafcase trivial
    · simp only [splitOmm, splitLowRank] at h
      split at h
      · rename_i hin
        rcases hin.1 with h1 | h1
        · rw [lr] at h1
          have : nr = 1 := by omega
          subst this
          exact split_one_partition _
        · exact splitOk_of_last_nonneg _ _ hr (rangesInside_nonneg h1 (by simp; omega))
      · cases h
    · simp only [splitOmm, splitLowRank] at h
      split at h
      · rename_i hin
        rcases hin.2 with h1 | h1
        · rw [lc] at h1
          have : nc = 1 := by omega
          subst this
          exact split_one_partition _
        · exact splitOk_of_last_nonneg _ _ hc (rangesInside_nonneg h1 (by simp; omega))
      · cases h
  | empty m n => simp [splitOmm] at h
  | hier br bc blk =>
    obtain ⟨b, hM, -, -, -, -, -, hs⟩ := splitHier_isSplit hA h
    rw [lr, lc] at hM hs
    exact ⟨b, hM, hs⟩

theorem subtract_norm {A B : Mat R} {a b : Dense R} {x y : R}
    (h : (do let d ← a.subtract b; .ok (normDense d, normDense a) : Except Err (R × R)) = .ok (x, y))
    (a0 : a.rows = A.nRows) (a1 : a.cols = A.nCols)
    (ae : ∀ i < A.nRows, ∀ j < A.nCols, a.val i j = A.entry i j)
    (b0 : b.rows = B.nRows) (b1 : b.cols = B.nCols)
    (be : ∀ i < B.nRows, ∀ j < B.nCols, b.val i j = B.entry i j) :
    (A.nRows = B.nRows ∧ A.nCols = B.nCols) ∧ x = sumSqDiff A B ∧ y = sumSq A := by
  simp only [Dense.subtract, except_bind_eq_ok, assertM_eq_ok, decide_eq_true_eq] at h
  obtain ⟨d, ⟨-, h1, -, h2, hd⟩, h⟩ := h
  cases hd
  have e := Prod.mk.inj (Except.ok.inj h)
  have hr : A.nRows = B.nRows := by omega
  have hc : A.nCols = B.nCols := by omega
  refine ⟨⟨hr, hc⟩, ?_, ?_⟩
  · rw [← e.1]
    unfold normDense sumSqDiff
    simp only
    rw [a0, a1]
    refine Finset.sum_congr rfl (fun i hi => Finset.sum_congr rfl (fun j hj => ?_))
    simp only [Finset.mem_range] at hi hj
    rw [ae i hi j hj, be i (by omega) j (by omega)]
  · rw [← e.2]; exact normDense_eq a0 a1 ae

theorem sumSqDiff_congr {A B A' B' : Mat R} (h1 : SameEntries A' A) (h2 : SameEntries B' B)
    (hr : A.nRows = B.nRows) (hc : A.nCols = B.nCols) : sumSqDiff A' B' = sumSqDiff A B := by
  unfold sumSqDiff
  rw [h1.1, h1.2.1]
  refine Finset.sum_congr rfl (fun i hi => Finset.sum_congr rfl (fun j hj => ?_))
  simp only [Finset.mem_range] at hi hj
  rw [h1.2.2 i (by rw [h1.1]; exact hi) j (by rw [h1.2.1]; exact hj),
    h2.2.2 i (by rw [h2.1, ← hr]; exact hi) j (by rw [h2.2.1, ← hc]; exact hj)]

theorem sumSq_congr {A A' : Mat R} (h1 : SameEntries A' A) : sumSq A' = sumSq A := by
  unfold sumSq
  rw [h1.1, h1.2.1]
  refine Finset.sum_congr rfl (fun i hi => Finset.sum_congr rfl (fun j hj => ?_))
  simp only [Finset.mem_range] at hi hj
  rw [h1.2.2 i (by rw [h1.1]; exact hi) j (by rw [h1.2.1]; exact hj)]

theorem SameEntries.refl (A : Mat R) : SameEntries A A := ⟨rfl, rfl, fun _ _ _ _ => rfl⟩

theorem collectDiffNorm_correct [Inhabited R] (fuel : Nat) (A B : Mat R) (hA : A.WF) (hB : B.WF) (x y : R)
    (h : collectDiffNorm fuel A B = .ok (x, y)) :
    (A.nRows = B.nRows ∧ A.nCols = B.nCols) ∧ x = sumSqDiff A B ∧ y = sumSq A := by
  induction fuel generalizing A B x y with
  | zero => simp [collectDiffNorm] at h
  | succ fuel ih =>
    -- a hierarchical matrix against a leaf
    have splitB : ∀ (br bc : Nat) (blk : Nat → Nat → Mat R) (C : Mat R),
        (Mat.hier br bc blk).WF → C.WF →
        (do let BH ← C.split br bc; collectDiffNorm fuel (.hier br bc blk) BH) = .ok (x, y) →
        ((Mat.hier br bc blk).nRows = C.nRows ∧ (Mat.hier br bc blk).nCols = C.nCols) ∧
          x = sumSqDiff (.hier br bc blk) C ∧ y = sumSq (.hier br bc blk) := by
      intro br bc blk C hH hC h
      rw [except_bind_eq_ok] at h
      obtain ⟨BH, h1, h2⟩ := h
      have hH' := hH
      simp only [WF] at hH'
      obtain ⟨b, rfl, hs⟩ := split_isSplit hC (by omega) (by omega) h1
      obtain ⟨⟨e1, e2⟩, e3, e4⟩ := ih _ _ hH (hs.wf (by omega) (by omega)) x y h2
      have sm := hs.same (by omega) (by omega)
      have e1' : (Mat.hier br bc blk).nRows = C.nRows := by rw [e1, sm.1]
      have e2' : (Mat.hier br bc blk).nCols = C.nCols := by rw [e2, sm.2.1]
      exact ⟨⟨e1', e2'⟩, by rw [e3]; exact sumSqDiff_congr (SameEntries.refl _) sm e1' e2', e4⟩
    have splitA : ∀ (br bc : Nat) (blk : Nat → Nat → Mat R) (C : Mat R),
        (Mat.hier br bc blk).WF → C.WF →
        (do let AH ← C.split br bc; collectDiffNorm fuel AH (.hier br bc blk)) = .ok (x, y) →
        (C.nRows = (Mat.hier br bc blk).nRows ∧ C.nCols = (Mat.hier br bc blk).nCols) ∧
          x = sumSqDiff C (.hier br bc blk) ∧ y = sumSq C := by
      intro br bc blk C hH hC h
      rw [except_bind_eq_ok] at h
      obtain ⟨AH, h1, h2⟩ := h
      have hH' := hH
      simp only [WF] at hH'
      obtain ⟨b, rfl, hs⟩ := split_isSplit hC (by omega) (by omega) h1
      obtain ⟨⟨e1, e2⟩, e3, e4⟩ := ih _ _ (hs.wf (by omega) (by omega)) hH x y h2
      have sm := hs.same (by omega) (by omega)
      have e1' : C.nRows = (Mat.hier br bc blk).nRows := by rw [← e1, sm.1]
      have e2' : C.nCols = (Mat.hier br bc blk).nCols := by rw [← e2, sm.2.1]
      exact ⟨⟨e1', e2'⟩, by rw [e3]; exact sumSqDiff_congr sm (SameEntries.refl _) e1' e2',
        by rw [e4]; exact sumSq_congr sm⟩
    cases A with
    | empty m n =>
      cases B with
      | hier br bc blk => simp [collectDiffNorm, split, splitOmm] at h
      | dense => simp [collectDiffNorm] at h
      | lowRank => simp [collectDiffNorm] at h
      | empty => simp [collectDiffNorm] at h
    | dense a =>
      cases B with
      | dense b =>
        simp only [collectDiffNorm] at h
        exact subtract_norm h rfl rfl (fun _ _ _ _ => rfl) rfl rfl (fun _ _ _ _ => rfl)
      | lowRank b =>
        simp only [WF] at hB
        obtain ⟨D, hD, e0, e1, e2⟩ := LowRank_toDense_ok b hB
        simp only [collectDiffNorm, hD, except_bind_ok] at h
        exact subtract_norm h rfl rfl (fun _ _ _ _ => rfl) e0 e1 (fun i _ j _ => e2 i j)
      | hier br bc blk =>
        simp only [collectDiffNorm] at h
        exact splitA br bc blk _ hB hA h
      | empty => simp [collectDiffNorm] at h
    | lowRank a =>
      simp only [WF] at hA
      obtain ⟨D, hD, e0, e1, e2⟩ := LowRank_toDense_ok a hA
      cases B with
      | dense b =>
        simp only [collectDiffNorm, hD, except_bind_ok] at h
        exact subtract_norm h e0 e1 (fun i _ j _ => e2 i j) rfl rfl (fun _ _ _ _ => rfl)
      | lowRank b =>
        simp only [WF] at hB
        obtain ⟨D', hD', e0', e1', e2'⟩ := LowRank_toDense_ok b hB
        simp only [collectDiffNorm, hD, hD', except_bind_ok] at h
        exact subtract_norm h e0 e1 (fun i _ j _ => e2 i j) e0' e1' (fun i _ j _ => e2' i j)
      | hier br bc blk =>
        simp only [collectDiffNorm] at h
        exact splitA br bc blk _ hB hA h
      | empty => simp [collectDiffNorm] at h
    | hier br bc blk =>
      cases B with
      | dense b =>
        simp only [collectDiffNorm] at h
        exact splitB br bc blk _ hA hB h
      | lowRank b =>
        simp only [collectDiffNorm] at h
        exact splitB br bc blk _ hA hB h
      | empty => simp [collectDiffNorm, split, splitOmm] at h
      | hier br' bc' blk' =>
        simp only [collectDiffNorm] at h
        split at h
        · rename_i hb
          obtain ⟨rfl, rfl⟩ := hb
          rw [except_bind_eq_ok] at h
          obtain ⟨g, hg, h⟩ := h
          have e := Prod.mk.inj (Except.ok.inj h)
          have hA' := hA
          have hB' := hB
          simp only [WF] at hA' hB'
          have key : ∀ i < br, ∀ j < bc,
              ((blk i j).nRows = (blk' i j).nRows ∧ (blk i j).nCols = (blk' i j).nCols) ∧
              (g i j).1 = sumSqDiff (blk i j) (blk' i j) ∧ (g i j).2 = sumSq (blk i j) :=
            fun i hi j hj => ih _ _ (hA'.2.2 i hi j hj).1 (hB'.2.2 i hi j hj).1 _ _
              (collect2_ok hg i hi j hj)
          refine ⟨⟨?_, ?_⟩, ?_, ?_⟩
          · rw [nRows_hier, nRows_hier]
            exact psum_congr (fun a ha => (key a ha 0 hA'.2.1).1.1)
          · rw [nCols_hier, nCols_hier]
            exact psum_congr (fun a ha => (key 0 hA'.1 a ha).1.2)
          · rw [← e.1, sumSqDiff_hier hA (fun i hi j hj => (key i hi j hj).1)]
            refine Finset.sum_congr rfl (fun i hi => Finset.sum_congr rfl (fun j hj => ?_))
            simp only [Finset.mem_range] at hi hj
            exact (key i hi j hj).2.1
          · rw [← e.2, sumSq_hier hA]
            refine Finset.sum_congr rfl (fun i hi => Finset.sum_congr rfl (fun j hj => ?_))
            simp only [Finset.mem_range] at hi hj
            exact (key i hi j hj).2.2
        · obtain ⟨D, hD, e0, e1, e2⟩ := toDense_ok _ hA
          obtain ⟨D', hD', e0', e1', e2'⟩ := toDense_ok _ hB
          simp only [hD, hD', except_bind_ok] at h
          exact subtract_norm h e0 e1 e2 e0' e1' e2'

/-! ### success on evenly split structures -/

omit [CommRing R] in
theorem depth_block {br bc : Nat} {blk : Nat → Nat → Mat R} {i j : Nat} (hi : i < br) (hj : j < bc) :
    (blk i j).depth + 1 ≤ (Mat.hier br bc blk).depth := by
  simp only [depth]
  have h1 : (blk i j).depth ≤ (range bc).sup (fun j => (blk i j).depth) :=
    Finset.le_sup (f := fun j => (blk i j).depth) (by simpa using hj)
  have h2 : (range bc).sup (fun j => (blk i j).depth) ≤
      (range br).sup (fun i => (range bc).sup (fun j => (blk i j).depth)) :=
    Finset.le_sup (f := fun i => (range bc).sup (fun j => (blk i j).depth)) (by simpa using hi)
  omega

omit [CommRing R] in
theorem Even.parts {br bc : Nat} {blk : Nat → Nat → Mat R} (h : (Mat.hier br bc blk).Even)
    (hr : 0 < br) (hc : 0 < bc) :
    IsPartition ⟨0, (Mat.hier br bc blk).nRows⟩
      ((⟨0, (Mat.hier br bc blk).nRows⟩ : IndexRange).split br) ∧
    IsPartition ⟨0, (Mat.hier br bc blk).nCols⟩
      ((⟨0, (Mat.hier br bc blk).nCols⟩ : IndexRange).split bc) ∧
    ∀ i < br, ∀ j < bc, (blk i j).nRows = evenSize (Mat.hier br bc blk).nRows br i ∧
      (blk i j).nCols = evenSize (Mat.hier br bc blk).nCols bc j := by
  simp only [Even] at h
  refine ⟨?_, ?_, ?_⟩
  · apply splitOk_of_last_nonneg _ _ hr
    have := (h (br - 1) (by omega) 0 hc).2.1
    rw [rangeAt_eq (by simp; omega), IndexRange.getElem_split]
    simp only [nRows]
    omega
  · apply splitOk_of_last_nonneg _ _ hc
    have := (h 0 hr (bc - 1) (by omega)).2.2
    rw [rangeAt_eq (by simp; omega), IndexRange.getElem_split]
    simp only [nCols]
    omega
  · intro i hi j hj
    have h1 := (h i hi j hj).2.1
    have h2 := (h i hi j hj).2.2
    unfold evenSize partSizes
    rw [rangeAt_eq (by simpa using hi), IndexRange.getElem_split,
      rangeAt_eq (by simpa using hj), IndexRange.getElem_split]
    simp only [nRows, nCols]
    omega

theorem subtract_ok [Inhabited R] {a b : Dense R} (h0 : a.rows = b.rows) (h1 : a.cols = b.cols) :
    ∃ r, (do let d ← a.subtract b; .ok (normDense d, normDense a) : Except Err (R × R)) = .ok r := by
  simp [Dense.subtract, h0, h1, assertM]

omit [CommRing R] in
theorem Leaf_subBlock [Zero R] {A : Mat R} (h : A.Leaf) (r c m n : Nat) :
    (A.subBlock r c m n).Leaf ∧ (A.subBlock r c m n).Even ∧ (A.subBlock r c m n).NoEmpty ∧
      (A.subBlock r c m n).depth = 0 := by
  cases A with
  | dense => exact ⟨trivial, trivial, trivial, rfl⟩
  | lowRank => exact ⟨trivial, trivial, trivial, rfl⟩
  | hier => exact h.elim
  | empty => exact h.elim

theorem collectDiffNorm_total [Inhabited R] (fuel : Nat) (A B : Mat R) (hA : A.WF) (hB : B.WF)
    (nA : A.NoEmpty) (nB : B.NoEmpty) (eA : A.Even) (eB : B.Even)
    (hr : A.nRows = B.nRows) (hc : A.nCols = B.nCols)
    (hf : 2 * (A.depth + B.depth) + 1 ≤ fuel) : ∃ r, collectDiffNorm fuel A B = .ok r := by
  induction fuel using Nat.strongRecOn generalizing A B with
  | ind fuel ih =>
    obtain ⟨f, rfl⟩ : ∃ f, fuel = f + 1 := ⟨fuel - 1, by omega⟩
    -- two hierarchical matrices with the same block counts
    have hh : ∀ (n br bc : Nat) (x y : Nat → Nat → Mat R), n ≤ f → 0 < br → 0 < bc →
        (∀ i < br, ∀ j < bc, ∃ r, collectDiffNorm n (x i j) (y i j) = .ok r) →
        ∃ r, collectDiffNorm (n + 1) (.hier br bc x) (.hier br bc y) = .ok r := by
      intro n br bc x y _ _ _ h
      obtain ⟨g, hg⟩ := collect2_exists h
      exact ⟨_, by simp only [collectDiffNorm, and_self, if_true, hg]; rfl⟩
    cases A with
    | empty => exact nA.elim
    | dense a =>
      cases B with
      | empty => exact nB.elim
      | dense b => simp only [collectDiffNorm]; exact subtract_ok hr hc
      | lowRank b =>
        simp only [WF] at hB
        obtain ⟨D, hD, e0, e1, -⟩ := LowRank_toDense_ok b hB
        simp only [collectDiffNorm, hD, except_bind_ok]
        exact subtract_ok (by rw [e0]; exact hr) (by rw [e1]; exact hc)
      | hier br bc blk =>
        have hB' := hB
        simp only [WF] at hB'
        obtain ⟨p1, p2, hsz⟩ := eB.parts hB'.1 hB'.2.1
        rw [← hr] at p1 hsz
        rw [← hc] at p2 hsz
        obtain ⟨b, hb, hs⟩ := splitOmm_leaf (A := .dense a) trivial trivial p1 p2
        simp only [IndexRange.length_split] at hb hs
        simp only [collectDiffNorm, split, hb, except_bind_ok]
        simp only [depth, Nat.zero_add] at hf
        obtain ⟨n, rfl⟩ : ∃ n, f = n + 1 := ⟨f - 1, by omega⟩
        refine hh n br bc b blk (by omega) hB'.1 hB'.2.1 (fun i hi j hj => ?_)
        have hl := Leaf_subBlock (A := .dense a) trivial
          (psum (partSizes ((⟨0, (Mat.dense a).nRows⟩ : IndexRange).split br)) i)
          (psum (partSizes ((⟨0, (Mat.dense a).nCols⟩ : IndexRange).split bc)) j)
          (partSizes ((⟨0, (Mat.dense a).nRows⟩ : IndexRange).split br) i)
          (partSizes ((⟨0, (Mat.dense a).nCols⟩ : IndexRange).split bc) j)
        have hd := depth_block (blk := blk) hi hj
        simp only [depth] at hd
        simp only [NoEmpty] at nB
        have eB' := eB
        simp only [Even] at eB'
        rw [hs i hi j hj]
        refine ih n (by omega) _ _ (WF_subBlock (.dense a) trivial _ _ _ _) (hB'.2.2 i hi j hj).1 hl.2.2.1
          (nB i hi j hj) hl.2.1 (eB' i hi j hj).1 ?_ ?_ ?_
        · rw [nRows_subBlock, (hsz i hi j hj).1]; rfl
        · rw [nCols_subBlock, (hsz i hi j hj).2]; rfl
        · rw [hl.2.2.2]; omega
    | lowRank a =>
      have hA' := hA
      simp only [WF] at hA'
      obtain ⟨D, hD, e0, e1, -⟩ := LowRank_toDense_ok a hA'
      cases B with
      | empty => exact nB.elim
      | dense b =>
        simp only [collectDiffNorm, hD, except_bind_ok]
        exact subtract_ok (by rw [e0]; exact hr) (by rw [e1]; exact hc)
      | lowRank b =>
        simp only [WF] at hB
        obtain ⟨D', hD', e0', e1', -⟩ := LowRank_toDense_ok b hB
        simp only [collectDiffNorm, hD, hD', except_bind_ok]
        exact subtract_ok (by rw [e0, e0']; exact hr) (by rw [e1, e1']; exact hc)
      | hier br bc blk =>
        have hB' := hB
        simp only [WF] at hB'
        obtain ⟨p1, p2, hsz⟩ := eB.parts hB'.1 hB'.2.1
        rw [← hr] at p1 hsz
        rw [← hc] at p2 hsz
        obtain ⟨b, hb, hs⟩ := splitOmm_leaf (A := .lowRank a) hA trivial p1 p2
        simp only [IndexRange.length_split] at hb hs
        simp only [collectDiffNorm, split, hb, except_bind_ok]
        simp only [depth, Nat.zero_add] at hf
        obtain ⟨n, rfl⟩ : ∃ n, f = n + 1 := ⟨f - 1, by omega⟩
        refine hh n br bc b blk (by omega) hB'.1 hB'.2.1 (fun i hi j hj => ?_)
        have hl := Leaf_subBlock (A := .lowRank a) trivial
          (psum (partSizes ((⟨0, (Mat.lowRank a).nRows⟩ : IndexRange).split br)) i)
          (psum (partSizes ((⟨0, (Mat.lowRank a).nCols⟩ : IndexRange).split bc)) j)
          (partSizes ((⟨0, (Mat.lowRank a).nRows⟩ : IndexRange).split br) i)
          (partSizes ((⟨0, (Mat.lowRank a).nCols⟩ : IndexRange).split bc) j)
        have hd := depth_block (blk := blk) hi hj
        simp only [depth] at hd
        simp only [NoEmpty] at nB
        have eB' := eB
        simp only [Even] at eB'
        rw [hs i hi j hj]
        refine ih n (by omega) _ _ (WF_subBlock _ hA _ _ _ _) (hB'.2.2 i hi j hj).1 hl.2.2.1
          (nB i hi j hj) hl.2.1 (eB' i hi j hj).1 ?_ ?_ ?_
        · rw [nRows_subBlock, (hsz i hi j hj).1]; rfl
        · rw [nCols_subBlock, (hsz i hi j hj).2]; rfl
        · rw [hl.2.2.2]; omega
    | hier br bc blk =>
      have hA' := hA
      simp only [WF] at hA'
      obtain ⟨p1, p2, hsz⟩ := eA.parts hA'.1 hA'.2.1
      have eA' := eA
      simp only [Even] at eA'
      -- against a leaf
      have hleaf : ∀ C : Mat R, C.Leaf → C.WF → (Mat.hier br bc blk).nRows = C.nRows →
          (Mat.hier br bc blk).nCols = C.nCols → 2 * (Mat.hier br bc blk).depth + 1 ≤ f + 1 →
          ∃ r, (do let BH ← C.split br bc; collectDiffNorm f (.hier br bc blk) BH) = .ok r := by
        intro C hl hC hr hc hf
        rw [hr] at p1 hsz
        rw [hc] at p2 hsz
        obtain ⟨b, hb, hs⟩ := splitOmm_leaf (A := C) hC hl p1 p2
        simp only [IndexRange.length_split] at hb hs
        simp only [split, hb, except_bind_ok]
        simp only [depth] at hf
        obtain ⟨n, rfl⟩ : ∃ n, f = n + 1 := ⟨f - 1, by omega⟩
        refine hh n br bc blk b (by omega) hA'.1 hA'.2.1 (fun i hi j hj => ?_)
        have hl := Leaf_subBlock (A := C) hl
          (psum (partSizes ((⟨0, C.nRows⟩ : IndexRange).split br)) i)
          (psum (partSizes ((⟨0, C.nCols⟩ : IndexRange).split bc)) j)
          (partSizes ((⟨0, C.nRows⟩ : IndexRange).split br) i)
          (partSizes ((⟨0, C.nCols⟩ : IndexRange).split bc) j)
        have hd := depth_block (blk := blk) hi hj
        simp only [depth] at hd
        simp only [NoEmpty] at nA
        rw [hs i hi j hj]
        refine ih n (by omega) _ _ (hA'.2.2 i hi j hj).1 (WF_subBlock _ hC _ _ _ _)
          (nA i hi j hj) hl.2.2.1 (eA' i hi j hj).1 hl.2.1 ?_ ?_ ?_
        · rw [nRows_subBlock, (hsz i hi j hj).1]; rfl
        · rw [nCols_subBlock, (hsz i hi j hj).2]; rfl
        · rw [hl.2.2.2]; omega
      cases B with
      | empty => exact nB.elim
      | dense b =>
        simp only [collectDiffNorm]
        exact hleaf _ trivial hB hr hc (by simp only [depth] at hf ⊢; omega)
      | lowRank b =>
        simp only [collectDiffNorm]
        exact hleaf _ trivial hB hr hc (by simp only [depth] at hf ⊢; omega)
      | hier br' bc' blk' =>
        have hB' := hB
        simp only [WF] at hB'
        by_cases hbb : br = br' ∧ bc = bc'
        · obtain ⟨rfl, rfl⟩ := hbb
          refine hh f br bc blk blk' (by omega) hA'.1 hA'.2.1 (fun i hi j hj => ?_)
          obtain ⟨-, -, hsz'⟩ := eB.parts hB'.1 hB'.2.1
          have hd := depth_block (blk := blk) hi hj
          have hd' := depth_block (blk := blk') hi hj
          simp only [NoEmpty] at nA nB
          have eB' := eB
          simp only [Even] at eB'
          refine ih f (by omega) _ _ (hA'.2.2 i hi j hj).1 (hB'.2.2 i hi j hj).1
            (nA i hi j hj) (nB i hi j hj) (eA' i hi j hj).1 (eB' i hi j hj).1 ?_ ?_ (by omega)
          · rw [(hsz i hi j hj).1, (hsz' i hi j hj).1, hr]
          · rw [(hsz i hi j hj).2, (hsz' i hi j hj).2, hc]
        · obtain ⟨D, hD, e0, e1, -⟩ := toDense_ok _ hA
          obtain ⟨D', hD', e0', e1', -⟩ := toDense_ok _ hB
          simp only [collectDiffNorm, if_neg hbb, hD, hD', except_bind_ok]
          exact subtract_ok (by rw [e0, e0']; exact hr) (by rw [e1, e1']; exact hc)

end
end Mat
end Verif
