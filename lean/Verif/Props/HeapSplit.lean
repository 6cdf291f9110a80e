import Verif.Model.HeapSplit
import Verif.Props.Heap
import Verif.Props.Partition

/-
C13 and C11 for `Dense::split` with numbers of blocks.
-/

namespace Verif
open IndexRange
variable {R : Type}

private theorem tiles_from (n k : Nat) (hn : ∀ i < k, 0 ≤ ((⟨0, n⟩ : IndexRange).splitChild k i).n)
    (hs : ∀ i < k, 0 ≤ ((⟨0, n⟩ : IndexRange).splitChild k i).start) : ∀ c i, i + (c + 1) = k →
    TilesFrom ((⟨0, n⟩ : IndexRange).splitChild k i).start.toNat n
      ((List.range' i (c + 1)).map fun (i : Nat) => (((⟨0, n⟩ : IndexRange).splitChild k i).start.toNat,
        ((⟨0, n⟩ : IndexRange).splitChild k i).n.toNat)) := by
  intro c
  induction c with
  | zero =>
    intro i hi
    have := splitChild_last (⟨0, n⟩ : IndexRange) k (by omega)
    rw [show k - 1 = i by omega] at this
    have h1 := hn i (by omega)
    have h2 := hs i (by omega)
    simp only at this
    refine ⟨rfl, ?_⟩
    simp only [List.range'_zero, List.map_nil, TilesFrom]
    omega
  | succ c ih =>
    intro i hi
    have h := splitChild_adjacent (⟨0, n⟩ : IndexRange) k i (by omega)
    have h1 := hn i (by omega)
    have h2 := hs i (by omega)
    refine ⟨rfl, ?_⟩
    have := ih (i + 1) (by omega)
    rw [show ((⟨0, n⟩ : IndexRange).splitChild k i).start.toNat + ((⟨0, n⟩ : IndexRange).splitChild k i).n.toNat =
      ((⟨0, n⟩ : IndexRange).splitChild k ((i + 1 : Nat) : Int)).start.toNat by rw [← h]; omega]
    exact this

/-- The ranges `Dense::split` uses for `k` parts of `n` rows: they exist exactly if the
rounded-up part length leaves room for the last part (C01), and then follow each other from
`0` to `n`. -/
theorem C13_even_ranges (n k : Nat) (hk : 1 ≤ k) :
    ((∃ rs, evenRanges n k = .ok rs) ↔ (n + k - 1) / k * (k - 1) ≤ n) ∧
    ∀ rs, evenRanges n k = .ok rs → rs.length = k ∧ Tiles n rs := by
  have hmem : ∀ i < k, (⟨0, n⟩ : IndexRange).splitChild k i ∈ (⟨0, n⟩ : IndexRange).split k := by
    intro i hi
    simp only [IndexRange.split, List.mem_map, List.mem_range]
    exact ⟨i, hi, rfl⟩
  constructor
  · constructor
    · rintro ⟨rs, h⟩
      simp only [evenRanges] at h
      split at h
      · rename_i ha
        simp only [List.all_eq_true, decide_eq_true_eq] at ha
        have h0 := ha _ (hmem (k - 1) (by omega))
        have h2 : (((k - 1 : Nat)) : Int) = (k : Int) - 1 := by omega
        simp only [splitChild, h2, if_true] at h0
        rw [Int.tdiv_eq_ediv_of_nonneg (by omega)] at h0
        have h3 : ((n : Int) + k - 1) = ((n + k - 1 : Nat) : Int) := by omega
        rw [h3, ← h2] at h0
        have : (((n + k - 1) / k * (k - 1) : Nat) : Int) ≤ n := by push_cast at h0 ⊢; omega
        exact_mod_cast this
      · cases h
    · intro h
      have hp := (C01_split_partition_iff 0 n k hk).2.2 h
      have : ((⟨0, n⟩ : IndexRange).split k).all (fun r => decide (0 ≤ r.n)) = true := by
        simp only [List.all_eq_true, decide_eq_true_eq]
        exact hp.nonneg
      exact ⟨_, by simp only [evenRanges]; rw [if_pos this]⟩
  · intro rs h
    simp only [evenRanges] at h
    split at h
    · rename_i ha
      simp only [List.all_eq_true, decide_eq_true_eq] at ha
      cases h
      refine ⟨by simp [IndexRange.split], ?_⟩
      have hs : ∀ i < k, 0 ≤ ((⟨0, n⟩ : IndexRange).splitChild k i).start := by
        intro i _
        simp only [splitChild]
        rw [Int.tdiv_eq_ediv_of_nonneg (by omega)]
        have : (0 : Int) ≤ ((n : Int) + k - 1) / k := Int.ediv_nonneg (by omega) (by omega)
        positivity
      have := tiles_from n k (fun i hi => ha _ (hmem i hi)) hs (k - 1) 0 (by omega)
      rw [show ((⟨0, n⟩ : IndexRange).splitChild k ((0 : Nat) : Int)).start.toNat = 0 by simp [splitChild],
        show k - 1 + 1 = k by omega, ← List.range_eq_range'] at this
      simp only [Tiles, IndexRange.split, List.map_map]
      exact this
    · cases h

/-- C13 for `split(n_row_splits, n_col_splits)` without copying: it makes the views of the
split along the even ranges, which partition the rows and the columns, so that the blocks
alias the matrix (`C13_split_alias`), are disjoint (`C13_blocks_disjoint`) and cover it
(`C13_blocks_cover`). -/
theorem C13_split_counts [Zero R] {m : Mem R} {o : Nat} {d : DObj} (ho : m.objs[o]? = some d) (hd : d.data ≠ none) {nr nc : Nat}
    (hr : 1 ≤ nr) (hc : 1 ≤ nc) (fr : (d.rows + nr - 1) / nr * (nr - 1) ≤ d.rows)
    (fc : (d.cols + nc - 1) / nc * (nc - 1) ≤ d.cols) :
    ∃ rs cs ds, d.splitViewN nr nc = .ok ds ∧ ds.length = nr * nc ∧ rs.length = nr ∧ cs.length = nc ∧
      Tiles d.rows rs ∧ Tiles d.cols cs ∧ m.step (.splitView o rs cs) = .ok ⟨m.heap, m.objs ++ ds⟩ := by
  obtain ⟨rs, h1⟩ := (C13_even_ranges d.rows nr hr).1.2 fr
  obtain ⟨cs, h2⟩ := (C13_even_ranges d.cols nc hc).1.2 fc
  obtain ⟨l1, t1⟩ := (C13_even_ranges d.rows nr hr).2 rs h1
  obtain ⟨l2, t2⟩ := (C13_even_ranges d.cols nc hc).2 cs h2
  have hv : d.splitView rs cs = .ok (rs.flatMap (fun r => cs.map (fun c => d.block r c))) := by
    rw [DObj.splitView, if_neg (fun h => hd h.1)]
  refine ⟨rs, cs, rs.flatMap (fun r => cs.map (fun c => d.block r c)), ?_, ?_, l1, l2, t1, t2, ?_⟩
  · rw [DObj.splitViewN, h1, except_bind_ok, h2, except_bind_ok, hv]
  · rw [← l1]
    have e : ∀ l : List (Nat × Nat), (l.flatMap (fun r => cs.map (fun c => d.block r c))).length = l.length * nc := by
      intro l
      induction l with
      | nil => simp
      | cons a l ih => rw [List.flatMap_cons, List.length_append, ih, List.length_map, l2, List.length_cons, Nat.succ_mul]; omega
    exact e rs
  · simp only [Mem.step, ho, hv, except_bind_ok]

/-- C11 for `split(n_row_splits, n_col_splits, true)`: it makes the copies of the split along
the even ranges (`C11_split_copy`). -/
theorem C11_split_copy_counts [Zero R] {m : Mem R} (hm : Reach m) {o : Nat} {d : DObj} (ho : m.objs[o]? = some d)
    (hu : d.Usable) {nr nc : Nat} (hr : 1 ≤ nr) (hc : 1 ≤ nc) (fr : (d.rows + nr - 1) / nr * (nr - 1) ≤ d.rows)
    (fc : (d.cols + nc - 1) / nc * (nc - 1) ≤ d.cols) :
    ∃ rs cs h' ds, d.splitCopyN m.heap nr nc = .ok (h', ds) ∧ rs.length = nr ∧ cs.length = nc ∧
      Tiles d.rows rs ∧ Tiles d.cols cs ∧ m.step (.splitCopy o rs cs) = .ok ⟨h', m.objs ++ ds⟩ := by
  obtain ⟨rs, h1⟩ := (C13_even_ranges d.rows nr hr).1.2 fr
  obtain ⟨cs, h2⟩ := (C13_even_ranges d.cols nc hc).1.2 fc
  obtain ⟨l1, t1⟩ := (C13_even_ranges d.rows nr hr).2 rs h1
  obtain ⟨l2, t2⟩ := (C13_even_ranges d.cols nc hc).2 cs h2
  obtain ⟨m', hs, -, -⟩ := C11_split_copy hm ho hu t1.rangesIn t2.rangesIn
  have hs' := hs
  simp only [Mem.step, ho, except_bind_eq_ok] at hs'
  obtain ⟨⟨h', ds⟩, hx, he⟩ := hs'
  cases he
  exact ⟨rs, cs, h', ds, by rw [DObj.splitCopyN, h1, except_bind_ok, h2, except_bind_ok, hx], l1, l2, t1, t2, hs⟩

/-- Seven rows in three parts: `(0,3)`, `(3,3)`, `(6,1)`. -/
example : evenRanges 7 3 = .ok [(0, 3), (3, 3), (6, 1)] ∧ evenRanges 5 4 = .error .ub := by
  constructor <;> decide +kernel

end Verif
