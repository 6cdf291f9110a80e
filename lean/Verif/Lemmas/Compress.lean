import Verif.Model.Compress
import Verif.Lemmas.Construct
import Verif.Props.Geqp3
import Verif.Props.Construct

/-
Errors of compressed blocks add up over a hierarchical matrix.
-/

namespace Verif
open Finset
variable {K : Type} [Field K] [LinearOrder K]

namespace ClusterTree

/-- If the squared error of every compressed block (with at most `N` columns) is at most the sum
of `g` over its entries, so is that of the matrix built on a cluster tree. -/
theorem toMat_error {a : Admis K} {fill : FillFn ℝ} {compress : Dense ℝ → Except Err (LowRank ℝ)} {f : Int → Int → ℝ}
    {g : ℝ → ℝ} {N : Nat} (hg : ∀ x, 0 ≤ g x)
    (hcomp : ∀ d l, compress d = .ok l → l.WF ∧ l.dim0 = d.rows ∧ l.dim1 = d.cols)
    (hfill : ∀ rows cols d, fill rows cols = .ok d → (d.rows : Int) = rows.n ∧ (d.cols : Int) = cols.n ∧
      ∀ i < d.rows, ∀ j < d.cols, d.val i j = f (rows.start + i) (cols.start + j))
    (hb : ∀ d l, d.cols ≤ N → compress d = .ok l → ∑ i ∈ range d.rows, ∑ j ∈ range d.cols, (d.val i j - l.entry i j) ^ 2 ≤
      ∑ i ∈ range d.rows, ∑ j ∈ range d.cols, g (d.val i j))
    {fuel : Nat} {isRoot : Bool} {t : NodeInfo} {ch : Nat → Nat → ClusterTree} {M : Mat ℝ}
    (h : build fuel isRoot t = .ok (.node t ch)) (hbr : 1 ≤ t.br) (hbc : 1 ≤ t.bc) (hN : t.cols.n ≤ N)
    (hM : toMat a fill compress (.node t ch) = .ok M) :
    ∑ i ∈ range M.nRows, ∑ j ∈ range M.nCols, (f (t.rows.start + i) (t.cols.start + j) - M.entry i j) ^ 2 ≤
      ∑ i ∈ range M.nRows, ∑ j ∈ range M.nCols, g (f (t.rows.start + i) (t.cols.start + j)) := by
  have hfd : ∀ rows cols d, fill rows cols = .ok d → (d.rows : Int) = rows.n ∧ (d.cols : Int) = cols.n :=
    fun rows cols d hd => ⟨(hfill rows cols d hd).1, (hfill rows cols d hd).2.1⟩
  induction fuel generalizing isRoot t ch M with
  | zero => simp [build] at h
  | succ fu ih =>
    have hM0 := hM
    obtain ⟨-, -, f', hf', hch⟩ := build_node h
    obtain rfl : f' = fu := by omega
    have hinfo : ∀ i < t.br, ∀ j < t.bc, (ch i j).info = childInfo t i j :=
      fun i hi j hj => build_info (hch i hi j hj)
    obtain ⟨blk, rfl, hblk⟩ := toMat_node (fun i hi j hj => by
      rw [hinfo i hi j hj]; simp [childInfo]) hM
    obtain ⟨hr, hc, ok1, ok2⟩ := toMat_nonneg (fun rows cols d hd => by
      obtain ⟨h1, h2⟩ := hfd rows cols d hd
      constructor <;> omega) h hbr hbc hM
    have pr := IndexRange.split_isPartition t.rows t.br hr hbr ok1
    have pc := IndexRange.split_isPartition t.cols t.bc hc hbc ok2
    obtain ⟨or1, or2⟩ := splitChild_offset pr hbr
    obtain ⟨oc1, oc2⟩ := splitChild_offset pc hbc
    generalize hH : (fun i : Nat => (t.rows.splitChild t.br i).n.toNat) = H at or1 or2
    generalize hW : (fun i : Nat => (t.cols.splitChild t.bc i).n.toNat) = W at oc1 oc2
    have eH : ∀ i, (t.rows.splitChild t.br (i : Nat)).n.toNat = H i := fun i => by rw [← hH]
    have eW : ∀ i, (t.cols.splitChild t.bc (i : Nat)).n.toNat = W i := fun i => by rw [← hW]
    simp only [eH] at or1
    simp only [eW] at oc1
    have wN : ∀ j < t.bc, (t.cols.splitChild t.bc j).n ≤ N := by
      intro j hj
      have h1 := oc1 j hj
      have h2 := psum_mono W (show j + 1 ≤ t.bc by omega)
      rw [psum_succ] at h2
      omega
    have key : ∀ i < t.br, ∀ j < t.bc, (blk i j).WF ∧ (blk i j).nRows = H i ∧ (blk i j).nCols = W j ∧
        ∑ r ∈ range (H i), ∑ c ∈ range (W j), (f (t.rows.start + (psum H i + r : Nat)) (t.cols.start + (psum W j + c : Nat)) -
          (blk i j).entry r c) ^ 2 ≤
        ∑ r ∈ range (H i), ∑ c ∈ range (W j),
          g (f (t.rows.start + (psum H i + r : Nat)) (t.cols.start + (psum W j + c : Nat))) := by
      intro i hi j hj
      have hb' := hblk i hi j hj
      have hin := hinfo i hi j hj
      have hrows : (childInfo t i j).rows = t.rows.splitChild t.br i := rfl
      have hcols : (childInfo t i j).cols = t.cols.splitChild t.bc j := rfl
      obtain ⟨rn, rst⟩ := or1 i hi
      obtain ⟨cn, cst⟩ := oc1 j hj
      have hbu := hch i hi j hj
      have wj := wN j hj
      have e1 : ∀ r : Nat, t.rows.start + ((psum H i + r : Nat) : Int) = (t.rows.splitChild t.br i).start + (r : Nat) := by
        intro r; rw [rst]; push_cast; omega
      have e2 : ∀ c : Nat, t.cols.start + ((psum W j + c : Nat) : Int) = (t.cols.splitChild t.bc j).start + (c : Nat) := by
        intro c; rw [cst]; push_cast; omega
      simp only [e1, e2]
      rw [childBlock, except_bind_eq_ok] at hb'
      obtain ⟨adm, hadm, hb'⟩ := hb'
      cases adm with
      | true =>
        simp only [if_true, except_bind_eq_ok] at hb'
        obtain ⟨d, hd, l, hl, hb'⟩ := hb'
        rw [← Except.ok.inj hb']
        obtain ⟨lwf, l0, l1⟩ := hcomp d l hl
        obtain ⟨d0, d1, dv⟩ := hfill _ _ _ hd
        rw [hin, hrows] at d0 dv
        rw [hin, hcols] at d1
        rw [hcols] at dv
        have dr : d.rows = H i := by omega
        have dc : d.cols = W j := by omega
        refine ⟨lwf, by rw [Mat.nRows]; omega, by rw [Mat.nCols]; omega, ?_⟩
        have := hb d l (by omega) hl
        rw [dr, dc] at this dv
        refine le_trans (le_of_eq ?_) (this.trans (le_of_eq ?_))
        · exact Finset.sum_congr rfl fun r hr' => Finset.sum_congr rfl fun c hc' => by
            rw [dv r (mem_range.1 hr') c (mem_range.1 hc'), Mat.entry]
        · exact Finset.sum_congr rfl fun r hr' => Finset.sum_congr rfl fun c hc' => by
            rw [dv r (mem_range.1 hr') c (mem_range.1 hc')]
      | false =>
        simp only [Bool.false_eq_true, if_false] at hb'
        split at hb'
        · rw [except_bind_eq_ok] at hb'
          obtain ⟨d, hd, hb'⟩ := hb'
          rw [← Except.ok.inj hb']
          obtain ⟨d0, d1, dv⟩ := hfill _ _ _ hd
          rw [hin, hrows] at d0 dv
          rw [hin, hcols] at d1
          rw [hcols] at dv
          have dr : d.rows = H i := by omega
          have dc : d.cols = W j := by omega
          refine ⟨trivial, by rw [Mat.nRows]; omega, by rw [Mat.nCols]; omega, ?_⟩
          rw [dr, dc] at dv
          refine Finset.sum_le_sum fun r hr' => Finset.sum_le_sum fun c hc' => ?_
          rw [Mat.entry, dv r (mem_range.1 hr') c (mem_range.1 hc'), sub_self, zero_pow two_ne_zero]
          exact hg _
        · rename_i hnl
          have hcn : ∃ ch', ch i j = .node (childInfo t i j) ch' := by
            cases hx : ch i j with
            | leaf s =>
              rw [hx] at hbu
              obtain ⟨rfl, -, hl⟩ := build_leaf hbu
              rw [hx] at hnl
              exact absurd hl hnl
            | node s ch' =>
              rw [hx] at hbu
              exact ⟨ch', by rw [(build_node hbu).1]⟩
          obtain ⟨ch', hx⟩ := hcn
          rw [hx] at hbu hb'
          obtain ⟨g1, -, g3, g4, -⟩ := toMat_spec hcomp hfd hbu hbr hbc hb'
          have := ih hbu hbr hbc (by rw [hcols]; exact wj) hb'
          rw [hrows] at g3 this
          rw [hcols] at g4 this
          have g3' : (blk i j).nRows = H i := by omega
          have g4' : (blk i j).nCols = W j := by omega
          rw [g3', g4'] at this
          exact ⟨g1, g3', g4', this⟩
    obtain ⟨-, gr, gc, ge⟩ := Mat.hier_grid (h := H) (w := W) hbr hbc
      (fun i hi j hj => ⟨(key i hi j hj).1, (key i hi j hj).2.1, (key i hi j hj).2.2.1⟩)
    rw [gr, gc, Mat.sum_blocks2, Mat.sum_blocks2]
    refine Finset.sum_le_sum fun p hp => Finset.sum_le_sum fun q hq => ?_
    have hp := mem_range.1 hp
    have hq := mem_range.1 hq
    refine le_trans (le_of_eq ?_) (key p hp q hq).2.2.2
    exact Finset.sum_congr rfl fun r hr' => Finset.sum_congr rfl fun c hc' => by
      rw [(ge p hp q hq r (mem_range.1 hr') c (mem_range.1 hc')).1]

end ClusterTree
end Verif
