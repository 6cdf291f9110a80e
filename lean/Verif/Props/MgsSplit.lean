import Verif.Lemmas.MgsSplit
import Verif.Spec.Mgs
import Mathlib.Tactic.IntervalCases

/-!
C35: splitting a block column of a matrix and restoring it.
-/

set_option linter.unusedSectionVars false

namespace Verif
open Finset

variable {R : Type} [CommRing R]

namespace Mat

theorem Splittable.wf {k : Nat} {M : Mat R} (h : M.Splittable k) : M.WF := by
  cases M with
  | dense => trivial
  | lowRank l => exact h.1
  | hier => exact h.1
  | empty => exact h.elim

theorem isPartition_zero {n k : Nat} (hk : 0 < k) (h : (n + k - 1) / k * (k - 1) ≤ n) :
    IsPartition ⟨0, n⟩ ((⟨0, n⟩ : IndexRange).split k) :=
  (C01_split_partition_iff 0 n k hk).2.2 h

theorem splitByColumn_total {rows k r : Nat} {M : Mat R} {S : Cells R} (hk : 0 < k) (hM : M.Splittable k)
    (hr : r + rowsOf M ≤ rows) : ∃ x, splitByColumn rows k M (S, r) = .ok x := by
  cases M with
  | dense d =>
    obtain ⟨s, hs⟩ := split_row_total (D := d) (isPartition_zero hk hM)
    obtain ⟨S', h2⟩ := writeRow_total (rows := rows) (cols := k) (r := r) (n := k) (g := s.blocksOf 0) (S := S)
      (by simp only [rowsOf] at hr; omega) (le_refl _)
    refine ⟨(Dense.zero 0 0, S', r + 1), ?_⟩
    simp only [splitByColumn, hs, except_bind_ok, h2]
  | lowRank l =>
    obtain ⟨sv, e⟩ := lr_gemm_total hM.1
    obtain ⟨-, e2, -⟩ := lr_entry hM.1 e
    obtain ⟨s, hs⟩ := split_row_total (D := sv) (isPartition_zero hk (by rw [e2]; exact hM.2))
    obtain ⟨S', h2⟩ := writeRow_total (rows := rows) (cols := k) (r := r) (n := k) (g := s.blocksOf 0) (S := S)
      (by simp only [rowsOf] at hr; omega) (le_refl _)
    refine ⟨(l.U, S', r + 1), ?_⟩
    simp only [splitByColumn, makeLeftOrthogonal, e, hs, except_bind_ok, h2]
  | hier br bc blk =>
    obtain ⟨S', h, -⟩ := loop_ok (n := br) (f := fun i S => writeRow rows k (r + i) bc (blk i) S) (a := S)
      (I := fun _ _ => True) trivial (by
        intro i hi X _
        obtain ⟨Y, hY⟩ := writeRow_total (rows := rows) (cols := k) (r := r + i) (n := bc) (g := blk i) (S := X)
          (by simp only [rowsOf] at hr; omega) (le_of_eq hM.2)
        exact ⟨Y, hY, trivial⟩)
    refine ⟨(Dense.zero 0 0, S', r + br), ?_⟩
    simp only [splitByColumn, h, except_bind_ok]
  | empty => exact hM.elim

theorem ColumnOf.size {k p : Nat} {A : Nat → Mat R} (h : ColumnOf k p A) : (splitSize p A).2 = k := by
  rcases splitSize_snd p A with ⟨i, hi, br, bc, blk, e, h'⟩ | ⟨h1, h2⟩
  · have := h.blocks i hi
    rw [e] at this
    rw [h', this.2]
  · rcases h.count with h' | ⟨i, hi, br, blk, e⟩
    · rw [h2, h']
    · exact absurd e (h1 i hi br k blk)

theorem ColumnOf.width {k p : Nat} {A : Nat → Mat R} (h : ColumnOf k p A) {i : Nat} (hi : i < p) :
    widthOf k (A i) = k := by
  have := h.blocks i hi
  generalize A i = M at this
  cases M with
  | hier => exact this.2
  | _ => rfl

theorem splitBlockCol_total {k p : Nat} {A : Nat → Mat R} (h : ColumnOf k p A) :
    ∃ s, splitBlockCol p A = .ok s := by
  have hw : ∀ i < p, (A i).WF := fun i hi => (h.blocks i hi).wf
  have hz : splitSize p A = (psum (fun i => rowsOf (A i)) p, k) := by
    rw [← splitSize_fst, ← h.size]
  obtain ⟨x, h1, -⟩ := loop_ok (n := p) (f := fun i (st : (Cells R × Nat) × (Nat → Dense R)) => do
      let y ← splitByColumn (psum (fun i => rowsOf (A i)) p) k (A i) st.1
      .ok (y.2, fun a => if a = i then y.1 else st.2 a))
      (a := (((fun _ _ => none), 0), fun _ => Dense.zero 0 0))
      (I := fun i st => st.1.2 = psum (fun i => rowsOf (A i)) i) (by simp [psum]) (by
        intro i hi st hst
        obtain ⟨⟨S, r⟩, l⟩ := st
        obtain rfl : r = psum (fun i => rowsOf (A i)) i := hst
        obtain ⟨y, hy⟩ := splitByColumn_total (S := S) h.pos (h.blocks i hi)
          (psum_le (fun i => rowsOf (A i)) hi)
        refine ⟨(y.2, fun a => if a = i then y.1 else l a), ?_, ?_⟩
        · simp only [hy, except_bind_ok]
        · show y.2.2 = _
          rw [(splitByColumn_spec h.pos (hw i hi) hy).1, psum_succ])
  obtain ⟨-, k2, -⟩ := splitLoop_spec hw h.pos h1
  obtain ⟨blk, h2⟩ := collect2_exists (m := psum (fun i => rowsOf (A i)) p) (n := k)
      (f := fun i j => (x.1.1 i j).elim (.error .assertFail) .ok) (by
    intro r hr b hb
    obtain ⟨i, hi, a, ha, rfl⟩ := exists_block _ _ r hr
    obtain ⟨-, g, -, g2⟩ := k2 i hi
    rw [g2 a ha b, if_pos (by rw [h.width hi]; exact hb)]
    exact ⟨_, rfl⟩)
  refine ⟨⟨psum (fun i => rowsOf (A i)) p, k, blk, x.2⟩, ?_⟩
  simp only [splitBlockCol, hz, h1, h2, except_bind_ok]

/-- **C35.**  Splitting a block column and restoring it, into a block column with the
same structure, gives block by block the same entries, for all mixtures of
dense, low-rank and nested blocks. -/
theorem C35_round_trip {p : Nat} {A Q Q' : Nat → Mat R} {s : SplitCol R} (hw : ∀ i < p, (A i).WF)
    (hQ : ∀ i < p, (A i).SameShape (Q i)) (hs : splitBlockCol p A = .ok s)
    (hr : restoreBlockCol p s.rows s.cols s.blk s.left Q = .ok Q') :
    ∀ i < p, (A i).SameShape (Q' i) ∧ (Q' i).SameEntries (A i) := by
  obtain ⟨s1, s2, s3, s4⟩ := splitBlockCol_spec hw hs
  intro i hi
  have hr := (restoreBlockCol_spec hr).1 i hi
  obtain ⟨w, P⟩ := s4 i hi
  have hwi := hw i hi
  have hqi := hQ i hi
  have hoff : psum (fun i => rowsOf (Q i)) i = psum (fun i => rowsOf (A i)) i :=
    psum_congr (fun a ha => rowsOf_shape (hQ a (by omega)))
  rw [hoff] at hr
  generalize psum (fun i => rowsOf (A i)) i = r at hr P
  generalize psum (fun i => rowsOf (Q i)) (i + 1) = r' at hr
  generalize A i = M at *
  generalize Q i = N at *
  generalize Q' i = N' at *
  cases M with
  | empty => exact P.elim
  | dense d =>
    cases N with
    | dense a =>
      simp only [concatColumns, except_bind_eq_ok, assertM_eq_ok, decide_eq_true_eq] at hr
      obtain ⟨e, he, _, e1, _, e2, hr⟩ := hr
      obtain ⟨c1, c2, c3⟩ := cut_entry P.1 s3 P.2 he
      cases Except.ok.inj hr
      exact ⟨⟨c1.symm, c2.symm⟩, c1, c2, fun x hx y hy => c3 x (by rw [← c1]; exact hx) y (by rw [← c2]; exact hy)⟩
    | _ => exact hqi.elim
  | lowRank l =>
    cases N with
    | lowRank a =>
      obtain ⟨pq, sv, p1, p2, p3⟩ := P
      obtain ⟨l1, l2, l3⟩ := lr_entry hwi p1
      simp only [concatColumns, except_bind_eq_ok, assertM_eq_ok, decide_eq_true_eq] at hr
      obtain ⟨e, he, _, e1, _, e2, _, e3, hr⟩ := hr
      obtain ⟨c1, c2, c3⟩ := cut_entry p2 s3 p3 he
      cases Except.ok.inj hr
      have d0 : l.dim0 = (s.left i).rows := by rw [pq]; exact hwi.urows.symm
      refine ⟨⟨d0, (c2.trans l2).symm⟩, d0.symm, c2.trans l2, fun x hx y hy => ?_⟩
      have hy' : y < sv.cols := by
        have : y < e.cols := hy
        omega
      refine (lrOf_entry (q := s.left i) (d := e) (e := a.eps) x y).trans ?_
      show _ = l.entry x y
      rw [l3, pq, hwi.ucols]
      refine Finset.sum_congr rfl (fun t ht => ?_)
      rw [c3 t (by rw [l1]; exact Finset.mem_range.1 ht) y hy']
    | _ => exact hqi.elim
  | hier br bc blk =>
    cases N with
    | hier br' bc' blk' =>
      obtain ⟨rfl, rfl, hsh⟩ := hqi
      simp only [concatColumns, except_bind_eq_ok, assertM_eq_ok, decide_eq_true_eq] at hr
      obtain ⟨_, e1, g, he, hr⟩ := hr
      cases Except.ok.inj hr
      have hg : ∀ a < br, ∀ b < bc, g a b = blk a b := by
        intro a ha b hb
        have := collect2_ok he a ha b hb
        simp only [blockAt, except_bind_eq_ok] at this
        obtain ⟨_, _, _, _, this⟩ := this
        rw [← Except.ok.inj this]
        exact P a ha b hb
      refine ⟨⟨rfl, rfl, fun a ha b hb => ?_⟩, ?_, ?_, fun x hx y hy => ?_⟩
      · rw [hg a ha b hb]
        exact SameShape.refl _
      · simp only [nRows_hier]
        exact psum_congr (fun a ha => by rw [hg a ha 0 hwi.2.1])
      · simp only [nCols_hier]
        exact psum_congr (fun b hb => by rw [hg 0 hwi.1 b hb])
      · have hr0 : ∀ a < br, (g a 0).nRows = (blk a 0).nRows := fun a ha => by rw [hg a ha 0 hwi.2.1]
        have hc0 : ∀ b < bc, (g 0 b).nCols = (blk 0 b).nCols := fun b hb => by rw [hg 0 hwi.1 b hb]
        rw [nRows_hier, psum_congr hr0] at hx
        rw [nCols_hier, psum_congr hc0] at hy
        obtain ⟨a, ha, u, hu, rfl⟩ := exists_block _ _ x hx
        obtain ⟨b, hb, v, hv, rfl⟩ := exists_block _ _ y hy
        rw [entry_block ha hb hu hv]
        have := entry_block (blk := g) (bc := bc) (br := br) ha hb (r := u) (s := v)
          (by rw [hr0 a ha]; exact hu) (by rw [hc0 b hb]; exact hv)
        rw [psum_congr (fun a' ha' => hr0 a' (by omega)), psum_congr (fun b' hb' => hc0 b' (by omega))] at this
        rw [this, hg a ha b hb]
    | _ => exact hqi.elim

/-- **C35**, termination: every block column that can be cut is split and restored. -/
theorem C35_returns {k p : Nat} {A : Nat → Mat R} (h : ColumnOf k p A) :
    ∃ s A', splitBlockCol p A = .ok s ∧ s.cols = k ∧
      restoreBlockCol p s.rows s.cols s.blk s.left A = .ok A' ∧
      ∀ i < p, (A' i).SameEntries (A i) := by
  have hw : ∀ i < p, (A i).WF := fun i hi => (h.blocks i hi).wf
  obtain ⟨s, hs⟩ := splitBlockCol_total h
  obtain ⟨s1, s2, s3, s4⟩ := splitBlockCol_spec hw hs
  have hk : s.cols = k := s2.trans h.size
  suffices hr : ∃ A', restoreBlockCol p s.rows s.cols s.blk s.left A = .ok A' by
    obtain ⟨A', hr⟩ := hr
    exact ⟨s, A', hs, hk, hr, fun i hi =>
      (C35_round_trip hw (fun i _ => SameShape.refl _) hs hr i hi).2⟩
  obtain ⟨x, hx, -⟩ := loop_ok (n := p) (f := fun i (st : (Nat → Mat R) × Nat) => do
      let y ← concatColumns s.rows s.cols s.blk (st.1 i) (s.left i) st.2
      .ok (fun a => if a = i then y.1 else st.1 a, y.2)) (a := (A, 0))
      (I := fun i st => st.2 = psum (fun i => rowsOf (A i)) i ∧ ∀ i', i ≤ i' → st.1 i' = A i')
      ⟨by simp [psum], fun _ _ => rfl⟩ (by
    intro i hi st ⟨i1, i2⟩
    have hb : ∃ y, concatColumns s.rows s.cols s.blk (A i) (s.left i) (psum (fun i => rowsOf (A i)) i) = .ok y := by
      obtain ⟨w, P⟩ := s4 i hi
      have hwi := hw i hi
      have hrow : psum (fun i => rowsOf (A i)) i + rowsOf (A i) ≤ s.rows := by
        rw [s1]
        exact psum_le (fun i => rowsOf (A i)) hi
      generalize psum (fun i => rowsOf (A i)) i = r at P hrow
      generalize A i = M at *
      cases M with
      | empty => exact P.elim
      | dense d =>
        obtain ⟨e, he⟩ := concatRow_total (rows := s.rows) (S := s.blk) (r := r) (m := d.rows) s3
          (by simp only [rowsOf] at hrow; omega) (fun b hb => by
            have := P.2 b hb
            simp only [Nat.add_zero] at this
            rw [this]
            exact ⟨trivial, rfl⟩)
        obtain ⟨c1, c2, -⟩ := cut_entry P.1 s3 P.2 he
        refine ⟨(.dense e, r + 1), ?_⟩
        simp only [concatColumns, he, c1, c2, except_bind_ok, decide_true, assertM, if_true]
      | lowRank l =>
        obtain ⟨pq, sv, p1, p2, p3⟩ := P
        obtain ⟨l1, l2, l3⟩ := lr_entry hwi p1
        obtain ⟨e, he⟩ := concatRow_total (rows := s.rows) (S := s.blk) (r := r) (m := sv.rows) s3
          (by simp only [rowsOf] at hrow; omega) (fun b hb => by
            have := p3 b hb
            simp only [Nat.add_zero] at this
            rw [this]
            exact ⟨trivial, rfl⟩)
        obtain ⟨c1, c2, -⟩ := cut_entry p2 s3 p3 he
        refine ⟨(.lowRank (lrOf (s.left i) e l.eps), r + 1), ?_⟩
        simp only [concatColumns, he, c1, c2, l1, l2, pq, hwi.urows, hwi.ucols, except_bind_ok, decide_true,
          assertM, if_true, lrOf]
      | hier br bc blk =>
        obtain ⟨g, hg⟩ := collect2_exists (m := br) (n := bc)
          (f := fun a b => blockAt s.rows s.cols s.blk (r + a) b) (fun a ha b hb =>
            ⟨_, blockAt_in _ (by simp only [rowsOf] at hrow; omega) (by rw [← w]; exact hb)⟩)
        have w' : s.cols = bc := w.symm
        refine ⟨(.hier br bc g, r + br), ?_⟩
        simp only [concatColumns, w', except_bind_ok, decide_true, assertM, if_true]
        rw [w'] at hg
        rw [hg]
        rfl
    obtain ⟨y, hy⟩ := hb
    refine ⟨(fun a => if a = i then y.1 else st.1 a, y.2), ?_, ?_, fun i' hi' => ?_⟩
    · rw [i2 i (le_refl _), i1]
      simp only [hy, except_bind_ok]
    · show y.2 = _
      rw [concatColumns_next hy, psum_succ]
    · show (if i' = i then y.1 else st.1 i') = _
      rw [if_neg (by omega)]
      exact i2 i' (by omega))
  refine ⟨x.1, ?_⟩
  simp only [restoreBlockCol, hx, except_bind_ok]

/-- A block column with a dense, a low-rank and a nested block, cut into two parts. -/
example : ∃ A : Nat → Mat ℤ, ColumnOf 2 3 A ∧ (∃ d, A 0 = .dense d) ∧ (∃ l, A 1 = .lowRank l) := by
  refine ⟨fun i => if i = 0 then .dense ⟨2, 3, fun a b => a + 2 * b⟩ else if i = 1 then
    .lowRank ⟨4, 3, 1, 0, ⟨4, 1, fun a _ => a⟩, ⟨1, 1, fun _ _ => 2⟩, ⟨1, 3, fun _ b => b⟩⟩ else
    .hier 2 2 (fun _ b => .dense ⟨1, 2 - b, fun _ _ => 7⟩), ⟨by decide, ?_, ?_⟩, ⟨_, rfl⟩, ⟨_, rfl⟩⟩
  · intro i hi
    interval_cases i
    · show (3 + 2 - 1) / 2 * (2 - 1) ≤ 3
      decide
    · exact ⟨⟨rfl, rfl, rfl, rfl, rfl⟩, by decide⟩
    · exact ⟨⟨by decide, by decide, fun a ha b hb => ⟨trivial, rfl, rfl⟩⟩, rfl⟩
  · exact Or.inr ⟨2, by decide, 2, _, rfl⟩

end Mat
end Verif
