import Verif.Lemmas.MgsSplit
import Verif.Spec.Mgs

/-!
Block Gram-Schmidt QR: the factorization.
-/

set_option linter.unusedSectionVars false
set_option linter.unusedVariables false

namespace Verif
open Finset

variable {R : Type} [CommRing R]

namespace Mat

/-! ### regular blocks -/

theorem EvenBlock.good {ex : Prop} {M : Mat R} (h : M.EvenBlock ex) : Good ex M := ⟨h.wf, h.sqr, h.fine⟩

theorem EvenBlock.of_good {ex : Prop} {M N : Mat R} (h : M.EvenBlock ex) (hN : Good ex N) (hs : M.SameShape N) :
    N.EvenBlock ex := ⟨hN.wf, hN.sqr, hN.fine, hs.even h.wf h.even⟩

theorem EvenBlock.block {ex : Prop} {br bc : Nat} {blk : Nat → Nat → Mat R} (h : (Mat.hier br bc blk).EvenBlock ex)
    {a b : Nat} (ha : a < br) (hb : b < bc) : (blk a b).EvenBlock ex := by
  obtain ⟨⟨h1, h2, h3⟩, hs, hf, he⟩ := h
  refine ⟨(h3 a ha b hb).1, hs a ha b hb, hf.imp_left (fun hd x hx y hy => ?_), (he a ha b hb).1⟩
  rw [(h3 a ha b hb).2.1] at hx
  rw [(h3 a ha b hb).2.2] at hy
  have := hd (psum (fun a => (blk a 0).nRows) a + x) (by
    rw [nRows_hier]
    have := psum_le (fun a => (blk a 0).nRows) ha
    omega) (psum (fun b => (blk 0 b).nCols) b + y) (by
    rw [nCols_hier]
    have := psum_le (fun b => (blk 0 b).nCols) hb
    omega)
  rwa [denseAt_block ha hb hx hy] at this

theorem EvenBlock.dense {ex : Prop} (d : Dense R) : (Mat.dense d).EvenBlock ex :=
  ⟨trivial, trivial, Or.inl (fun _ _ _ _ => trivial), trivial⟩

theorem evenW_eq {n k b : Nat} (hb : b < k) :
    evenW n k b = ((⟨0, n⟩ : IndexRange).splitChild k b).n.toNat := by
  rw [evenW, partSizes, rangeAt_eq (by simpa using hb), IndexRange.getElem_split]

theorem EvenBlock.widths {ex : Prop} {br bc : Nat} {blk : Nat → Nat → Mat R} (h : (Mat.hier br bc blk).EvenBlock ex)
    {a b : Nat} (ha : a < br) (hb : b < bc) :
    (blk a b).nCols = evenW (Mat.hier br bc blk).nCols bc b := by
  have := (h.even a ha b hb).2.2
  rw [evenW_eq hb, nCols_hier]
  simp only [psum] at *
  omega

theorem EvenBlock.heights {ex : Prop} {br bc : Nat} {blk : Nat → Nat → Mat R} (h : (Mat.hier br bc blk).EvenBlock ex)
    {a b : Nat} (ha : a < br) (hb : b < bc) :
    (blk a b).nRows = evenW (Mat.hier br bc blk).nRows br a := by
  have := (h.even a ha b hb).2.1
  rw [evenW_eq ha, nRows_hier]
  simp only [psum] at *
  omega

/-! ### the split block column -/

theorem psum_evenW_cols {M : Mat R} {ex : Prop} {br bc : Nat} {blk : Nat → Nat → Mat R}
    (h : (Mat.hier br bc blk).EvenBlock ex) : psum (evenW (Mat.hier br bc blk).nCols bc) bc = (Mat.hier br bc blk).nCols := by
  conv_rhs => rw [nCols_hier]
  exact psum_congr (fun b hb => (h.widths h.wf.1 hb).symm)

/-- Block `(r, b)` of the split block column. -/
theorem split_blocks {ex : Prop} {p w : Nat} {A : Nat → Mat R} {s : SplitCol R}
    (hA : ∀ i < p, (A i).EvenBlock ex ∧ (A i).nCols = w) (h : splitBlockCol p A = .ok s) :
    ∀ i < p, ∀ a < rowsOf (A i), ∀ b < s.cols,
      (s.blk (psum (fun i => rowsOf (A i)) i + a) b).EvenBlock ex ∧
      (s.blk (psum (fun i => rowsOf (A i)) i + a) b).nCols = evenW w s.cols b ∧
      (s.blk (psum (fun i => rowsOf (A i)) i + a) b).nRows =
        (s.blk (psum (fun i => rowsOf (A i)) i + a) 0).nRows := by
  obtain ⟨s1, s2, s3, s4⟩ := splitBlockCol_spec (fun i hi => (hA i hi).1.wf) h
  intro i hi a ha b hb
  obtain ⟨wd, P⟩ := s4 i hi
  obtain ⟨hr, hw⟩ := hA i hi
  generalize psum (fun i => rowsOf (A i)) i = r at *
  generalize A i = M at *
  cases M with
  | empty => exact P.elim
  | dense d =>
    obtain rfl : a = 0 := by simp only [rowsOf] at ha; omega
    have e := P.2 b hb
    have e0 := P.2 0 s3
    simp only at e e0
    rw [e, e0]
    exact ⟨EvenBlock.dense _, by rw [← hw]; rfl, rfl⟩
  | lowRank l =>
    obtain rfl : a = 0 := by simp only [rowsOf] at ha; omega
    obtain ⟨-, sv, p1, p2, p3⟩ := P
    have e := p3 b hb
    have e0 := p3 0 s3
    simp only at e e0
    rw [e, e0]
    refine ⟨EvenBlock.dense _, ?_, rfl⟩
    rw [← hw]
    show evenW sv.cols s.cols b = evenW l.dim1 s.cols b
    rw [(lr_entry hr.wf p1).2.1]
  | hier br bc blk =>
    have wd : bc = s.cols := wd
    subst wd
    have e := P a ha b hb
    have e0 := P a ha 0 s3
    simp only at e e0
    rw [e, e0]
    refine ⟨hr.block ha hb, by rw [← hw]; exact hr.widths ha hb, (hr.wf.2.2 a ha b hb).2.1⟩

theorem split_grid {ex : Prop} {p w : Nat} {A : Nat → Mat R} {s : SplitCol R} (hp : 0 < p)
    (hA : ∀ i < p, (A i).EvenBlock ex ∧ (A i).nCols = w) (h : splitBlockCol p A = .ok s) :
    (Mat.hier s.rows s.cols s.blk).WF ∧
      ∀ r < s.rows, ∀ b < s.cols, (s.blk r b).EvenBlock ex ∧ (s.blk r b).nCols = evenW w s.cols b := by
  obtain ⟨s1, s2, s3, s4⟩ := splitBlockCol_spec (fun i hi => (hA i hi).1.wf) h
  have key : ∀ r < s.rows, ∀ b < s.cols, (s.blk r b).EvenBlock ex ∧ (s.blk r b).nCols = evenW w s.cols b ∧
      (s.blk r b).nRows = (s.blk r 0).nRows := by
    intro r hr b hb
    rw [s1] at hr
    obtain ⟨i, hi, a, ha, rfl⟩ := exists_block _ _ r hr
    exact split_blocks hA h i hi a ha b hb
  have hrows : 0 < s.rows := by
    rw [s1]
    have h1 := psum_le (fun i => rowsOf (A i)) hp
    have h2 : 0 < rowsOf (A 0) := by
      have := (hA 0 hp).1.wf
      generalize A 0 = M at this
      cases M with
      | hier => exact this.1
      | _ => simp [rowsOf]
    omega
  refine ⟨⟨hrows, s3, fun r hr b hb => ⟨(key r hr b hb).1.wf, (key r hr b hb).2.2, ?_⟩⟩, fun r hr b hb =>
    ⟨(key r hr b hb).1, (key r hr b hb).2.1⟩⟩
  rw [(key r hr b hb).2.1, (key 0 hrows b hb).2.1]

/-! ### orthogonalizing a block column, dense `R` -/

theorem mlo_spec {M : Mat R} (hM : M.WF) {b : Dense R × Dense R} (h : makeLeftOrthogonal M = .ok b) :
    b.1.rows = M.nRows ∧ b.1.cols = b.2.rows ∧ b.2.cols = M.nCols ∧
      ∀ x < M.nRows, ∀ y, M.entry x y = ∑ t ∈ range b.2.rows, b.1.val x t * b.2.val t y := by
  cases M with
  | dense d =>
    cases Except.ok.inj h
    refine ⟨rfl, rfl, rfl, fun x hx y => ?_⟩
    show d.val x y = _
    simp only [Dense.ident]
    rw [Finset.sum_eq_single x]
    · simp
    · intro a _ ha
      simp [Ne.symm ha]
    · intro h
      exact absurd (Finset.mem_range.2 hx) h
  | lowRank l =>
    simp only [makeLeftOrthogonal, except_bind_eq_ok] at h
    obtain ⟨sv, h1, h⟩ := h
    cases Except.ok.inj h
    obtain ⟨e1, e2, e3⟩ := lr_entry hM h1
    refine ⟨hM.urows, hM.ucols.trans e1.symm, e2, fun x _ y => ?_⟩
    rw [show (Mat.lowRank l).entry x y = l.entry x y from rfl, e3, e1]
  | hier => cases h
  | empty => cases h

variable [DecidableEq R] {L : Lapack R} {o : LrOps R}

theorem orthDense_form (hf : o.Fits False) {ex : Prop} (hex : ex → o.Exact False) {fuel p w : Nat} (hp : 0 < p)
    {A Q : Nat → Mat R} (hA : ∀ i < p, (A i).WF ∧ (A i).nCols = w)
    (hQ : ∀ i < p, Good ex (Q i) ∧ (Q i).nRows = (A i).nRows ∧ (Q i).nCols = w) {x}
    (h : orthogonalizeDense L o fuel p A Q = .ok x) :
    ∃ (B : Nat → Dense R × Dense R) (D : Dense R), (∀ i < p, makeLeftOrthogonal (A i) = .ok (B i)) ∧
      D.rows = psum (fun i => (B i).2.rows) p ∧ D.cols = w ∧ w ≤ D.rows ∧
      (∀ i < p, ∀ r < (B i).2.rows, ∀ y < w, D.val (psum (fun i => (B i).2.rows) i + r) y = (B i).2.val r y) ∧
      x.2 = .dense ⟨w, w, (L.qr D w).2⟩ ∧
      ∀ i < p, Good ex (x.1 i) ∧ (Q i).SameShape (x.1 i) ∧ ∀ r < (A i).nRows, ∀ y < w,
        (x.1 i).entry r y =
          ∑ t ∈ range (B i).2.rows, (B i).1.val r t * (L.qr D w).1 (psum (fun i => (B i).2.rows) i + t) y := by
  simp only [orthogonalizeDense, except_bind_eq_ok] at h
  obtain ⟨B, h1, D, h2, h⟩ := h
  have hB := collect_ok h1
  have hBs := fun i hi => mlo_spec (hA i hi).1 (hB i hi)
  have hBc : ∀ i < p, (B i).2.cols = w := fun i hi => (hBs i hi).2.2.1.trans (hA i hi).2
  have hH : (Mat.hier p 1 (fun i _ => Mat.dense (B i).2)).WF := by
    refine ⟨hp, by omega, fun i hi j hj => ⟨trivial, rfl, ?_⟩⟩
    show (B i).2.cols = (B 0).2.cols
    rw [hBc i hi, hBc 0 hp]
  obtain ⟨D', e, d1, d2, d3⟩ := toDense_ok _ hH
  rw [e] at h2
  cases Except.ok.inj h2
  rw [nRows_hier] at d1 d3
  rw [nCols_hier] at d2 d3
  have hw0 : psum (fun b => (Mat.dense (B 0).2).nCols) 1 = w := by
    simp only [psum, Finset.sum_range_one]
    exact hBc 0 hp
  have d1 : D.rows = psum (fun i => (B i).2.rows) p := d1
  have d2 : D.cols = w := d2.trans hw0
  by_cases hc : D.cols ≤ D.rows
  · rw [if_pos hc] at h
    simp only [except_bind_eq_ok] at h
    obtain ⟨y, hy, new, hn, h⟩ := h
    obtain ⟨-, -, -, rfl⟩ := Lapack.qrInto_ok hy
    rw [← Except.ok.inj h]
    refine ⟨B, D, hB, d1, d2, by omega, ?_, by rw [d2], fun i hi => ?_⟩
    · intro i hi r hr y hy
      have hh : psum (fun i => (B i).2.rows) i + r < psum (fun i => (B i).2.rows) p := by
        have := psum_le (fun i => (B i).2.rows) hi
        omega
      rw [d3 _ hh y (by rw [hw0]; exact hy)]
      have := entry_block (br := p) (bc := 1) (blk := fun i _ => Mat.dense (B i).2) (a := i) (b := 0) (r := r)
        (s := y) hi (by omega) hr (by show y < (B 0).2.cols; rw [hBc 0 hp]; exact hy)
      simp only [psum, Finset.range_zero, Finset.sum_empty, Nat.zero_add] at this
      exact this
    · have hn := collect_ok hn i hi
      simp only [except_bind_eq_ok, assertM_eq_ok] at hn
      obtain ⟨-, -, -, -, hn⟩ := hn
      obtain ⟨g1, g2, g3, g4, g5, g6⟩ := gemm_good hf hex (by trivial) (by trivial) (hQ i hi).1 (TransSafe_ff _ _) hn
      simp only [if_pos hi]
      refine ⟨g4, g5, fun r hr y hy => ?_⟩
      rw [g6 r (by rw [(hQ i hi).2.1]; exact hr) y (by rw [(hQ i hi).2.2]; exact hy), d2]
      simp only [one_mul, zero_mul, add_zero, nRows, opEntry, entry, Dense.sub, Bool.false_eq_true, if_false,
        Nat.zero_add]
  · rw [if_neg hc] at h
    cases h

/-- What one orthogonalization step guarantees. -/
structure OrthPost (ex : Prop) (p w : Nat) (A Q Q' : Nat → Mat R) (Rm R' : Mat R) : Prop where
  q : ∀ i < p, Good ex (Q' i) ∧ (Q i).SameShape (Q' i)
  r : Good ex R' ∧ Rm.SameShape R'
  fac : ∀ i < p, ∀ x < (A i).nRows, ∀ y < w,
    (A i).entry x y = ∑ c ∈ range (y + 1), (Q' i).entry x c * R'.entry c y
  low : ∀ c < w, ∀ y < c, R'.entry c y = 0 ∨ R'.entry c y = Rm.entry c y

theorem sum_upper {w y : Nat} (hy : y < w) {f : Nat → R} (hf : ∀ c < w, y < c → f c = 0) :
    ∑ c ∈ range (y + 1), f c = ∑ c ∈ range w, f c := by
  refine Finset.sum_subset (fun c hc => ?_) (fun c hc hn => ?_)
  · simp only [Finset.mem_range] at *
    omega
  · simp only [Finset.mem_range] at *
    exact hf c hc (by omega)

theorem orthDense_post (hL : L.Qr) (hf : o.Fits False) {ex : Prop} (hex : ex → o.Exact False) {fuel p w : Nat}
    (hp : 0 < p) {A Q : Nat → Mat R} (hA : ∀ i < p, (A i).WF ∧ (A i).nCols = w)
    (hQ : ∀ i < p, Good ex (Q i) ∧ (Q i).nRows = (A i).nRows ∧ (Q i).nCols = w) {d : Dense R}
    (hd : d.rows = w ∧ d.cols = w) {x} (h : orthogonalizeDense L o fuel p A Q = .ok x) :
    OrthPost ex p w A Q x.1 (.dense d) x.2 := by
  obtain ⟨B, D, hB, d1, d2, d3, d4, e2, hQ'⟩ := orthDense_form hf hex hp hA hQ h
  subst d2
  rw [e2]
  refine ⟨fun i hi => ⟨(hQ' i hi).1, (hQ' i hi).2.1⟩, ⟨(EvenBlock.dense _).good, hd.1, hd.2⟩, ?_,
    fun c hc y hy => Or.inl (hL.upper D d3 c hc y hy)⟩
  intro i hi x hx y hy
  rw [sum_upper hy (fun c hc hyc => by
    rw [show (Mat.dense (⟨D.cols, D.cols, (L.qr D D.cols).2⟩ : Dense R)).entry c y = 0 from
      hL.upper D d3 c hc y hyc, mul_zero])]
  obtain ⟨m1, m2, m3, m4⟩ := mlo_spec (hA i hi).1 (hB i hi)
  rw [m4 x hx y]
  calc ∑ t ∈ range (B i).2.rows, (B i).1.val x t * (B i).2.val t y
      = ∑ t ∈ range (B i).2.rows, (B i).1.val x t * ∑ c ∈ range D.cols,
          (L.qr D D.cols).1 (psum (fun i => (B i).2.rows) i + t) c * (L.qr D D.cols).2 c y := by
        refine Finset.sum_congr rfl (fun t ht => ?_)
        have ht := Finset.mem_range.1 ht
        rw [hL.factor D d3 _ (by
          have := psum_le (fun i => (B i).2.rows) hi
          omega) y hy, d4 i hi t ht y hy]
    _ = ∑ c ∈ range D.cols, (∑ t ∈ range (B i).2.rows, (B i).1.val x t *
          (L.qr D D.cols).1 (psum (fun i => (B i).2.rows) i + t) c) * (L.qr D D.cols).2 c y := by
        simp only [Finset.mul_sum, Finset.sum_mul]
        rw [Finset.sum_comm]
        simp only [mul_assoc]
    _ = _ := by
        refine Finset.sum_congr rfl (fun c hc => ?_)
        rw [(hQ' i hi).2.2 x hx c (Finset.mem_range.1 hc)]
        rfl

end Mat
end Verif
