import Verif.Lemmas.MgsTotal
import Verif.Props.MgsSplit

/-!
Block Gram-Schmidt QR returns on nested block matrices.
-/

set_option linter.unusedSectionVars false
set_option linter.unusedVariables false

namespace Verif
open Finset

variable {R : Type} [CommRing R] [DecidableEq R] {o : LrOps R} {L : Lapack R} {Q : LowRank R → Prop}

namespace Mat

/-- Regular block of given size. -/
structure RegOk (Q : LowRank R → Prop) (b d h w : Nat) (M : Mat R) : Prop where
  reg : M.Regular b
  sqr : M.Square
  all : M.All Q
  dep : M.depth ≤ d
  rows : M.nRows = h
  cols : M.nCols = w

theorem RegOk.shape {b d h w : Nat} {M N : Mat R} (hM : RegOk Q b d h w M) (s : M.SameShape N) (hw : N.WF)
    (hs : N.Square) (ha : N.All Q) : RegOk Q b d h w N := by
  have dd := s.dims hM.reg.wf
  exact ⟨s.regular hw hM.reg, hs, ha, by rw [s.depth]; exact hM.dep, dd.1.trans hM.rows, dd.2.trans hM.cols⟩

theorem RegOk.dense {b d : Nat} (D : Dense R) : RegOk Q b d D.rows D.cols (.dense D) :=
  ⟨⟨trivial, trivial, trivial⟩, trivial, trivial, Nat.zero_le _, rfl, rfl⟩

theorem RegOk.tile {b d h w : Nat} {M : Mat R} (hM : RegOk Q b d h w M) (ht : M.IsTile) : TileOk Q h w M :=
  ⟨hM.reg.wf, hM.sqr, ht, hM.all, hM.rows, hM.cols⟩

theorem RegOk.gemm (hf : o.Fits False) (hT : o.Total False Q) {b d fuel h m w : Nat} (hb : 2 ≤ b)
    (hfu : 6 * d + 1 ≤ fuel) {A B C : Mat R} (gA : A.Regular b) (dA : A.depth ≤ d) (rA : A.nRows = h)
    (cA : A.nCols = m) (gB : B.Regular b) (dB : B.depth ≤ d) (rB : B.nRows = m) (cB : B.nCols = w)
    (hC : RegOk Q b d h w C) (α β : R) :
    ∃ C', Mat.gemm o fuel A B C α β false false = .ok C' ∧ RegOk Q b d h w C' ∧ C.SameShape C' := by
  obtain ⟨C', h1, h2⟩ := (totalUpTo hf hT hb d).1 fuel hfu A B C α β false false gA gB hC.reg
    hC.sqr hC.all dA dB hC.dep (TransSafe_ff _ _) (fun h => h.elim)
    ⟨rA.trans hC.rows.symm, cA.trans rB.symm, cB.trans hC.cols.symm⟩
  obtain ⟨-, P⟩ := (gemmBoth_ok hf fuel).1 A B C α β false false C' gA.wf gB.wf hC.reg.wf hC.sqr (TransSafe_ff _ _)
    (fun h => h.elim) h1
  exact ⟨C', h1, hC.shape P.shape P.wf P.sqr h2, P.shape⟩

/-! ### transposition -/

theorem transpose_regular {b : Nat} {M T : Mat R} (hM : M.Regular b) (h : M.transpose = .ok T) :
    T.Regular b ∧ T.depth = M.depth := by
  induction M generalizing T with
  | dense d => cases Except.ok.inj h; exact ⟨⟨trivial, trivial, trivial⟩, rfl⟩
  | lowRank l =>
    have w := (transpose_spec hM.wf h).1
    cases Except.ok.inj h
    exact ⟨⟨w, trivial, trivial⟩, rfl⟩
  | empty => exact hM.sub.elim
  | hier p q A ih =>
    have w := (transpose_spec hM.wf h).1
    simp only [transpose, except_bind_eq_ok] at h
    obtain ⟨g, hg, h⟩ := h
    cases Except.ok.inj h
    have hW := hM.wf
    have key : ∀ i < p, ∀ j < q, (g i j).Regular b ∧ (g i j).depth = (A i j).depth ∧
        (g i j).nRows = (A i j).nCols ∧ (g i j).nCols = (A i j).nRows := by
      intro i hi j hj
      have e := collect2_ok hg i hi j hj
      have r : (A i j).Regular b := ⟨(hM.wf.2.2 i hi j hj).1, (hM.even i hi j hj).1, hM.sub.2.2 i hi j hj⟩
      obtain ⟨k1, k2⟩ := ih i j r e
      have k3 := transpose_spec r.wf e
      exact ⟨k1, k2, k3.2.1, k3.2.2.1⟩
    refine ⟨⟨w, fun j hj i hi => ⟨(key i hi j hj).1.even, ?_, ?_⟩, hM.sub.2.1, hM.sub.1, fun j hj i hi => (key i hi j hj).1.sub⟩, ?_⟩
    · beta_reduce
      rw [(key i hi j hj).2.2.1, (hM.even i hi j hj).2.2]
      rw [Finset.sum_congr rfl (fun u hu => (key 0 hW.1 u (mem_range.1 hu)).2.2.1)]
    · beta_reduce
      rw [(key i hi j hj).2.2.2, (hM.even i hi j hj).2.1]
      rw [Finset.sum_congr rfl (fun u hu => (key u (mem_range.1 hu) 0 hW.2.1).2.2.2)]
    · simp only [depth]
      congr 1
      rw [Finset.sup_comm]
      exact Finset.sup_congr rfl fun i hi => Finset.sup_congr rfl fun j hj => (key i (mem_range.1 hi) j (mem_range.1 hj)).2.1

theorem RegOk.transpose {b d h w : Nat} {M : Mat R} (hM : RegOk Q b d h w M) :
    ∃ T, M.transpose = .ok T ∧ T.Regular b ∧ T.depth ≤ d ∧ T.nRows = w ∧ T.nCols = h := by
  obtain ⟨T, h1, -, -, h2, h3, -⟩ := transpose_ok M hM.reg.wf hM.reg.sub.noEmpty
  obtain ⟨r, e⟩ := transpose_regular hM.reg h1
  exact ⟨T, h1, r, by rw [e]; exact hM.dep, h2.trans hM.cols, h3.trans hM.rows⟩

/-! ### projecting a block column -/

theorem projectCol_nest (hf : o.Fits False) (hT : o.Total False Q) {b d fuel p w v : Nat} (hb : 2 ≤ b)
    (hfu : 6 * d + 1 ≤ fuel) {h : Nat → Nat} {q qt a : Nat → Mat R} {r : Mat R}
    (hq : ∀ i < p, RegOk Q b d (h i) w (q i))
    (hqt : ∀ i < p, (qt i).Regular b ∧ (qt i).depth ≤ d ∧ (qt i).nRows = w ∧ (qt i).nCols = h i)
    (ha : ∀ i < p, RegOk Q b d (h i) v (a i)) (hr : RegOk Q b d w v r) :
    ∃ z, projectCol o fuel 0 p q qt r a = .ok z ∧ RegOk Q b d w v z.1 ∧ r.SameShape z.1 ∧
      ∀ i < p, RegOk Q b d (h i) v (z.2 i) ∧ (a i).SameShape (z.2 i) := by
  obtain ⟨r', e1, t1, s1⟩ := loop_ok (n := p)
    (f := fun i r => Mat.gemm o fuel (qt i) (a i) r 1 (if i = 0 then 0 else 1) false false) (a := r)
    (I := fun _ x => RegOk Q b d w v x ∧ r.SameShape x) ⟨hr, SameShape.refl _⟩ (by
      intro u hu x ⟨tx, sx⟩
      obtain ⟨b1, b2, b3, b4⟩ := hqt u hu
      have c := ha u hu
      obtain ⟨X, x1, x2, x3⟩ := RegOk.gemm hf hT hb hfu b1 b2 b3 b4 c.reg c.dep c.rows c.cols tx 1 (if u = 0 then 0 else 1)
      exact ⟨X, x1, x2, sx.trans x3⟩)
  have key : ∀ i < p, ∃ X, Mat.gemm o fuel (q i) r' (a i) (-1) 1 false false = .ok X ∧ RegOk Q b d (h i) v X ∧
      (a i).SameShape X := fun i hi =>
    RegOk.gemm hf hT hb hfu (hq i hi).reg (hq i hi).dep (hq i hi).rows (hq i hi).cols t1.reg t1.dep t1.rows t1.cols
      (ha i hi) (-1) 1
  obtain ⟨N, hN⟩ := collect_exists (n := p) (fun i hi => (key i hi).imp fun _ h => h.1)
  refine ⟨(r', fun i => if i < p then N i else a i), ?_, t1, s1, fun i hi => ?_⟩
  · unfold projectCol
    rw [e1, except_bind_ok, hN, except_bind_ok]
  · simp only [if_pos hi]
    obtain ⟨X, h1, h2⟩ := key i hi
    have := collect_ok hN i hi
    rw [h1] at this
    rw [← Except.ok.inj this]
    exact h2

/-! ### orthogonalizing, dense diagonal block -/

theorem orthDense_nest (hf : o.Fits False) (hT : o.Total False Q) {b d fuel p w : Nat} (hb : 2 ≤ b)
    (hfu : 6 * d + 1 ≤ fuel) (hp : 0 < p)
    {h : Nat → Nat} {A C : Nat → Mat R} (hA : ∀ i < p, TileOk Q (h i) w (A i))
    (hC : ∀ i < p, RegOk Q b d (h i) w (C i)) (ht : ∃ i < p, ∃ d, A i = .dense d ∧ d.cols ≤ d.rows) :
    ∃ x, orthogonalizeDense L o fuel p A C = .ok x ∧
      (∀ i < p, RegOk Q b d (h i) w (x.1 i) ∧ (C i).SameShape (x.1 i)) ∧
      ∃ d : Dense R, x.2 = .dense d ∧ d.rows = w ∧ d.cols = w := by
  obtain ⟨B, hB⟩ := collect_exists (n := p) (f := fun i => makeLeftOrthogonal (A i))
    (fun i hi => (hA i hi).mlo.imp fun _ h => h.1)
  have hB' : ∀ i < p, (B i).1.rows = h i ∧ (B i).1.cols = (B i).2.rows ∧ (B i).2.cols = w ∧
      ((∃ d, A i = .dense d) → (B i).2.rows = h i) := by
    intro i hi
    obtain ⟨x, h1, h2⟩ := (hA i hi).mlo
    have := collect_ok hB i hi
    rw [h1] at this
    rw [← Except.ok.inj this]
    exact h2
  obtain ⟨D, hD, d0, d1, -⟩ := toDense_ok (.hier p 1 (fun i _ => .dense (B i).2)) (by
    refine ⟨hp, by omega, fun i hi j hj => ⟨trivial, rfl, ?_⟩⟩
    exact (hB' i hi).2.2.1.trans (hB' 0 hp).2.2.1.symm)
  rw [nRows_hier] at d0
  rw [nCols_hier] at d1
  have d1 : D.cols = w := by
    rw [d1, psum_succ]
    show 0 + (B 0).2.cols = w
    rw [(hB' 0 hp).2.2.1]
    omega
  have d0 : D.rows = psum (fun i => (B i).2.rows) p := d0
  have tall : D.cols ≤ D.rows := by
    obtain ⟨i, hi, e, he, hw⟩ := ht
    have e1 := (hB' i hi).2.2.2 ⟨e, he⟩
    have := psum_le (fun i => (B i).2.rows) hi
    have r := (hA i hi).rows
    have c := (hA i hi).cols
    rw [he] at r c
    have r : e.rows = h i := r
    have c : e.cols = w := c
    rw [d1, d0]
    omega
  have key : ∀ i < p, ∃ X, (do
      assertM (decide ((B i).2.rows ≤ D.rows - psum (fun a => (B a).2.rows) i))
      assertM (decide ((B i).2.cols ≤ D.cols))
      Mat.gemm o fuel (.dense (B i).1)
        (.dense ((⟨D.rows, D.cols, (L.qr D D.cols).1⟩ : Dense R).sub (psum (fun a => (B a).2.rows) i) 0 (B i).2.rows (B i).2.cols))
        (C i) 1 0 false false) = .ok X ∧ RegOk Q b d (h i) w X ∧ (C i).SameShape X := by
    intro i hi
    obtain ⟨b1, b2, b3, -⟩ := hB' i hi
    have := psum_le (fun i => (B i).2.rows) hi
    obtain ⟨X, x1, x2⟩ := RegOk.gemm hf hT hb hfu (A := .dense (B i).1)
      (B := .dense ((⟨D.rows, D.cols, (L.qr D D.cols).1⟩ : Dense R).sub (psum (fun a => (B a).2.rows) i) 0 (B i).2.rows (B i).2.cols))
      ⟨trivial, trivial, trivial⟩ (Nat.zero_le _) b1 b2 ⟨trivial, trivial, trivial⟩ (Nat.zero_le _) rfl b3 (hC i hi) 1 0
    refine ⟨X, ?_, x2⟩
    rw [decide_eq_true (by omega), decide_eq_true (by omega)]
    exact x1
  obtain ⟨N, hN⟩ := collect_exists (n := p) (fun i hi => (key i hi).imp fun _ h => h.1)
  have hN' : ∀ i < p, RegOk Q b d (h i) w (N i) ∧ (C i).SameShape (N i) := by
    intro i hi
    obtain ⟨X, h1, h2⟩ := key i hi
    have := collect_ok hN i hi
    rw [h1] at this
    rw [← Except.ok.inj this]
    exact h2
  refine ⟨(fun i => if i < p then N i else C i, .dense ⟨D.cols, D.cols, (L.qr D D.cols).2⟩), ?_, fun i hi => ?_,
    _, rfl, d1, d1⟩
  · unfold orthogonalizeDense
    rw [hB, except_bind_ok, hD, except_bind_ok, if_pos tall]
    have e : L.qrInto D D.rows D.cols D.cols D.cols = .ok (⟨D.rows, D.cols, (L.qr D D.cols).1⟩, ⟨D.cols, D.cols, (L.qr D D.cols).2⟩) := by
      simp only [Lapack.qrInto, decide_true, assertM, if_true, except_bind_ok]
    rw [e, except_bind_ok]
    simp only
    rw [hN, except_bind_ok]
  · simp only [if_pos hi]
    exact hN' i hi

/-! ### structure of a block column -/

theorem ColFits.dense {r M : Mat R} (h : ColFull r M) (d : Dense R) : ColFits r (.dense d) := by
  cases r with
  | dense => trivial
  | hier => trivial
  | lowRank => cases M <;> exact h.elim
  | empty => cases M <;> exact h.elim

theorem ColFits.shape {r r' M M' : Mat R} (hr : r.SameShape r') (hM : M.SameShape M') (h : ColFits r M) :
    ColFits r' M' := by
  induction r generalizing r' M M' with
  | lowRank => cases M <;> exact h.elim
  | empty => cases M <;> exact h.elim
  | dense d =>
    cases r' with
    | dense => cases M <;> cases M' <;> first | exact hM.elim | exact h.elim | trivial
    | _ => exact hr.elim
  | hier k k' Rb ih =>
    cases r' with
    | hier l l' Rb' =>
      obtain ⟨rfl, rfl, hs⟩ := hr
      cases M with
      | hier br bc blk =>
        cases M' with
        | hier br' bc' blk' =>
          obtain ⟨rfl, rfl, hs'⟩ := hM
          obtain ⟨rfl, rfl, h⟩ := h
          exact ⟨rfl, rfl, fun t ht c hc => ih c c (hs c hc c hc) (hs' t ht c hc) (h t ht c hc)⟩
        | _ => exact hM.elim
      | _ => cases M' <;> first | exact hM.elim | exact h.elim | trivial
    | _ => exact hr.elim

theorem ColFull.shape {r r' M M' : Mat R} (hr : r.SameShape r') (hM : M.SameShape M') (h : ColFull r M) :
    ColFull r' M' := by
  induction r generalizing r' M M' with
  | lowRank => cases M <;> exact h.elim
  | empty => cases M <;> exact h.elim
  | dense d =>
    cases r' with
    | dense =>
      cases M with
      | dense m =>
        cases M' with
        | dense m' =>
          obtain ⟨e1, e2⟩ := hM
          show m'.cols ≤ m'.rows
          rw [← e1, ← e2]
          exact h
        | _ => exact hM.elim
      | _ => exact h.elim
    | _ => exact hr.elim
  | hier k k' Rb ih =>
    cases r' with
    | hier l l' Rb' =>
      obtain ⟨rfl, rfl, hs⟩ := hr
      cases M with
      | hier br bc blk =>
        cases M' with
        | hier br' bc' blk' =>
          obtain ⟨rfl, rfl, hs'⟩ := hM
          obtain ⟨rfl, rfl, h⟩ := h
          refine ⟨rfl, rfl, fun c hc => ?_⟩
          obtain ⟨t, ht, h⟩ := h c hc
          exact ⟨t, ht, ih c c (hs c hc c hc) (hs' t ht c hc) h⟩
        | _ => exact hM.elim
      | _ => exact h.elim
    | _ => exact hr.elim

theorem RegOk.block {b d h w p q : Nat} {A : Nat → Nat → Mat R} (hM : RegOk Q b d h w (.hier p q A)) {i j : Nat}
    (hi : i < p) (hj : j < q) : RegOk Q b (d - 1) (A i j).nRows (A i j).nCols (A i j) := by
  refine ⟨⟨(hM.reg.wf.2.2 i hi j hj).1, (hM.reg.even i hi j hj).1, hM.reg.sub.2.2 i hi j hj⟩, hM.sqr i hi j hj,
    hM.all i hi j hj, ?_, rfl, rfl⟩
  have := hM.dep
  simp only [depth] at this
  have h1 := Finset.le_sup (f := fun j => (A i j).depth) (mem_range.2 hj)
  have h2 := Finset.le_sup (f := fun i => (range q).sup fun j => (A i j).depth) (mem_range.2 hi)
  omega

theorem RegOk.mono {b d d' h w : Nat} {M : Mat R} (hM : RegOk Q b d h w M) (hd : d ≤ d') : RegOk Q b d' h w M :=
  ⟨hM.reg, hM.sqr, hM.all, hM.dep.trans hd, hM.rows, hM.cols⟩

theorem RegOk.evenBlock {b d h w : Nat} {M : Mat R} (hM : RegOk Q b d h w M) : M.EvenBlock True :=
  ⟨hM.reg.wf, hM.sqr, Or.inr trivial, hM.reg.even⟩

/-- Width of an evenly subdivided matrix. -/
theorem even_width {p q : Nat} {A : Nat → Nat → Mat R} (hw : (Mat.hier p q A).WF) (he : (Mat.hier p q A).Even) :
    ((Mat.hier p q A).nCols + q - 1) / q * (q - 1) ≤ (Mat.hier p q A).nCols := by
  refine (C01_split_partition_iff 0 _ q hw.2.1).2.1 (IndexRange.split_isPartition _ _ (by simp) hw.2.1 ?_)
  rw [IndexRange.splitOk_iff _ _ (by simp) hw.2.1]
  have := (he 0 hw.1 (q - 1) (by have := hw.2.1; omega)).2.2
  have h2 : (((q - 1 : Nat)) : Int) = (q : Int) - 1 := by have := hw.2.1; omega
  simp only [IndexRange.splitChild, h2, if_true] at this
  rw [nCols_hier]
  simp only [psum] at *
  omega

/-! ### splitting a block column -/

theorem split_nest {b d dr p w rr rc : Nat} (hp : 0 < p) {h : Nat → Nat} {A : Nat → Mat R} {Rb : Nat → Nat → Mat R}
    (hA : ∀ i < p, RegOk Q b d (h i) w (A i)) (hR : RegOk Q b dr w w (.hier rr rc Rb))
    (hfit : ∀ i < p, ColFits (.hier rr rc Rb) (A i)) (hfull : ∃ i < p, ColFull (.hier rr rc Rb) (A i)) :
    ∃ s, splitBlockCol p A = .ok s ∧ s.cols = rr ∧ s.cols = rc ∧ 0 < s.rows ∧
      (∀ r < s.rows, ∀ c < s.cols, RegOk Q b d (s.blk r 0).nRows (evenW w s.cols c) (s.blk r c)) ∧
      (∀ r < s.rows, ∀ c < s.cols, ColFits (Rb c c) (s.blk r c)) ∧
      ∀ c < s.cols, ∃ r < s.rows, ColFull (Rb c c) (s.blk r c) := by
  obtain ⟨i0, hi0, full⟩ := hfull
  obtain ⟨br0, blk0, e0, rfl, full⟩ : ∃ br blk, A i0 = .hier br rr blk ∧ rc = rr ∧
      ∀ c < rr, ∃ t < br, ColFull (Rb c c) (blk t c) := by
    generalize A i0 = M at full ⊢
    cases M with
    | hier br bc blk =>
      obtain ⟨rfl, rfl, f⟩ := full
      exact ⟨br, blk, rfl, rfl, f⟩
    | _ => exact full.elim
  have hwd : (w + rc - 1) / rc * (rc - 1) ≤ w := by
    have := even_width hR.reg.wf hR.reg.even
    rwa [hR.cols] at this
  have hcol : ColumnOf rc p A := by
    refine ⟨hR.reg.wf.1, fun i hi => ?_, Or.inr ⟨i0, hi0, br0, blk0, e0⟩⟩
    have h1 := hA i hi
    have h2 := hfit i hi
    generalize A i = M at h1 h2
    cases M with
    | empty => exact h2.elim
    | dense d =>
      have : d.cols = w := h1.cols
      show (d.cols + rc - 1) / rc * (rc - 1) ≤ d.cols
      rw [this]
      exact hwd
    | lowRank l =>
      have : l.dim1 = w := h1.cols
      refine ⟨h1.reg.wf, ?_⟩
      rw [this]
      exact hwd
    | hier br bc blk => exact ⟨h1.reg.wf, h2.1.symm⟩
  obtain ⟨s, hs⟩ := splitBlockCol_total hcol
  have hw : ∀ i < p, (A i).WF := fun i hi => (hA i hi).reg.wf
  obtain ⟨s1, s2, s3, s4⟩ := splitBlockCol_spec hw hs
  have sc : s.cols = rc := s2.trans hcol.size
  obtain ⟨g1, g2⟩ := split_grid (ex := True) hp (fun i hi => ⟨(hA i hi).evenBlock, (hA i hi).cols⟩) hs
  have key : ∀ r < s.rows, ∀ c < s.cols, RegOk Q b d (s.blk r c).nRows (s.blk r c).nCols (s.blk r c) ∧
      ColFits (Rb c c) (s.blk r c) := by
    intro r hr c hc
    rw [s1] at hr
    obtain ⟨i, hi, a, ha, rfl⟩ := exists_block _ _ r hr
    obtain ⟨wd, P⟩ := s4 i hi
    have h1 := hA i hi
    have h2 := hfit i hi
    obtain ⟨t0, -, f0⟩ := full c (by omega)
    generalize psum (fun i => rowsOf (A i)) i = r at *
    generalize A i = M at *
    cases M with
    | empty => exact P.elim
    | dense D =>
      obtain rfl : a = 0 := by simp only [rowsOf] at ha; omega
      have e := P.2 c hc
      simp only at e
      rw [e]
      exact ⟨RegOk.dense _, ColFits.dense f0 _⟩
    | lowRank l =>
      obtain rfl : a = 0 := by simp only [rowsOf] at ha; omega
      obtain ⟨-, sv, p1, p2, p3⟩ := P
      have e := p3 c hc
      simp only at e
      rw [e]
      exact ⟨RegOk.dense _, ColFits.dense f0 _⟩
    | hier br bc blk =>
      have wd : bc = s.cols := wd
      subst wd
      have e := P a ha c hc
      simp only at e
      rw [e]
      exact ⟨(h1.block ha hc).mono (by omega), h2.2.2 a ha c hc⟩
  refine ⟨s, hs, sc, sc, g1.1, fun r hr c hc => ?_, fun r hr c hc => (key r hr c hc).2, fun c hc => ?_⟩
  · have k := (key r hr c hc).1
    exact ⟨k.reg, k.sqr, k.all, k.dep, (g1.2.2 r hr c hc).2.1, (g2 r hr c hc).2⟩
  · obtain ⟨t, ht, f⟩ := full c (by omega)
    obtain ⟨-, P⟩ := s4 i0 hi0
    have hle := psum_le (fun i => rowsOf (A i)) hi0
    rw [e0] at P
    have hle : psum (fun i => rowsOf (A i)) i0 + br0 ≤ psum (fun i => rowsOf (A i)) p := by
      have : rowsOf (A i0) = br0 := by rw [e0]; rfl
      simp only [this] at hle
      exact hle
    refine ⟨psum (fun i => rowsOf (A i)) i0 + t, by rw [s1]; omega, ?_⟩
    have e := P t ht c (by omega)
    simp only at e
    rw [e]
    exact f

/-! ### restoring a block column -/

theorem restore_nest (hQ : MixStable Q) {b d p w : Nat} {h : Nat → Nat} {A C : Nat → Mat R} {s : SplitCol R}
    {S : Nat → Nat → Mat R} (hA : ∀ i < p, RegOk Q b d (h i) w (A i)) (hC : ∀ i < p, RegOk Q b d (h i) w (C i))
    (hs : splitBlockCol p A = .ok s) (hsh : ∀ i < p, (A i).SameShape (C i)) (hw : psum (evenW w s.cols) s.cols = w)
    (hg : ∀ r < s.rows, ∀ c < s.cols, (s.blk r c).SameShape (S r c) ∧
      RegOk Q b d (s.blk r 0).nRows (evenW w s.cols c) (S r c)) :
    ∃ C', restoreBlockCol p s.rows s.cols S s.left C = .ok C' ∧
      ∀ i < p, RegOk Q b d (h i) w (C' i) ∧ (C i).SameShape (C' i) := by
  obtain ⟨s1, s2, s3, s4⟩ := splitBlockCol_spec (fun i hi => (hA i hi).reg.wf) hs
  have hoff : ∀ i ≤ p, psum (fun i => rowsOf (C i)) i = psum (fun i => rowsOf (A i)) i := fun i hi =>
    psum_congr (fun a ha => rowsOf_shape (hsh a (by omega)))
  have key : ∀ i < p, ∃ y, concatColumns s.rows s.cols S (C i) (s.left i) (psum (fun i => rowsOf (C i)) i) = .ok y ∧
      RegOk Q b d (h i) w y.1 ∧ (C i).SameShape y.1 := by
    intro i hi
    rw [hoff i hi.le]
    have hrow : psum (fun i => rowsOf (A i)) i + rowsOf (A i) ≤ s.rows := by
      rw [s1]
      exact psum_le (fun i => rowsOf (A i)) hi
    obtain ⟨wd, P⟩ := s4 i hi
    have h1 := hA i hi
    have h2 := hC i hi
    have h3 := hsh i hi
    generalize psum (fun i => rowsOf (A i)) i = r at *
    have cr : r < s.rows → ∃ e, concatRow s.rows s.cols S r = .ok e ∧ e.rows = (s.blk r 0).nRows ∧ e.cols = w := by
      intro hr
      have hS : ∀ c < s.cols, (S r c).WF ∧ (S r c).nRows = (s.blk r 0).nRows := fun c hc =>
        ⟨(hg r hr c hc).2.reg.wf, (hg r hr c hc).2.rows⟩
      obtain ⟨e, he⟩ := concatRow_total (rows := s.rows) s3 hr hS
      obtain ⟨-, c1, c2, -⟩ := concatRow_spec s3 hS he
      refine ⟨e, he, c1, ?_⟩
      rw [c2, psum_congr (fun c hc => (hg r hr c hc).2.cols), hw]
    generalize A i = M at *
    generalize C i = N at *
    cases M with
    | empty => exact P.elim
    | dense D =>
      cases N with
      | dense a =>
        obtain ⟨e, he, c1, c2⟩ := cr (by simp only [rowsOf] at hrow; omega)
        have e0 := P.2 0 s3
        simp only [Nat.add_zero] at e0
        rw [e0] at c1
        have c1 : e.rows = D.rows := c1
        have d1 : D.rows = h i := h1.rows
        have a1 : a.rows = h i := h2.rows
        have a2 : a.cols = w := h2.cols
        refine ⟨(.dense e, r + 1), ?_, ?_, ?_⟩
        · simp only [concatColumns, he, c1, c2, d1, a1, a2, except_bind_ok, decide_true, assertM, if_true]
        · have k : RegOk Q b d e.rows e.cols (.dense e) := RegOk.dense e
          rw [c1, d1, c2] at k
          exact k
        · exact ⟨by omega, by omega⟩
      | _ => exact h3.elim
    | lowRank l =>
      cases N with
      | lowRank a =>
        obtain ⟨pq, sv, p1, p2, p3⟩ := P
        have hwi : l.WF := h1.reg.wf
        obtain ⟨l1, l2, l3⟩ := lr_entry hwi p1
        obtain ⟨e, he, c1, c2⟩ := cr (by simp only [rowsOf] at hrow; omega)
        have e0 := p3 0 s3
        simp only [Nat.add_zero] at e0
        rw [e0] at c1
        have c1 : e.rows = l.rank := c1.trans l1
        have d0 : l.dim0 = h i := h1.rows
        have d1 : l.dim1 = w := h1.cols
        have a0 : a.dim0 = h i := h2.rows
        have a1 : a.dim1 = w := h2.cols
        have q0 : (s.left i).rows = h i := by rw [pq, hwi.urows, d0]
        have q1 : (s.left i).cols = l.rank := by rw [pq, hwi.ucols]
        obtain ⟨w1, w2, w3, w4⟩ := lrOf_wf (q := s.left i) (d := e) (e := a.eps) (by omega)
        refine ⟨(.lowRank (lrOf (s.left i) e a.eps), r + 1), ?_, ?_, ?_⟩
        · simp only [concatColumns, he, c1, c2, q0, q1, a0, a1, except_bind_ok, decide_true, assertM, if_true, lrOf]
        · refine ⟨⟨w1, trivial, trivial⟩, w2, ?_, Nat.zero_le _, w3.trans q0, w4.trans c2⟩
          have := hQ l a e h1.all h2.all hwi (a0.trans d0.symm) (a1.trans d1.symm) c1 (c2.trans d1.symm)
          show Q (lrOf (s.left i) e a.eps)
          rw [lrOf, q1, pq]
          exact this
        · exact ⟨by rw [w3, q0, a0], by rw [w4, c2, a1]⟩
      | _ => exact h3.elim
    | hier br bc blk =>
      cases N with
      | hier br' bc' blk' =>
        obtain ⟨rfl, rfl, hb'⟩ := h3
        have wd : bc = s.cols := wd
        subst wd
        have hro : ∀ a < br, r + a < s.rows := fun a ha => by simp only [rowsOf] at hrow; omega
        obtain ⟨g, he⟩ := collect2_exists (m := br) (n := s.cols)
          (f := fun a c => blockAt s.rows s.cols S (r + a) c) (fun a ha c hc => ⟨_, blockAt_in S (hro a ha) hc⟩)
        have hgg : ∀ a < br, ∀ c < s.cols, g a c = S (r + a) c := by
          intro a ha c hc
          have := collect2_ok he a ha c hc
          rw [blockAt_in S (hro a ha) hc] at this
          exact (Except.ok.inj this).symm
        have hk : ∀ a < br, ∀ c < s.cols, (blk a c).SameShape (g a c) ∧ (g a c).WF ∧ (g a c).Square ∧ (g a c).All Q := by
          intro a ha c hc
          obtain ⟨k1, k2⟩ := hg _ (hro a ha) c hc
          rw [hgg a ha c hc]
          rw [show s.blk (r + a) c = blk a c from P a ha c hc] at k1
          exact ⟨k1, k2.reg.wf, k2.sqr, k2.all⟩
        have hsA : (Mat.hier br s.cols blk).SameShape (Mat.hier br s.cols g) :=
          ⟨rfl, rfl, fun a ha c hc => (hk a ha c hc).1⟩
        have hwf : (Mat.hier br s.cols g).WF :=
          hier_wf_of_shape h1.reg.wf (fun a ha c hc => ⟨(hk a ha c hc).2.1, (hk a ha c hc).1⟩)
        refine ⟨(.hier br s.cols g, r + br), ?_, ?_, ?_⟩
        · simp only [concatColumns, he, except_bind_ok, decide_true, assertM, if_true]
        · exact h1.shape hsA hwf (fun a ha c hc => (hk a ha c hc).2.2.1) (fun a ha c hc => (hk a ha c hc).2.2.2)
        · exact ⟨rfl, rfl, fun a ha c hc => (hb' a ha c hc).symm.trans (hk a ha c hc).1⟩
      | _ => exact h3.elim
  obtain ⟨x, hx, -⟩ := loop_ok (n := p) (f := fun i (st : (Nat → Mat R) × Nat) => do
      let y ← concatColumns s.rows s.cols S (st.1 i) (s.left i) st.2
      .ok (fun a => if a = i then y.1 else st.1 a, y.2)) (a := (C, 0))
      (I := fun i st => st.2 = psum (fun i => rowsOf (C i)) i ∧ ∀ i', i ≤ i' → st.1 i' = C i')
      ⟨by simp [psum], fun _ _ => rfl⟩ (by
    intro i hi st ⟨i1, i2⟩
    obtain ⟨y, hy, -⟩ := key i hi
    refine ⟨(fun a => if a = i then y.1 else st.1 a, y.2), ?_, ?_, fun i' hi' => ?_⟩
    · rw [i2 i (le_refl _), i1]
      simp only [hy, except_bind_ok]
    · show y.2 = _
      rw [concatColumns_next hy, psum_succ]
    · show (if i' = i then y.1 else st.1 i') = _
      rw [if_neg (by omega)]
      exact i2 i' (by omega))
  have hr : restoreBlockCol p s.rows s.cols S s.left C = .ok x.1 := by
    simp only [restoreBlockCol, hx, except_bind_ok]
  refine ⟨x.1, hr, fun i hi => ?_⟩
  obtain ⟨y, hy, k⟩ := key i hi
  have := (restoreBlockCol_spec hr).1 i hi
  rw [hy] at this
  have e : y.1 = x.1 i := congrArg Prod.fst (Except.ok.inj this)
  rw [← e]
  exact k

/-! ### the factorization -/

/-- Arguments on which `mgs_qr` returns. -/
structure NestIn (Q : LowRank R → Prop) (b d e p n : Nat) (h w : Nat → Nat) (A C Rb : Nat → Nat → Mat R) : Prop where
  pos : 0 < p
  npos : 0 < n
  a : ∀ i < p, ∀ j < n, RegOk Q b d (h i) (w j) (A i j)
  q : ∀ i < p, ∀ j < n, RegOk Q b d (h i) (w j) (C i j)
  r : ∀ i < n, ∀ j < n, RegOk Q b d (w i) (w j) (Rb i j)
  fits : ∀ i < p, ∀ j < n, ColFits (Rb j j) (A i j)
  full : ∀ j < n, ∃ i < p, ColFull (Rb j j) (A i j)
  same : ∀ j < n, (∃ rr rc blk, Rb j j = .hier rr rc blk) → ∀ i < p, (A i j).SameShape (C i j)
  fuel : ∀ j < n, (Rb j j).depth < e

/-- Results of `mgs_qr`. -/
structure NestOut (Q : LowRank R → Prop) (b d p n : Nat) (h w : Nat → Nat) (C Rb C' Rb' : Nat → Nat → Mat R) : Prop where
  q : ∀ i < p, ∀ j < n, RegOk Q b d (h i) (w j) (C' i j) ∧ (C i j).SameShape (C' i j)
  r : ∀ i < n, ∀ j < n, RegOk Q b d (w i) (w j) (Rb' i j) ∧ (Rb i j).SameShape (Rb' i j)

def NestTot (Q : LowRank R → Prop) (b d e : Nat) (mgs : MgsT R) : Prop :=
  ∀ p n h w A C Rb, NestIn Q b d e p n h w A C Rb →
    ∃ x, mgs p n A p n C n n Rb = .ok x ∧ NestOut Q b d p n h w C Rb x.1 x.2

theorem orthCol_nest (hf : o.Fits False) (hT : o.Total False Q) (hQ : MixStable Q) {b d e fuel p w : Nat} (hb : 2 ≤ b)
    (hfu : 6 * d + 1 ≤ fuel) (hp : 0 < p) {mgs : MgsT R} (hm : NestTot Q b d e mgs) {h : Nat → Nat} {A C : Nat → Mat R}
    {r : Mat R} (hA : ∀ i < p, RegOk Q b d (h i) w (A i)) (hC : ∀ i < p, RegOk Q b d (h i) w (C i))
    (hr : RegOk Q b d w w r) (hfit : ∀ i < p, ColFits r (A i)) (hfull : ∃ i < p, ColFull r (A i))
    (hs : (∃ rr rc blk, r = .hier rr rc blk) → ∀ i < p, (A i).SameShape (C i)) (he : r.depth ≤ e) :
    ∃ x, orthogonalizeBlockCol L o fuel mgs p A C r = .ok x ∧
      (∀ i < p, RegOk Q b d (h i) w (x.1 i) ∧ (C i).SameShape (x.1 i)) ∧ RegOk Q b d w w x.2 ∧ r.SameShape x.2 := by
  cases r with
  | empty => exact hr.reg.sub.elim
  | lowRank =>
    obtain ⟨i, hi, h1⟩ := hfull
    generalize A i = M at h1
    cases M <;> exact h1.elim
  | dense D =>
    obtain ⟨x, h1, h2, D', h3, h4, h5⟩ := orthDense_nest (L := L) (fuel := fuel) hf hT hb hfu hp (A := A) (C := C) (h := h)
      (w := w) (fun i hi => (hA i hi).tile (by
        have := hfit i hi
        generalize A i = M at this
        cases M <;> trivial)) hC (by
        obtain ⟨i, hi, h1⟩ := hfull
        refine ⟨i, hi, ?_⟩
        generalize A i = M at h1
        cases M <;> first | exact ⟨_, rfl, h1⟩ | exact h1.elim)
    refine ⟨x, h1, h2, ?_, ?_⟩
    · have k : RegOk Q b d D'.rows D'.cols (.dense D') := RegOk.dense D'
      rw [h4, h5] at k
      rw [h3]
      exact k
    · rw [h3]
      exact ⟨Eq.trans hr.rows h4.symm, Eq.trans hr.cols h5.symm⟩
  | hier rr rc Rb =>
    obtain ⟨s, s1, s2, s3, s4, s5, s6, s7⟩ := split_nest hp hA hr hfit hfull
    subst s2
    subst s3
    have rb : ∀ i < s.cols, ∀ j < s.cols, (Rb i j).nRows = evenW w s.cols i ∧ (Rb i j).nCols = evenW w s.cols j := by
      intro i hi j hj
      have e1 := hr.evenBlock.heights hi hj
      have e2 := hr.evenBlock.widths hi hj
      rw [hr.rows] at e1
      rw [hr.cols] at e2
      exact ⟨e1, e2⟩
    have hpw : psum (evenW w s.cols) s.cols = w := by
      have := psum_evenW_cols (M := A 0) hr.evenBlock
      rwa [hr.cols] at this
    have rbk : ∀ i < s.cols, ∀ j < s.cols, RegOk Q b d (evenW w s.cols i) (evenW w s.cols j) (Rb i j) := by
      intro i hi j hj
      have k := (hr.block hi hj).mono (Nat.sub_le d 1)
      rw [(rb i hi j hj).1, (rb i hi j hj).2] at k
      exact k
    obtain ⟨y, y1, y2⟩ := hm s.rows s.cols (fun r => (s.blk r 0).nRows) (evenW w s.cols) s.blk s.blk Rb
      ⟨s4, hr.reg.wf.1, s5, s5, rbk, s6, s7, fun _ _ _ _ _ => SameShape.refl _, fun j hj => by
        have := (RegOk.block (d := e) ⟨hr.reg, hr.sqr, hr.all, he, hr.rows, hr.cols⟩ hj hj).dep
        have h0 : 0 < (Mat.hier s.cols s.cols Rb).depth := by simp only [depth]; omega
        omega⟩
    obtain ⟨C', c1, c2⟩ := restore_nest hQ (S := y.1) hA hC s1 (hs ⟨_, _, _, rfl⟩) hpw (fun r hr c hc =>
      ⟨(y2.q r hr c hc).2, (y2.q r hr c hc).1⟩)
    have hsR : (Mat.hier s.cols s.cols Rb).SameShape (Mat.hier s.cols s.cols y.2) :=
      ⟨rfl, rfl, fun a ha c hc => (y2.r a ha c hc).2⟩
    refine ⟨(C', .hier s.cols s.cols y.2), ?_, c2, ?_, hsR⟩
    · simp only [orthogonalizeBlockCol, s1, y1, c1, except_bind_ok]
    · exact hr.shape hsR (hier_wf_of_shape hr.reg.wf (fun a ha c hc => ⟨(y2.r a ha c hc).1.reg.wf, (y2.r a ha c hc).2⟩))
        (fun a ha c hc => (y2.r a ha c hc).1.sqr) (fun a ha c hc => (y2.r a ha c hc).1.all)

/-- The state of the loop. -/
structure NestSt (Q : LowRank R → Prop) (b d p n : Nat) (h w : Nat → Nat) (A0 C0 R0 : Nat → Nat → Mat R)
    (st : (Nat → Nat → Mat R) × (Nat → Nat → Mat R) × (Nat → Nat → Mat R)) : Prop where
  a : ∀ i < p, ∀ j < n, RegOk Q b d (h i) (w j) (st.1 i j) ∧ (A0 i j).SameShape (st.1 i j)
  q : ∀ i < p, ∀ j < n, RegOk Q b d (h i) (w j) (st.2.1 i j) ∧ (C0 i j).SameShape (st.2.1 i j)
  r : ∀ i < n, ∀ j < n, RegOk Q b d (w i) (w j) (st.2.2 i j) ∧ (R0 i j).SameShape (st.2.2 i j)

theorem mgsStep_nest (hf : o.Fits False) (hT : o.Total False Q) (hQ : MixStable Q) {b d e fuel p n j : Nat} (hb : 2 ≤ b)
    (hfu : 6 * d + 1 ≤ fuel) {mgs : MgsT R} (hm : NestTot Q b d e mgs) (hj : j < n) {h w : Nat → Nat}
    {A0 C0 R0 : Nat → Nat → Mat R} {st} (hI : NestIn Q b d (e + 1) p n h w A0 C0 R0)
    (H : NestSt Q b d p n h w A0 C0 R0 st) :
    ∃ st', mgsStep L o fuel mgs 0 p n j st = .ok st' ∧ NestSt Q b d p n h w A0 C0 R0 st' := by
  obtain ⟨x, hx, xq, xr, xs⟩ := orthCol_nest (L := L) (fuel := fuel) hf hT hQ hb hfu hI.pos hm
    (fun i hi => (H.a i hi j hj).1) (fun i hi => (H.q i hi j hj).1) (H.r j hj j hj).1
    (fun i hi => (hI.fits i hi j hj).shape (H.r j hj j hj).2 (H.a i hi j hj).2) (by
      obtain ⟨i, hi, h1⟩ := hI.full j hj
      exact ⟨i, hi, h1.shape (H.r j hj j hj).2 (H.a i hi j hj).2⟩) (fun hh i hi => by
      have : ∃ rr rc blk, R0 j j = .hier rr rc blk := by
        obtain ⟨rr, rc, blk, e⟩ := hh
        have s := (H.r j hj j hj).2
        rw [e] at s
        generalize R0 j j = M at s
        cases M <;> first | exact s.elim | exact ⟨_, _, _, rfl⟩
      exact (H.a i hi j hj).2.symm.trans ((hI.same j hj this i hi).trans (H.q i hi j hj).2)) (by
      have := hI.fuel j hj
      rw [(H.r j hj j hj).2.depth]
      omega)
  obtain ⟨qt, hqt⟩ := collect_exists (n := p) (f := fun i => (x.1 i).transpose)
    (fun i hi => (xq i hi).1.transpose.imp fun _ h => h.1)
  have hqt' : ∀ i < p, (qt i).Regular b ∧ (qt i).depth ≤ d ∧ (qt i).nRows = w j ∧ (qt i).nCols = h i := by
    intro i hi
    obtain ⟨T, h1, h2⟩ := (xq i hi).1.transpose
    have := collect_ok hqt i hi
    rw [h1] at this
    rw [← Except.ok.inj this]
    exact h2
  obtain ⟨y, hy, ya, yr⟩ := loop_ok (n := n - (j + 1))
    (f := fun u (s : (Nat → Nat → Mat R) × (Nat → Nat → Mat R)) => do
      let z ← projectCol o fuel 0 p x.1 qt (s.2 j (j + 1 + u)) (fun i => s.1 i (j + 1 + u))
      .ok (putCol s.1 (j + 1 + u) z.2, putBlk s.2 j (j + 1 + u) z.1)) (a := (st.1, putBlk st.2.2 j j x.2))
    (I := fun _ s => (∀ i < p, ∀ k < n, RegOk Q b d (h i) (w k) (s.1 i k) ∧ (A0 i k).SameShape (s.1 i k)) ∧
      ∀ i < n, ∀ k < n, RegOk Q b d (w i) (w k) (s.2 i k) ∧ (R0 i k).SameShape (s.2 i k)) (by
      refine ⟨H.a, fun i hi k hk => ?_⟩
      simp only [putBlk]
      split
      · rename_i e
        obtain ⟨rfl, rfl⟩ := e
        exact ⟨xr, (H.r _ hi _ hk).2.trans xs⟩
      · exact H.r i hi k hk) (by
      intro u hu s ⟨sa, sr⟩
      obtain ⟨z, z1, z2, z3, z4⟩ := projectCol_nest (fuel := fuel) hf hT hb hfu (fun i hi => (xq i hi).1) hqt'
        (fun i hi => (sa i hi (j + 1 + u) (by omega)).1) (sr j hj (j + 1 + u) (by omega)).1
      refine ⟨_, by rw [z1, except_bind_ok], fun i hi k hk => ?_, fun i hi k hk => ?_⟩
      · simp only [putCol]
        split
        · rename_i e
          subst e
          exact ⟨(z4 i hi).1, (sa i hi _ hk).2.trans (z4 i hi).2⟩
        · exact sa i hi k hk
      · simp only [putBlk]
        split
        · rename_i e
          obtain ⟨rfl, rfl⟩ := e
          exact ⟨z2, (sr _ hi _ hk).2.trans z3⟩
        · exact sr i hi k hk)
  refine ⟨(y.1, putCol st.2.1 j x.1, y.2), ?_, ya, fun i hi k hk => ?_, yr⟩
  · unfold mgsStep
    rw [hx, except_bind_ok, hqt, except_bind_ok, hy, except_bind_ok]
  · simp only [putCol]
    split
    · rename_i e
      subst e
      exact ⟨(xq i hi).1, (H.q i hi _ hk).2.trans (xq i hi).2⟩
    · exact H.q i hi k hk

/-- `mgs_qr` returns. -/
theorem mgsHier_nest (hf : o.Fits False) (hT : o.Total False Q) (hQ : MixStable Q) {b d gfuel : Nat} (hb : 2 ≤ b)
    (hg : 6 * d + 1 ≤ gfuel) (e : Nat) : ∀ fuel, e ≤ fuel → NestTot Q b d e (mgsHier L o gfuel fuel) := by
  induction e with
  | zero =>
    intro fuel _ p n h w A C Rb hI
    exact absurd (hI.fuel 0 hI.npos) (by omega)
  | succ e ih =>
    intro fuel hfu p n h w A C Rb hI
    obtain ⟨f, rfl⟩ : ∃ f, fuel = f + 1 := ⟨fuel - 1, by omega⟩
    obtain ⟨x, hx, H⟩ := loop_ok (n := n) (f := fun j st => mgsStep L o gfuel (mgsHier L o gfuel f) 0 p n j st)
      (a := (A, C, Rb)) (I := fun _ st => NestSt Q b d p n h w A C Rb st)
      ⟨fun i hi j hj => ⟨hI.a i hi j hj, SameShape.refl _⟩, fun i hi j hj => ⟨hI.q i hi j hj, SameShape.refl _⟩,
        fun i hi j hj => ⟨hI.r i hi j hj, SameShape.refl _⟩⟩
      (fun j hj st H => mgsStep_nest hf hT hQ hb hg (ih f (by omega)) hj hI H)
    refine ⟨x.2, ?_, H.q, H.r⟩
    simp only [mgsHier, mgsWith, decide_true, assertM, if_true, except_bind_ok, hx]

end Mat
end Verif
