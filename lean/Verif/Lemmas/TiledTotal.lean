import Verif.Lemmas.QrTiledFac
import Verif.Lemmas.QrTotal

/-!
Tiled Householder QR: everything returns on block matrices of tiles that fit.
-/

set_option linter.unusedSectionVars false
set_option linter.unusedVariables false

namespace Verif
open Finset

variable {R : Type} [CommRing R] [DecidableEq R] {o : LrOps R} {Q : LowRank R → Prop}

namespace Mat

theorem TileOk.dense {h w : Nat} {d : Dense R} (hr : d.rows = h) (hc : d.cols = w) :
    TileOk Q h w (.dense d) := ⟨trivial, trivial, trivial, trivial, hr, hc⟩

/-- The first product of `tpmqrt`, with `V` dense and not transposed explicitly. -/
theorem TileOk.gemm_tn (hf : o.Fits False) (hT : o.Total False Q) {fuel h m w : Nat} (hfu : 1 ≤ fuel)
    {a : Dense R} {B C : Mat R} (rA : a.rows = m) (cA : a.cols = h) (wB : B.WF)
    (tB : B.IsTile) (rB : B.nRows = m) (cB : B.nCols = w) (hC : TileOk Q h w C) (α β : R) :
    ∃ C', Mat.gemm o fuel (.dense a) B C α β true false = .ok C' ∧ TileOk Q h w C' ∧ C.SameShape C' := by
  obtain ⟨gA, dA⟩ := IsTile.regular (M := .dense a) trivial trivial 2
  obtain ⟨gB, dB⟩ := tB.regular wB 2
  obtain ⟨gC, dC⟩ := hC.tile.regular hC.wf 2
  obtain ⟨C', h1, h2⟩ := (totalUpTo hf hT (le_refl 2) 0).1 fuel (by omega) (.dense a) B C α β true false gA gB gC
    hC.sqr hC.all (by omega) (by omega) (by omega) (TransSafe_dense_left _ _) (fun h => h.elim)
    ⟨cA.trans hC.rows.symm, rA.trans rB.symm, cB.trans hC.cols.symm⟩
  obtain ⟨-, P⟩ := (gemmBoth_ok hf fuel).1 (.dense a) B C α β true false C' trivial wB hC.wf hC.sqr
    (TransSafe_dense_left _ _) (fun h => h.elim) h1
  have d := P.shape.dims hC.wf
  exact ⟨C', h1, ⟨P.wf, P.sqr, hC.tile.of_shape P.shape, h2, d.1.trans hC.rows, d.2.trans hC.cols⟩, P.shape⟩

/-- `larfb` returns. -/
theorem TileOk.larfb (hQ : LrOps.ShapeOnly Q) {h w : Nat} {v t : Dense R} (rv : v.rows = h) (cv : v.cols = h)
    (rt : t.rows = h) (ct : t.cols = h) {C : Mat R} (hC : TileOk Q h w C) (trans : Bool) :
    ∃ C', Mat.larfb trans (.dense v) (.dense t) C = .ok C' ∧ TileOk Q h w C' ∧ C.SameShape C' := by
  obtain ⟨wf, sqr, tile, all, rows, cols⟩ := hC
  cases C with
  | hier => exact tile.elim
  | empty => exact tile.elim
  | dense c =>
    have rows : c.rows = h := rows
    have cols : c.cols = w := cols
    obtain ⟨d, hd, d1, d2⟩ : ∃ d, Dense.larfb v t c trans = .ok d ∧ d.rows = c.rows ∧ d.cols = c.cols :=
      ⟨_, if_pos (by omega), rfl, rfl⟩
    refine ⟨.dense d, ?_, TileOk.dense (d1.trans rows) (d2.trans cols), ⟨d1.symm, d2.symm⟩⟩
    simp only [Mat.larfb, hd, except_bind_ok]
  | lowRank c =>
    have rows : c.dim0 = h := rows
    have hw : c.WF := wf
    have sq : c.Square := sqr
    obtain ⟨d, hd, d1, d2⟩ : ∃ d, Dense.larfb v t c.U trans = .ok d ∧ d.rows = c.U.rows ∧ d.cols = c.U.cols :=
      ⟨_, if_pos (by rw [hw.urows]; omega), rfl, rfl⟩
    have hw' : LowRank.WF { c with U := d } := ⟨d1.trans hw.urows, d2.trans hw.ucols, hw.srows, hw.vrows, hw.vcols⟩
    refine ⟨.lowRank { c with U := d }, ?_, ⟨hw', sq, trivial, ?_, rows, cols⟩, ?_⟩
    · simp only [Mat.larfb, hd, except_bind_ok]
    · exact hQ c _ hw' sq rfl rfl rfl rfl all
    · exact ⟨rfl, rfl⟩

/-- The methods of `tpmqrt` that use matrix products return. -/
theorem tpmqrtProducts_total (hf : o.Fits False) (hT : o.Total False Q) (hQ : LrOps.ShapeOnly Q)
    {fuel n m w : Nat} (hfu : 1 ≤ fuel) {V A B Vt C : Mat R} {t : Dense R} {trans tv : Bool}
    (hV : TileOk Q m n V) (rt : t.rows = n) (ct : t.cols = n) (hA : TileOk Q n w A) (hB : TileOk Q m w B)
    (h1 : ∃ C1, Mat.gemm o fuel Vt B C 1 1 tv false = .ok C1 ∧ TileOk Q n w C1) :
    ∃ x, tpmqrtProducts o fuel trans V (.dense t) A B Vt tv C = .ok x ∧
      (TileOk Q n w x.1 ∧ A.SameShape x.1) ∧ TileOk Q m w x.2 ∧ B.SameShape x.2 := by
  obtain ⟨C1, e1, t1⟩ := h1
  obtain ⟨C2, e2, t2, -⟩ := t1.trmm (o := o) hQ hfu rt ct .upper trans false
  obtain ⟨A', e3, t3⟩ := TileOk.gemm hf hT hfu (A := .dense (Dense.ident n n)) trivial trivial rfl rfl
    t2.wf t2.tile t2.rows t2.cols hA (-1) 1
  obtain ⟨B', e4, t4⟩ := TileOk.gemm hf hT hfu hV.wf hV.tile hV.rows hV.cols t2.wf t2.tile t2.rows t2.cols hB
    (-1) 1
  refine ⟨(A', B'), ?_, t3, t4⟩
  simp only [tpmqrtProducts, e1, except_bind_ok, e2]
  rw [getNRows_eq C2 t2.wf, t2.rows]
  simp only [except_bind_ok, e3, e4]

/-- `tpmqrt` returns. -/
theorem TileOk.tpmqrt (hf : o.Fits False) (hT : o.Total False Q) (hQ : LrOps.ShapeOnly Q)
    {fuel n m w : Nat} (hfu : 1 ≤ fuel) {V A B : Mat R} {t : Dense R} (trans : Bool)
    (hV : TileOk Q m n V) (rt : t.rows = n) (ct : t.cols = n) (hA : TileOk Q n w A) (hB : TileOk Q m w B) :
    ∃ x, Mat.tpmqrt o fuel trans V (.dense t) A B = .ok x ∧
      (TileOk Q n w x.1 ∧ A.SameShape x.1) ∧ TileOk Q m w x.2 ∧ B.SameShape x.2 := by
  obtain ⟨Vt, hVt, wVt, tVt, rVt, cVt⟩ := hV.transpose
  have prod : ∀ C, TileOk Q n w C → ∃ C1, Mat.gemm o fuel Vt B C 1 1 false false = .ok C1 ∧ TileOk Q n w C1 := by
    intro C hC
    obtain ⟨C1, e, t1, -⟩ := TileOk.gemm hf hT hfu wVt tVt rVt cVt hB.wf hB.tile hB.rows hB.cols hC 1 1
    exact ⟨C1, e, t1⟩
  cases V with
  | hier => exact hV.tile.elim
  | empty => exact hV.tile.elim
  | dense v =>
    have rv : v.rows = m := hV.rows
    have cv : v.cols = n := hV.cols
    cases Except.ok.inj hVt
    cases A with
    | hier => exact hA.tile.elim
    | empty => exact hA.tile.elim
    | dense a =>
      have ra : a.rows = n := hA.rows
      have ca : a.cols = w := hA.cols
      cases B with
      | hier => exact hB.tile.elim
      | empty => exact hB.tile.elim
      | dense b =>
        have rb : b.rows = m := hB.rows
        have cb : b.cols = w := hB.cols
        obtain ⟨x, hx, x1, x2, x3, x4⟩ : ∃ x, Dense.tprfb v t a b trans = .ok x ∧ x.1.rows = a.rows ∧
            x.1.cols = a.cols ∧ x.2.rows = b.rows ∧ x.2.cols = b.cols :=
          ⟨_, if_pos (by omega), rfl, rfl, rfl, rfl⟩
        refine ⟨(.dense x.1, .dense x.2), ?_, ⟨TileOk.dense (x1.trans ra) (x2.trans ca), ⟨x1.symm, x2.symm⟩⟩,
          TileOk.dense (x3.trans rb) (x4.trans cb), ⟨x3.symm, x4.symm⟩⟩
        simp only [Mat.tpmqrt, hx, except_bind_ok]
      | lowRank b => exact tpmqrtProducts_total hf hT hQ hfu hV rt ct hA hB (prod _ hA)
    | lowRank a =>
      cases B with
      | hier => exact hB.tile.elim
      | empty => exact hB.tile.elim
      | dense b =>
        obtain ⟨c, hc, c0, c1, -⟩ := LowRank_toDense_ok a hA.wf
        simp only [Mat.tpmqrt, hc, except_bind_ok]
        refine tpmqrtProducts_total hf hT hQ hfu hV rt ct hA hB ?_
        obtain ⟨C1, e, t1, -⟩ := TileOk.gemm_tn hf hT hfu rv cv hB.wf hB.tile hB.rows hB.cols
          (TileOk.dense (Q := Q) (c0.trans hA.rows) (c1.trans hA.cols)) 1 1
        exact ⟨C1, e, t1⟩
      | lowRank b => exact tpmqrtProducts_total hf hT hQ hfu hV rt ct hA hB (prod _ hA)
  | lowRank v =>
    cases Except.ok.inj hVt
    cases A with
    | hier => exact hA.tile.elim
    | empty => exact hA.tile.elim
    | dense a =>
      cases B with
      | hier => exact hB.tile.elim
      | empty => exact hB.tile.elim
      | dense b => exact tpmqrtProducts_total hf hT hQ hfu hV rt ct hA hB (prod _ hA)
      | lowRank b => exact tpmqrtProducts_total hf hT hQ hfu hV rt ct hA hB (prod _ hA)
    | lowRank a =>
      cases B with
      | hier => exact hB.tile.elim
      | empty => exact hB.tile.elim
      | dense b => exact tpmqrtProducts_total hf hT hQ hfu hV rt ct hA hB (prod _ hA)
      | lowRank b => exact tpmqrtProducts_total hf hT hQ hfu hV rt ct hA hB (prod _ hA)

/-- `geqrt` returns. -/
theorem geqrt_total {K : QrKernels R} {n : Nat} {a t : Dense R} (ra : a.rows = n) (ca : a.cols = n)
    (rt : t.rows = n) (ct : t.cols = n) :
    ∃ y s : Dense R, Mat.geqrt K (.dense a) (.dense t) = .ok (.dense y, .dense s) ∧ y.rows = n ∧ y.cols = n ∧
      s.rows = n ∧ s.cols = n := by
  refine ⟨⟨a.rows, a.cols, (K.geqrt3 a).1⟩, ⟨a.cols, a.cols, (K.geqrt3 a).2⟩, ?_, ra, ca, ca, ca⟩
  simp only [Mat.geqrt, Dense.geqrt]
  rw [decide_eq_true (show t.rows = a.cols by omega), decide_eq_true (show t.cols = a.cols by omega)]
  simp only [assertM, if_true, except_bind_ok]
  rw [if_pos (by omega)]
  rfl

/-- `tpqrt` returns. -/
theorem tpqrt_total {K : QrKernels R} (hQ : LrOps.ShapeOnly Q) {n m : Nat} {a t : Dense R} {B : Mat R}
    (ra : a.rows = n) (ca : a.cols = n) (rt : t.rows = n) (ct : t.cols = n) (hB : TileOk Q m n B) :
    ∃ (y s : Dense R) (B' : Mat R), Mat.tpqrt K (.dense a) B (.dense t) = .ok (.dense y, B', .dense s) ∧
      (y.rows = n ∧ y.cols = n) ∧ (s.rows = n ∧ s.cols = n) ∧ TileOk Q m n B' ∧ B.SameShape B' := by
  have dn : ∀ b : Dense R, b.cols = n → ∃ x, Dense.tpqrt K a b t = .ok x ∧ (x.1.rows = n ∧ x.1.cols = n) ∧
      (x.2.2.rows = n ∧ x.2.2.cols = n) ∧ x.2.1.rows = b.rows ∧ x.2.1.cols = b.cols := fun b cb =>
    ⟨_, if_pos (by omega), ⟨ra, ca⟩, ⟨rt, ct⟩, rfl, rfl⟩
  cases B with
  | hier => exact hB.tile.elim
  | empty => exact hB.tile.elim
  | dense b =>
    have rb : b.rows = m := hB.rows
    have cb : b.cols = n := hB.cols
    obtain ⟨x, hx, x1, x2, x3, x4⟩ := dn b cb
    refine ⟨x.1, x.2.2, .dense x.2.1, ?_, x1, x2, TileOk.dense (x3.trans rb) (x4.trans cb), ⟨x3.symm, x4.symm⟩⟩
    simp only [Mat.tpqrt, hx, except_bind_ok]
  | lowRank b =>
    have hw : b.WF := hB.wf
    have sq : b.Square := hB.sqr
    have cb : b.dim1 = n := hB.cols
    obtain ⟨sv, hsv⟩ := Dense_gemmNew_total (α := (1 : R)) (A := b.S) (B := b.V) (ta := false) (tb := false)
      (by exact hw.vrows.symm)
    obtain ⟨-, v1, v2, -⟩ := Dense_gemmNew_spec hsv
    have v1 : sv.rows = b.S.rows := v1
    have v2 : sv.cols = b.V.cols := v2
    obtain ⟨x, hx, x1, x2, x3, x4⟩ := dn sv (v2.trans (hw.vcols.trans cb))
    have hw' : (b.setRight x.2.1).WF := ⟨hw.urows, hw.ucols, hw.srows,
      by show x.2.1.rows = b.S.cols; rw [x3, v1, hw.srows, sq], by
        show x.2.1.cols = b.dim1
        rw [x4, v2, hw.vcols]⟩
    refine ⟨x.1, x.2.2, .lowRank (b.setRight x.2.1), ?_, x1, x2, ⟨hw', sq, trivial, ?_, hB.rows, hB.cols⟩, ⟨rfl, rfl⟩⟩
    · simp only [Mat.tpqrt, hsv, hx, except_bind_ok]
    · exact hQ b _ hw' sq rfl rfl rfl rfl hB.all

theorem putBlk_ok {p q n : Nat} {h w : Nat → Nat} {A : Nat → Nat → Mat R} {i j : Nat} {X : Mat R}
    (hA : GridOk Q p n h w A) (dA : DiagDense q A)
    (hX : TileOk Q (h i) (w j) X) (sh : (A i j).SameShape X) :
    GridOk Q p n h w (putBlk A i j X) ∧ DiagDense q (putBlk A i j X) := by
  refine ⟨fun a ha b hb => ?_, fun k hk => ?_⟩
  · unfold putBlk
    split
    · rename_i e
      rw [e.1, e.2]
      exact hX
    · exact hA a ha b hb
  · unfold putBlk
    split
    · rename_i e
      rw [← e.1, ← e.2] at sh
      exact isDense_of_shape (dA k hk) sh
    · exact dA k hk

/-- The tiles of `T` on and below the diagonal are square of the order of the block column. -/
def TGrid (p q : Nat) (w : Nat → Nat) (T : Nat → Nat → Mat R) : Prop :=
  ∀ k < q, ∀ i, k ≤ i → i < p → ∃ t : Dense R, T i k = .dense t ∧ t.rows = w k ∧ t.cols = w k

theorem TGrid.put {p q : Nat} {w : Nat → Nat} {T : Nat → Nat → Mat R} (hT : TGrid p q w T) {i k : Nat}
    {t : Dense R} (h1 : t.rows = w k) (h2 : t.cols = w k) : TGrid p q w (putBlk T i k (.dense t)) := by
  intro k' hk' i' h3 h4
  unfold putBlk
  split
  · rename_i e
    rw [e.2]
    exact ⟨t, rfl, h1, h2⟩
  · exact hT k' hk' i' h3 h4

theorem blockAt_total {p q i j : Nat} (A : Nat → Nat → Mat R) (hi : i < p) (hj : j < q) :
    blockAt p q A i j = .ok (A i j) := by
  simp only [blockAt, hi, hj, decide_true, assertM, if_true, except_bind_ok]

theorem tiledInner_total {K : QrKernels R} (hf : o.Fits False) (hT : o.Total False Q)
    (hQ : LrOps.ShapeOnly Q) {fuel p q k i : Nat} (hfu : 1 ≤ fuel) (hk : k < q) (hki : k < i) (hi : i < p)
    {h w : Nat → Nat} (hw : ∀ k < q, w k = h k) {st : (Nat → Nat → Mat R) × (Nat → Nat → Mat R)}
    (hA : GridOk Q p q h w st.1) (dA : DiagDense q st.1) (gT : TGrid p q w st.2) :
    ∃ st', tiledInner K o fuel p q p q k i st = .ok st' ∧ GridOk Q p q h w st'.1 ∧ DiagDense q st'.1 ∧
      TGrid p q w st'.2 := by
  obtain ⟨A, T⟩ := st
  simp only at hA dA gT
  obtain ⟨d, hd⟩ := dA k hk
  obtain ⟨t, ht, t1, t2⟩ := gT k hk i (by omega) hi
  have g := hA k (by omega) k hk
  rw [hd] at g
  obtain ⟨y, s, B', e1, ⟨y1, y2⟩, ⟨s1, s2⟩, gB, sB⟩ := tpqrt_total (K := K) hQ
    (show d.rows = w k by rw [hw k hk]; exact g.rows) g.cols t1 t2 (hA i hi k hk)
  obtain ⟨A1, d1⟩ := putBlk_ok (i := k) (j := k) (X := .dense y) hA dA (TileOk.dense (by rw [y1, hw k hk]) y2)
    (by rw [hd]; exact ⟨by rw [y1, hw k hk]; exact g.rows, by rw [y2]; exact g.cols⟩)
  obtain ⟨A2, d2⟩ := putBlk_ok (i := i) (j := k) (X := B') A1 d1 gB (by
    show (if i = k ∧ k = k then _ else A i k).SameShape B'
    rw [if_neg (by omega)]
    exact sB)
  obtain ⟨A', e2, A3, d3⟩ := loop_ok (n := q - (k + 1)) (f := fun u A => do
      let y ← tpmqrt o fuel true B' (.dense s) (A k (k + 1 + u)) (A i (k + 1 + u))
      .ok (putBlk (putBlk A k (k + 1 + u) y.1) i (k + 1 + u) y.2))
    (a := putBlk (putBlk A k k (.dense y)) i k B') (I := fun _ A => GridOk Q p q h w A ∧ DiagDense q A) ⟨A2, d2⟩ (by
      intro u hu A ⟨g, dd⟩
      have gk := g k (by omega) (k + 1 + u) (by omega)
      have gi := g i hi (k + 1 + u) (by omega)
      obtain ⟨x, x1, ⟨x2, x3⟩, x4, x5⟩ := TileOk.tpmqrt hf hT hQ hfu true gB s1 s2
        (by rw [hw k hk]; exact gk) gi
      refine ⟨putBlk (putBlk A k (k + 1 + u) x.1) i (k + 1 + u) x.2, by rw [x1, except_bind_ok], ?_⟩
      obtain ⟨G1, D1⟩ := putBlk_ok (i := k) (j := k + 1 + u) (X := x.1) g dd (by rw [hw k hk] at x2; exact x2) x3
      refine putBlk_ok G1 D1 x4 ?_
      show (if i = k ∧ _ then _ else A i (k + 1 + u)).SameShape x.2
      rw [if_neg (by omega)]
      exact x5)
  refine ⟨(A', putBlk T i k (.dense s)), ?_, A3, d3, gT.put s1 s2⟩
  simp only [tiledInner, blockAt_total _ (show k < p by omega) hk, blockAt_total _ hi hk, except_bind_ok, hd, ht, e1,
    e2]

theorem tiledStep_total {K : QrKernels R} (hf : o.Fits False) (hT : o.Total False Q)
    (hQ : LrOps.ShapeOnly Q) {fuel p q k : Nat} (hfu : 1 ≤ fuel) (hk : k < q) (hp : q ≤ p)
    {h w : Nat → Nat} (hw : ∀ k < q, w k = h k) {st : (Nat → Nat → Mat R) × (Nat → Nat → Mat R)}
    (hA : GridOk Q p q h w st.1) (dA : DiagDense q st.1) (gT : TGrid p q w st.2) :
    ∃ st', tiledStep K o fuel p q p q k st = .ok st' ∧ GridOk Q p q h w st'.1 ∧ DiagDense q st'.1 ∧
      TGrid p q w st'.2 := by
  obtain ⟨A, T⟩ := st
  simp only at hA dA gT
  obtain ⟨d, hd⟩ := dA k hk
  obtain ⟨t, ht, t1, t2⟩ := gT k hk k (le_refl _) (by omega)
  have g := hA k (by omega) k hk
  rw [hd] at g
  obtain ⟨y, s, e1, y1, y2, s1, s2⟩ := geqrt_total (K := K)
    (show d.rows = w k by rw [hw k hk]; exact g.rows) g.cols t1 t2
  obtain ⟨A1, d1⟩ := putBlk_ok (i := k) (j := k) (X := .dense y) hA dA (TileOk.dense (by rw [y1, hw k hk]) y2)
    (by rw [hd]; exact ⟨by rw [y1, hw k hk]; exact g.rows, by rw [y2]; exact g.cols⟩)
  obtain ⟨A', e2, A3, d3⟩ := loop_ok (n := q - (k + 1)) (f := fun u A => do
      let z ← larfb true (.dense y) (.dense s) (A k (k + 1 + u))
      .ok (putBlk A k (k + 1 + u) z))
    (a := putBlk A k k (.dense y)) (I := fun _ A => GridOk Q p q h w A ∧ DiagDense q A) ⟨A1, d1⟩ (by
      intro u hu A ⟨g, dd⟩
      have gk := g k (by omega) (k + 1 + u) (by omega)
      obtain ⟨x, x1, x2, x3⟩ := TileOk.larfb hQ (y1.trans (hw k hk)) (y2.trans (hw k hk)) (s1.trans (hw k hk))
        (s2.trans (hw k hk)) gk true
      exact ⟨putBlk A k (k + 1 + u) x, by rw [x1, except_bind_ok], putBlk_ok g dd x2 x3⟩)
  obtain ⟨st', e3, r⟩ := loop_ok (n := p - (k + 1)) (f := fun u st => tiledInner K o fuel p q p q k (k + 1 + u) st)
    (a := (A', putBlk T k k (.dense s)))
    (I := fun _ st => GridOk Q p q h w st.1 ∧ DiagDense q st.1 ∧ TGrid p q w st.2) ⟨A3, d3, gT.put s1 s2⟩ (by
      intro u hu st ⟨g1, g2, g3⟩
      exact tiledInner_total hf hT hQ hfu hk (by omega) (by omega) hw g1 g2 g3)
  refine ⟨st', ?_, r⟩
  simp only [tiledStep, blockAt_total _ (show k < p by omega) hk, except_bind_ok, hd, ht, e1, e2, e3]

/-- The tiled factorization returns. -/
theorem tiledQr_total {K : QrKernels R} (hf : o.Fits False) (hT : o.Total False Q)
    (hQ : LrOps.ShapeOnly Q) {fuel p q : Nat} (hfu : 1 ≤ fuel) (hp : q ≤ p) {h w : Nat → Nat}
    (hw : ∀ k < q, w k = h k) {A T : Nat → Nat → Mat R} (hA : GridOk Q p q h w A) (dA : DiagDense q A)
    (gT : TGrid p q w T) :
    ∃ x, tiledQr K o fuel p q A p q T = .ok x ∧ GridOk Q p q h w x.1 ∧ DiagDense q x.1 ∧ TGrid p q w x.2 := by
  obtain ⟨x, h1, h2⟩ := loop_ok (n := q) (f := tiledStep K o fuel p q p q) (a := (A, T))
    (I := fun _ st => GridOk Q p q h w st.1 ∧ DiagDense q st.1 ∧ TGrid p q w st.2) ⟨hA, dA, gT⟩ (by
      intro k hk st ⟨g1, g2, g3⟩
      exact tiledStep_total hf hT hQ hfu hk hp hw g1 g2 g3)
  refine ⟨x, ?_, h2⟩
  unfold tiledQr
  simp only [decide_true, assertM, if_true, except_bind_ok]
  exact h1

/-- Multiplication with the reflectors returns. -/
theorem leftMulTiled_total (hf : o.Fits False) (hT : o.Total False Q) (hQ : LrOps.ShapeOnly Q)
    {fuel p q n : Nat} (hfu : 1 ≤ fuel) (hp : q ≤ p) (hn : q ≤ n) {h w w' : Nat → Nat}
    (hw : ∀ k < q, w k = h k) {Y T C : Nat → Nat → Mat R} (hY : GridOk Q p q h w Y) (dY : DiagDense q Y)
    (gT : TGrid p q w T) (hC : GridOk Q p n h w' C) (trans : Bool) :
    ∃ D, leftMulTiled o fuel p q Y p q T p n C trans = .ok D ∧ GridOk Q p n h w' D := by
  have d0 : ∀ C : Nat → Nat → Mat R, DiagDense 0 C := fun C k hk => absurd hk (by omega)
  have s1 : ∀ k < q, ∀ C, GridOk Q p n h w' C →
      ∃ D, leftMulLarfb p q Y p q T p n trans k C = .ok D ∧ GridOk Q p n h w' D := by
    intro k hk C hC
    unfold leftMulLarfb
    refine loop_ok (I := fun _ C => GridOk Q p n h w' C) hC ?_
    intro u hu C hC
    obtain ⟨d, hd⟩ := dY k hk
    obtain ⟨t, ht, t1, t2⟩ := gT k hk k (le_refl _) (by omega)
    have g := hY k (by omega) k hk
    rw [hd] at g
    obtain ⟨x, x1, x2, x3⟩ := TileOk.larfb hQ g.rows (by rw [← hw k hk]; exact g.cols) (t1.trans (hw k hk))
        (t2.trans (hw k hk)) (hC k (by omega) (k + u) (by omega)) trans
    refine ⟨putBlk C k (k + u) x, ?_, (putBlk_ok hC (d0 _) x2 x3).1⟩
    simp only [blockAt_total _ (show k < p by omega) hk,
      blockAt_total C (show k < p by omega) (show k + u < n by omega), except_bind_ok, hd, ht, x1]
  have s2 : ∀ k < q, ∀ i, k < i → i < p → ∀ C, GridOk Q p n h w' C →
      ∃ D, leftMulTpmqrt o fuel p q Y p q T p n trans k i C = .ok D ∧ GridOk Q p n h w' D := by
    intro k hk i hki hi C hC
    unfold leftMulTpmqrt
    refine loop_ok (I := fun _ C => GridOk Q p n h w' C) hC ?_
    intro u hu C hC
    obtain ⟨t, ht, t1, t2⟩ := gT k hk i (by omega) hi
    have gk := hC k (by omega) (k + u) (by omega)
    have gi := hC i hi (k + u) (by omega)
    obtain ⟨x, x1, ⟨x2, x3⟩, x4, x5⟩ := TileOk.tpmqrt hf hT hQ hfu trans (hY i hi k hk) t1 t2
      (by rw [hw k hk]; exact gk) gi
    refine ⟨putBlk (putBlk C k (k + u) x.1) i (k + u) x.2, ?_, ?_⟩
    · simp only [blockAt_total _ hi hk, blockAt_total C hi (show k + u < n by omega),
        blockAt_total C (show k < p by omega) (show k + u < n by omega), except_bind_ok, ht, x1]
    · obtain ⟨G1, D1⟩ := putBlk_ok (i := k) (j := k + u) (X := x.1) hC (d0 _) (by rw [hw k hk] at x2; exact x2) x3
      refine (putBlk_ok G1 D1 x4 ?_).1
      show (if i = k ∧ _ then _ else C i (k + u)).SameShape x.2
      rw [if_neg (by omega)]
      exact x5
  unfold leftMulTiled
  split
  · refine loop_ok (I := fun _ C => GridOk Q p n h w' C) hC (fun k hk C hC => ?_)
    obtain ⟨D, e, gD⟩ := s1 k hk C hC
    rw [e, except_bind_ok]
    exact loop_ok (I := fun _ C => GridOk Q p n h w' C) gD (fun u hu C hC => s2 k hk _ (by omega) (by omega) C hC)
  · refine loop_ok (I := fun _ C => GridOk Q p n h w' C) hC (fun u hu C hC => ?_)
    obtain ⟨D, e, gD⟩ := loop_ok (I := fun _ C => GridOk Q p n h w' C) hC
      (fun v (hv : v < p - (q - 1 - u + 1)) C hC => s2 (q - 1 - u) (by omega) (p - 1 - v) (by omega) (by omega) C hC)
    rw [e, except_bind_ok]
    exact s1 (q - 1 - u) (by omega) D gD

end Mat
end Verif
