import Verif.Lemmas.QrGrid
import Verif.Lemmas.MgsRec
import Verif.Props.Qr
import Verif.Props.TiledQr

/-
What the blocked and the tiled Householder QR have in common: the reflectors act on
the block columns by linear isometries.
-/

set_option linter.unusedSectionVars false

namespace Verif
open Finset

variable {R : Type} [CommRing R] [DecidableEq R] {o : LrOps R} {K : QrKernels R} {Q : LowRank R → Prop}

namespace Mat

/-- Without low-rank tiles, or low-rank operations are exact. -/
def Fine (o : LrOps R) (p q : Nat) (C : Nat → Nat → Mat R) : Prop :=
  (∀ i < p, ∀ j < q, (C i j).AllDense) ∨ o.Exact False

/-- `Y` holds a QR factorization of `A`; `mul` multiplies with the reflectors. -/
structure QrFacts (o : LrOps R) (Q : LowRank R → Prop) (p q : Nat) (h w : Nat → Nat) (A Y : Nat → Nat → Mat R)
    (mul : (Nat → Nat → Mat R) → Bool → Except Err (Nat → Nat → Mat R)) : Prop where
  grid : GridOk Q p q h w Y
  diag : DiagDense q Y
  total : ∀ C tr, GridOk Q p q h w C → ∃ D, mul C tr = .ok D ∧ GridOk Q p q h w D
  shape : ∀ C tr D, GridOk Q p q h w C → Fine o p q C → mul C tr = .ok D → ∀ i < p, ∀ j < q, (C i j).SameShape (D i j)
  undo : ∀ C D E, GridOk Q p q h w C → Fine o p q C → mul C false = .ok D → mul D true = .ok E →
    (Mat.hier p q E).SameEntries (Mat.hier p q C)
  map : ∃ L, ColMap p q h L ∧
    (∀ C D, GridOk Q p q h w C → Fine o p q C → mul C false = .ok D → ∀ j < q, ∀ y < w j,
      EqOn p h (colv (fun i => D i j) y) (L j (colv (fun i => C i j) y))) ∧
    ∀ j < q, ∀ y < w j, EqOn p h (L j (upv Y j y)) (colv (fun i => A i j) y)

theorem GridOk.wf {p q : Nat} {h w : Nat → Nat} {C : Nat → Nat → Mat R} (g : GridOk Q p q h w C) (hp : 0 < p)
    (hq : 0 < q) : (Mat.hier p q C).WF ∧ (Mat.hier p q C).Square := by
  refine ⟨?_, fun i hi j hj => (g i hi j hj).sqr⟩
  simp only [WF]
  refine ⟨hp, hq, fun i hi j hj => ⟨(g i hi j hj).wf, ?_, ?_⟩⟩
  · rw [(g i hi j hj).rows, (g i hi 0 hq).rows]
  · rw [(g i hi j hj).cols, (g 0 hp j hj).cols]

theorem GridOk.col {p q : Nat} {h w : Nat → Nat} {C : Nat → Nat → Mat R} (g : GridOk Q p q h w C)
    (hx : Fine o p q C) : ∀ j < q, ColOk (o.Exact False) p h (w j) (fun i => C i j) := by
  intro j hj i hi
  have := g i hi j hj
  exact ⟨⟨this.wf, this.sqr, hx.imp_left (fun h => h i hi j hj)⟩, this.rows, this.cols⟩

end Mat

/-- Blocked Householder QR. -/
theorem blocked_facts (hK : QrContract K) (hf : o.Fits False) (hT : o.Total False Q)
    (hQ : LrOps.ShapeOnly Q) {fuel p q : Nat} (hfu : 1 ≤ fuel) (hq : 0 < q) (hp : q ≤ p) {A T : Nat → Nat → Mat R}
    (hA : Mat.QrInput o p q A)
    (gA : Mat.GridOk Q p q (fun i => (A i 0).nRows) (fun j => (A 0 j).nCols) A) (dA : Mat.DiagDense q A)
    (hw : ∀ k < q, (A 0 k).nCols = (A k 0).nRows) :
    ∃ Y T', Mat.blockedQr K o fuel p q A q 1 T = .ok (Y, T') ∧
      Mat.QrFacts o Q p q (fun i => (A i 0).nRows) (fun j => (A 0 j).nCols) A Y
        (fun C tr => Mat.leftMulBlocked o fuel p q Y q 1 T' p q C tr) := by
  obtain ⟨⟨Y, T'⟩, h1, gY, dY, tY⟩ := Mat.blockedQr_total (T := T) hK hf hT hQ hfu hp gA dA hw
  simp only at gY dY tY
  obtain ⟨t, P⟩ := Mat.blockedQr_post hK hf hA h1
  have hY : ∀ k < q, ∀ i, k ≤ i → i < p → (Y i k).WF := fun k hk i _ hi => (gY i hi k hk).wf
  have dgn : ∀ k < q, ∃ y : Dense R, Y k k = .dense y ∧ y.rows = (A k 0).nRows ∧ y.cols = (A k 0).nRows := by
    intro k hk
    obtain ⟨y, hy⟩ := dY k hk
    have g := gY k (by omega) k hk
    rw [hy] at g
    exact ⟨y, hy, g.rows, g.cols.trans (hw k hk)⟩
  have ro := fun k hk => ((P k hk).2.fac (dgn k hk)).1
  refine ⟨Y, T', h1, gY, dY, fun C tr g => Mat.leftMulBlocked_total hf hT hQ hfu hp le_rfl gY dY hw tY g tr,
    fun C tr D g x hD => ?_, fun C D E g x hD hE => ?_, _, Mat.blocked_colMap (t := t) ro, fun C D g x hD => ?_,
    fun j hj y hy => ?_⟩
  · obtain ⟨-, -, s, -⟩ := Mat.leftMulBlocked_ok hf id hY (fun k hk => (P k hk).1) (g.col x) hD
    exact fun i hi j hj => s j hj i hi
  · obtain ⟨w1, w2⟩ := g.wf (by omega) hq
    exact C32_undo hK hf (trans := false) hA h1 w1 w2 x (fun i hi => (g i hi 0 hq).rows) hD hE
  · obtain ⟨-, -, -, -, e, -⟩ := Mat.leftMulBlocked_ok hf id hY (fun k hk => (P k hk).1) (g.col x) hD
    exact e
  · have e2 := Mat.hops_congr (Y := Y) (t := t) (trans := false) (ks := Mat.order false j)
      (((P j hj).2.fac (dgn j hj)).2 y hy)
    have e3 := Mat.hops_cancel (p := p) (h := fun i => (A i 0).nRows) (Y := Y) (t := t) (trans := true)
      (ks := Mat.order true j) (fun k hk => by
        have hk := Mat.mem_order.1 hk
        exact ro k (by omega)) (Mat.colv (fun i => A i j) y)
    rw [← Mat.order_not] at e3
    exact e2.trans e3

/-- Tiled Householder QR. -/
theorem tiled_facts (hK : QrContract K) (hf : o.Fits False) (hT : o.Total False Q)
    (hQ : LrOps.ShapeOnly Q) {fuel p q : Nat} (hfu : 1 ≤ fuel) (hq : 0 < q) (hp : q ≤ p) {A T : Nat → Nat → Mat R}
    (hA : Mat.QrInput o p q A)
    (gA : Mat.GridOk Q p q (fun i => (A i 0).nRows) (fun j => (A 0 j).nCols) A) (dA : Mat.DiagDense q A)
    (hw : ∀ k < q, (A 0 k).nCols = (A k 0).nRows) (gT : Mat.TGrid p q (fun j => (A 0 j).nCols) T) :
    ∃ Y T', Mat.tiledQr K o fuel p q A p q T = .ok (Y, T') ∧
      Mat.QrFacts o Q p q (fun i => (A i 0).nRows) (fun j => (A 0 j).nCols) A Y
        (fun C tr => Mat.leftMulTiled o fuel p q Y p q T' p q C tr) := by
  obtain ⟨⟨Y, T'⟩, h1, gY, dY, tY⟩ := Mat.tiledQr_total (K := K) hf hT hQ hfu hp hw gA dA gT
  simp only at gY dY tY
  have iT : Mat.TInput p q (fun j => (A 0 j).nCols) T := fun k hk i h1 h2 => gT k hk i (by omega) h2
  have P := Mat.tiledQr_post hK hf hA iT h1
  have inr : ∀ k < q, ∀ i, k ≤ i → i < p →
      Mat.InRange p (fun i => (A i 0).nRows) (fun j => (A 0 j).nCols) (k, i) ∧
      Mat.TOrth (fun i => (A i 0).nRows) (fun j => (A 0 j).nCols) Y (fun i k => Mat.denseOf (T' i k)) (k, i) :=
    fun k hk i h1 h2 => ⟨((P k hk).op i h1 h2).toInRange, (P k hk).orth i h1 h2⟩
  have inr' : ∀ j < q, ∀ trans, ∀ e ∈ Mat.torder trans p j,
      Mat.InRange p (fun i => (A i 0).nRows) (fun j => (A 0 j).nCols) e ∧
      Mat.TOrth (fun i => (A i 0).nRows) (fun j => (A 0 j).nCols) Y (fun i k => Mat.denseOf (T' i k)) e := by
    rintro j hj trans ⟨k, i⟩ he
    obtain ⟨e1, e2, e3⟩ := Mat.mem_torder.1 he
    exact inr k (by simp only at e1; omega) i e2 e3
  refine ⟨Y, T', h1, gY, dY, fun C tr g => Mat.leftMulTiled_total hf hT hQ hfu hp le_rfl hw gY dY tY g tr,
    fun C tr D g x hD => ?_, fun C D E g x hD hE => ?_, _, Mat.tiled_colMap inr, fun C D g x hD => ?_,
    fun j hj y hy => ?_⟩
  · obtain ⟨-, s, -⟩ := Mat.leftMulTiled_ok hf id (fun k hk => (P k hk).op) (g.col x) hD
    exact fun i hi j hj => s j hj i hi
  · obtain ⟨w1, w2⟩ := g.wf (by omega) hq
    exact C33_undo hK hf (trans := false) hA iT h1 w1 w2 x (fun i hi => (g i hi 0 hq).rows) hD hE
  · obtain ⟨-, -, e, -⟩ := Mat.leftMulTiled_ok hf id (fun k hk => (P k hk).op) (g.col x) hD
    exact e
  · have e2 := Mat.thops_congr (Y := Y) (t := fun i k => Mat.denseOf (T' i k)) (trans := false)
      (ks := Mat.torder false p j) (fun e he => (inr' j hj false e he).1) ((P j hj).fac y hy)
    have e3 := Mat.thops_cancel (trans := true) (ks := Mat.torder true p j) (inr' j hj true)
      (Mat.colv (fun i => A i j) y)
    rw [← Mat.torder_not] at e3
    exact e2.trans e3

namespace Mat

/-! ### the explicit factor -/

/-- The entries of the identity. -/
def IdentTiles (p q : Nat) (h w : Nat → Nat) (C : Nat → Nat → Mat R) : Prop :=
  ∀ i < p, ∀ j < q, ∀ r < h i, ∀ s < w j, (C i j).entry r s = if i = j ∧ r = s then 1 else 0

/-- Sums over the rows of a block matrix. -/
theorem sum_rows0 (p : Nat) (h : Nat → Nat) (f : Ix → R) :
    ∑ x ∈ rowsFrom 0 p h, f x = ∑ i ∈ range p, ∑ r ∈ range (h i), f ⟨i, r⟩ := by
  rw [rowsFrom, Finset.sum_sigma, Nat.Ico_zero_eq_range]

/-- Multiplying the identity with the reflectors gives a matrix with orthonormal
columns; that matrix times the triangular factor is `A`; multiplying back gives the
identity. -/
theorem QrFacts.explicit {p q : Nat} {h w : Nat → Nat} {A Y C : Nat → Nat → Mat R}
    {mul : (Nat → Nat → Mat R) → Bool → Except Err (Nat → Nat → Mat R)} (F : QrFacts o Q p q h w A Y mul)
    (hf : o.Fits False) (hT : o.Total False Q) (hQ : LrOps.ShapeOnly Q) (hq : 0 < q) (hqp : q ≤ p)
    (hw : ∀ k < q, w k = h k) (gA : GridOk Q p q h w A)
    (gC : GridOk Q p q h w C) (xC : Fine o p q C) (iC : IdentTiles p q h w C) {fuel : Nat} (hfu : 2 ≤ fuel) :
    ∃ D B E, mul C false = .ok D ∧ GridOk Q p q h w D ∧
      OrthoCols (Mat.hier p q D).nRows (Mat.hier p q D).nCols (Mat.hier p q D).entry ∧
      trmm o fuel (.hier q q (fun i j => if i ≤ j then Y i j else .empty 0 0)) (.hier p q D) .right .upper false
        false 1 = .ok (.hier p q B) ∧
      GridOk Q p q h w B ∧ (Mat.hier p q B).SameEntries (Mat.hier p q A) ∧
      mul D true = .ok E ∧ GridOk Q p q h w E ∧ (Mat.hier p q E).SameEntries (Mat.hier p q C) := by
  obtain ⟨D, hD, gD⟩ := F.total C false gC
  obtain ⟨E, hE, gE⟩ := F.total D true gD
  obtain ⟨L, cm, mc, fa⟩ := F.map
  have sh := F.shape C false D gC xC hD
  have xD : ∀ i < p, ∀ j < q, (D i j).AllDense ∨ o.Exact False := by
    intro i hi j hj
    refine xC.imp_left (fun x => ?_)
    have dm := (sh i hi j hj).dims (gC i hi j hj).wf
    intro r hr s hs
    rw [dm.1] at hr
    rw [dm.2] at hs
    exact ((sh i hi j hj).denseAt (gC i hi j hj).wf hr hs).2 (x i hi j hj r hr s hs)
  -- the columns of the explicit factor
  have cols : ∀ z ∈ rowsFrom 0 q h, EqOn p h (colv (fun i => D i z.1) z.2) (L z.1 (unitv z.1 z.2)) := by
    intro z hz
    obtain ⟨⟨-, z1⟩, z2⟩ := mem_rowsFrom.1 hz
    have z2' : z.2 < w z.1 := by rw [hw _ z1]; exact z2
    refine (mc C D gC xC hD z.1 z1 z.2 z2').trans (cm.congr z.1 z1 _ _ (fun x hx => ?_))
    obtain ⟨⟨-, x1⟩, x2⟩ := mem_rowsFrom.1 hx
    exact iC x.1 x1 z.1 z1 x.2 x2 z.2 z2'
  obtain ⟨B, hB, gB, -, eB⟩ := trmm_grid (Y := fun i j => if i ≤ j then Y i j else .empty 0 0) hf hT hQ
    (ex := o.Exact False) id hfu
    (fun k j hkj hj => by
      have g := F.grid k (by omega) j hj
      simp only [if_pos hkj]
      exact ⟨g.wf, g.tile, g.rows.trans (hw k (by omega)).symm, g.cols⟩)
    (fun k hk => by simp only [le_refl, if_true]; exact F.diag k hk) gD
  have dR : ∀ i < p, (D i 0).nRows = h i := fun i hi => (gD i hi 0 hq).rows
  have dC : ∀ j < q, (D 0 j).nCols = w j := fun j hj => (gD 0 (by omega) j hj).cols
  refine ⟨D, B, E, hD, gD, ?_, hB, gB, ?_, hE, gE, F.undo C D E gC xC hD hE⟩
  · intro a ha b hb
    rw [nCols_hier, psum_congr dC] at ha hb
    obtain ⟨a1, a2, a3⟩ := locate_spec w q a ha
    obtain ⟨b1, b2, b3⟩ := locate_spec w q b hb
    set a' := locate w q a with ea
    set b' := locate w q b with eb
    rw [nRows_hier, psum_congr dR, sum_blocks]
    have key := cm.orthonormal hqp (a := ⟨a'.1, a'.2⟩) (b := ⟨b'.1, b'.2⟩)
      (mem_rowsFrom.2 ⟨⟨Nat.zero_le _, a1⟩, by rw [← hw _ a1]; exact a2⟩)
      (mem_rowsFrom.2 ⟨⟨Nat.zero_le _, b1⟩, by rw [← hw _ b1]; exact b2⟩)
      (cols ⟨a'.1, a'.2⟩ (mem_rowsFrom.2 ⟨⟨Nat.zero_le _, a1⟩, by rw [← hw _ a1]; exact a2⟩))
      (cols ⟨b'.1, b'.2⟩ (mem_rowsFrom.2 ⟨⟨Nat.zero_le _, b1⟩, by rw [← hw _ b1]; exact b2⟩))
    rw [sum_rows0] at key
    have e : (if a = b then (1 : R) else 0) = if (⟨a'.1, a'.2⟩ : Ix) = ⟨b'.1, b'.2⟩ then 1 else 0 := by
      by_cases hab : a = b
      · subst hab
        simp [ea, eb]
      · rw [if_neg hab, if_neg]
        intro h
        injection h with h1 h2
        rw [h1, h2] at a3
        exact hab (a3.symm.trans b3)
    rw [e, ← key]
    refine Finset.sum_congr rfl fun i hi => Finset.sum_congr rfl fun r hr => ?_
    rw [← a3, ← b3, entry_at dR dC (mem_range.1 hi) a1 (mem_range.1 hr) a2,
      entry_at dR dC (mem_range.1 hi) b1 (mem_range.1 hr) b2]
    rfl
  · refine sameEntries_of_cols (gA.wf (by omega) hq).1 (fun i hi j hj => ?_) (fun i hi j hj r hr s hs => ?_)
    · rw [(gB i hi j hj).rows, (gB i hi j hj).cols, (gA i hi j hj).rows, (gA i hi j hj).cols]
      exact ⟨rfl, rfl⟩
    · rw [(gA i hi j hj).rows] at hr
      rw [(gA i hi j hj).cols] at hs
      rw [eB xD i hi j hj r hr s hs, rowsFrom_congr (fun k hk => hw k (by omega))]
      have res := cm.residual hj (v := upv Y j s) (fun x _ hx => by rw [upv, if_pos (Or.inl hx)])
        (Q := fun z x => colv (fun i => D i z.1) z.2 x) (fun z hz => by
          have := mem_rowsFrom.1 hz
          exact cols z (mem_rowsFrom.2 ⟨⟨Nat.zero_le _, by omega⟩, this.2⟩))
      have := (res.trans (fa j hj s hs)) ⟨i, r⟩ (mem_rowsFrom.2 ⟨⟨Nat.zero_le _, hi⟩, hr⟩)
      refine Eq.trans (Finset.sum_congr rfl fun z hz => ?_) this
      have hz := mem_rowsFrom.1 hz
      simp only [upv, colv]
      rw [if_pos (by omega : z.1 ≤ j)]

end Mat
end Verif
