import Verif.Lemmas.TiledTotal
import Verif.Props.Qr

/-
C33: tiled Householder QR of block low-rank matrices.
-/

set_option linter.unusedSectionVars false

namespace Verif
open Finset

variable {R : Type} [CommRing R] [DecidableEq R] {o : LrOps R} {K : QrKernels R}

/-! ### C33 -/

/-- C33.  `Q * R = A`: after `tiled_householder_blr_qr(A, T)` has left the
reflectors and `R` in `A` (now `Y`), multiplying `R` (`zero_lower(Y)`) with the
reflectors gives a matrix with the entries of the original `A`. -/
theorem C33_q_times_r (hK : QrContract K) (hf : o.Fits False) {fuel fuel' p q tr tc : Nat}
    {A Y B Rb T T' : Nat → Nat → Mat R} (hA : Mat.QrInput o p q A)
    (hT : Mat.TInput p q (fun j => (A 0 j).nCols) T)
    (hq : Mat.tiledQr K o fuel p q A tr tc T = .ok (Y, T'))
    (hz : (Mat.hier p q Y).zeroLower = .ok (.hier p q Rb))
    (hm : Mat.leftMulTiled o fuel' p q Y tr tc T' p q Rb false = .ok B) :
    (Mat.hier p q B).SameEntries (Mat.hier p q A) := by
  have P := Mat.tiledQr_post hK hf hA hT hq
  have hw := hA.wf
  simp only [Mat.WF] at hw
  obtain ⟨hp, hq0, hw⟩ := hw
  have hR : ∀ i < p, ∀ j < q, _ := fun i hi j hj =>
    Mat.zeroLower_blocks hz hi hj ((P j hj).col i hi).1 ((P j hj).col i hi).2.1
      (fun hne => by
        by_cases h : j ≤ i
        · exact Or.inl ((P j hj).tile i h hi)
        · exact Or.inr (by omega))
      (fun e => by subst e; exact (P _ hj).diag)
  have shR : ∀ i < p, ∀ j < q, (A i j).SameShape (Rb i j) := fun i hi j hj =>
    (((P j hj).col i hi).2.2).trans (hR i hi j hj).1
  have colR : ∀ j < q, Mat.ColOk (o.Exact False ∧ o.LeftOrth) p (fun i => (A i 0).nRows) (A 0 j).nCols
      (fun i => Rb i j) := by
    intro j hj i hi
    have c := hA.col hj i hi
    have d := (shR i hi j hj).dims c.1.wf
    exact ⟨c.1.of_shape (hR i hi j hj).2.1 (hR i hi j hj).2.2.1 (shR i hi j hj), d.1.trans c.2.1,
      d.2.trans c.2.2⟩
  obtain ⟨-, shB, ent, -⟩ := Mat.leftMulTiled_ok hf (fun h => h.1) (fun k hk => (P k hk).op) colR hm
  refine Mat.sameEntries_of_cols hA.wf (fun i hi j hj => ?_) (fun i hi j hj r hr s hs => ?_)
  · exact ((shR i hi j hj).trans (shB j hj i hi)).dims (hw i hi j hj).1
  · obtain ⟨-, rr, cc⟩ := hw i hi j hj
    rw [rr] at hr
    rw [cc] at hs
    have inr : ∀ trans, ∀ e ∈ Mat.torder trans p j, Mat.InRange p (fun i => (A i 0).nRows) (fun j => (A 0 j).nCols) e ∧
        Mat.TOrth (fun i => (A i 0).nRows) (fun j => (A 0 j).nCols) Y (fun i k => Mat.denseOf (T' i k)) e := by
      rintro trans ⟨k, i⟩ he
      obtain ⟨e1, e2, e3⟩ := Mat.mem_torder.1 he
      have := P k (by simp only at e1; omega)
      exact ⟨(this.op i e2 e3).toInRange, this.orth i e2 e3⟩
    have e1 : Mat.EqOn p (fun i => (A i 0).nRows) (Mat.colv (fun i => Rb i j) s)
        (Mat.thops (fun i => (A i 0).nRows) (fun j => (A 0 j).nCols) Y (fun i k => Mat.denseOf (T' i k)) true
          (Mat.torder true p j) (Mat.colv (fun i => A i j) s)) := by
      refine Mat.EqOn.trans ?_ ((P j hj).fac s hs)
      intro x hx
      obtain ⟨⟨-, h1⟩, h2⟩ := Mat.mem_rowsFrom.1 hx
      have d := (((P j hj).col x.1 h1).2.2).dims (hw x.1 h1 j hj).1
      exact (hR x.1 h1 j hj).2.2.2 x.2 (by rw [d.1, (hw x.1 h1 j hj).2.1]; exact h2) s
        (by rw [d.2, (hw x.1 h1 j hj).2.2]; exact hs)
    have e2 := Mat.thops_congr (Y := Y) (t := fun i k => Mat.denseOf (T' i k)) (trans := false)
      (ks := Mat.torder false p j) (fun e he => (inr false e he).1) e1
    have e3 := Mat.thops_cancel (trans := true) (ks := Mat.torder true p j) (inr true)
      (Mat.colv (fun i => A i j) s)
    rw [← Mat.torder_not] at e3
    exact (((ent j hj s hs).trans e2).trans e3) ⟨i, r⟩ (Mat.mem_rowsFrom.2 ⟨⟨Nat.zero_le _, hi⟩, hr⟩)

/-- C33.  `Q^T * A = R`: multiplying the original matrix with the transposed
reflectors gives the upper triangular factor. -/
theorem C33_qt_times_a (hK : QrContract K) (hf : o.Fits False) {fuel fuel' p q tr tc : Nat}
    {A Y B T T' : Nat → Nat → Mat R} (hA : Mat.QrInput o p q A)
    (hT : Mat.TInput p q (fun j => (A 0 j).nCols) T)
    (hq : Mat.tiledQr K o fuel p q A tr tc T = .ok (Y, T'))
    (hm : Mat.leftMulTiled o fuel' p q Y tr tc T' p q A true = .ok B) :
    ∀ i < p, ∀ j < q, ∀ r < (A i j).nRows, ∀ s < (A i j).nCols,
      (B i j).entry r s = if j < i ∨ (i = j ∧ s < r) then 0 else (Y i j).entry r s := by
  have P := Mat.tiledQr_post hK hf hA hT hq
  have hw := hA.wf
  simp only [Mat.WF] at hw
  obtain ⟨hp, hq0, hw⟩ := hw
  obtain ⟨-, -, ent, -⟩ := Mat.leftMulTiled_ok hf (fun h => h.1) (fun k hk => (P k hk).op)
    (fun j hj => hA.col hj) hm
  intro i hi j hj r hr s hs
  obtain ⟨-, rr, cc⟩ := hw i hi j hj
  rw [rr] at hr
  rw [cc] at hs
  exact ((ent j hj s hs).trans ((P j hj).fac s hs).symm) ⟨i, r⟩
    (Mat.mem_rowsFrom.2 ⟨⟨Nat.zero_le _, hi⟩, hr⟩)

/-- C33.  Multiplying any matrix with the reflectors and then with the transposed
ones (`trans = false`), or the other way round (`trans = true`), changes nothing. -/
theorem C33_undo (hK : QrContract K) (hf : o.Fits False) {fuel fuel' fuel'' p q tr tc n : Nat}
    {A Y C D E T T' : Nat → Nat → Mat R} {trans : Bool} (hA : Mat.QrInput o p q A)
    (hT : Mat.TInput p q (fun j => (A 0 j).nCols) T)
    (hq : Mat.tiledQr K o fuel p q A tr tc T = .ok (Y, T'))
    (hC : (Mat.hier p n C).WF) (hs : (Mat.hier p n C).Square)
    (hx : (∀ i < p, ∀ j < n, (C i j).AllDense) ∨ o.Exact False)
    (hh : ∀ i < p, (C i 0).nRows = (A i 0).nRows)
    (h1 : Mat.leftMulTiled o fuel' p q Y tr tc T' p n C trans = .ok D)
    (h2 : Mat.leftMulTiled o fuel'' p q Y tr tc T' p n D (!trans) = .ok E) :
    (Mat.hier p n E).SameEntries (Mat.hier p n C) := by
  have P := Mat.tiledQr_post hK hf hA hT hq
  have hw := hC
  simp only [Mat.WF] at hw
  have c0 := Mat.gridCol (ex := o.Exact False) hC hs
    (fun i hi j hj => hx.imp_left (fun h => h i hi j hj)) hh
  obtain ⟨c1, s1, e1, u1⟩ := Mat.leftMulTiled_ok hf id (fun k hk => (P k hk).op) c0 h1
  obtain ⟨c2, s2, e2, u2⟩ := Mat.leftMulTiled_ok hf id (fun k hk => (P k hk).op) c1 h2
  refine Mat.sameEntries_of_cols hC (fun i hi j hj => ?_) (fun i hi j hj r hr s hs => ?_)
  · exact ((s1 j hj i hi).trans (s2 j hj i hi)).dims (hw.2.2 i hi j hj).1
  · by_cases hjq : j < q
    · obtain ⟨-, rr, cc⟩ := hw.2.2 i hi j hj
      rw [rr, hh i hi] at hr
      rw [cc] at hs
      have inr : ∀ trans, ∀ e ∈ Mat.torder trans p j, Mat.InRange p (fun i => (A i 0).nRows) (fun j => (A 0 j).nCols) e ∧
          Mat.TOrth (fun i => (A i 0).nRows) (fun j => (A 0 j).nCols) Y (fun i k => Mat.denseOf (T' i k)) e := by
        rintro trans ⟨k, i⟩ he
        obtain ⟨e1, e2, e3⟩ := Mat.mem_torder.1 he
        have := P k (by simp only at e1; omega)
        exact ⟨(this.op i e2 e3).toInRange, this.orth i e2 e3⟩
      have e3 := Mat.thops_cancel (trans := trans) (ks := Mat.torder trans p j) (inr trans)
        (Mat.colv (fun i => C i j) s)
      rw [← Mat.torder_not] at e3
      exact (((e2 j hjq s hs).trans (Mat.thops_congr (fun e he => (inr _ e he).1) (e1 j hjq s hs))).trans e3) ⟨i, r⟩
        (Mat.mem_rowsFrom.2 ⟨⟨Nat.zero_le _, hi⟩, hr⟩)
    · rw [u2 j (by omega), u1 j (by omega)]

/-- C33.  Factorization and multiplications return, on block matrices of dense and
low-rank tiles with at least as many block rows as block columns and dense square
diagonal blocks, if low-rank addition returns and the tiles of `T` have the order of
their block column. -/
theorem C33_returns (hf : o.Fits False) {Q : LowRank R → Prop} (hTo : o.Total False Q)
    (hQ : LrOps.ShapeOnly Q) {fuel p q : Nat} (hfu : 1 ≤ fuel) (hp : q ≤ p) {A T : Nat → Nat → Mat R}
    (hw : (Mat.hier p q A).WF) (hs : (Mat.hier p q A).Square)
    (ht : ∀ i < p, ∀ j < q, (A i j).IsTile ∧ (A i j).All Q)
    (hd : ∀ k < q, ∃ d : Dense R, A k k = .dense d ∧ d.rows = d.cols)
    (hT : ∀ i < p, ∀ k < q, ∃ t : Dense R, T i k = .dense t ∧ t.rows = (A 0 k).nCols ∧ t.cols = (A 0 k).nCols) :
    ∃ Y T', Mat.tiledQr K o fuel p q A p q T = .ok (Y, T') ∧
      (∃ Rb, (Mat.hier p q Y).zeroLower = .ok (.hier p q Rb) ∧
        ∃ B, Mat.leftMulTiled o fuel p q Y p q T' p q Rb false = .ok B) ∧
      ∀ (n : Nat) (C : Nat → Nat → Mat R) (trans : Bool), q ≤ n → (Mat.hier p n C).WF → (Mat.hier p n C).Square →
        (∀ i < p, ∀ j < n, (C i j).IsTile ∧ (C i j).All Q) → (∀ i < p, (C i 0).nRows = (A i 0).nRows) →
        ∃ D, Mat.leftMulTiled o fuel p q Y p q T' p n C trans = .ok D ∧
          ∃ E, Mat.leftMulTiled o fuel p q Y p q T' p n D (!trans) = .ok E := by
  have grid : ∀ {n : Nat} {C : Nat → Nat → Mat R}, (Mat.hier p n C).WF → (Mat.hier p n C).Square →
      (∀ i < p, ∀ j < n, (C i j).IsTile ∧ (C i j).All Q) → (∀ i < p, (C i 0).nRows = (A i 0).nRows) →
      Mat.GridOk Q p n (fun i => (A i 0).nRows) (fun j => (C 0 j).nCols) C := by
    intro n C w s t r i hi j hj
    simp only [Mat.WF] at w
    obtain ⟨a, b, c⟩ := w.2.2 i hi j hj
    exact ⟨a, s i hi j hj, (t i hi j hj).1, (t i hi j hj).2, b.trans (r i hi), c⟩
  have gA := grid hw hs ht (fun _ _ => rfl)
  have hsq : ∀ k < q, (A 0 k).nCols = (A k 0).nRows := by
    intro k hk
    obtain ⟨d, e, hd⟩ := hd k hk
    have g := gA k (by omega) k hk
    have := g.rows
    have := g.cols
    rw [e] at *
    simp only [Mat.nRows, Mat.nCols] at *
    omega
  obtain ⟨⟨Y, T'⟩, h1, gY, dY, tY⟩ := Mat.tiledQr_total (K := K) (T := T) hf hTo hQ hfu hp hsq gA
    (fun k hk => (hd k hk).imp (fun _ h => h.1)) (fun k hk i _ hi => hT i hi k hk)
  simp only at gY dY tY
  refine ⟨Y, T', h1, ?_, ?_⟩
  · obtain ⟨Rb, hRb, gR⟩ := Mat.zeroLower_total hQ gY dY
    obtain ⟨B, hB, -⟩ := Mat.leftMulTiled_total hf hTo hQ hfu hp (le_refl q) hsq gY dY tY gR false
    exact ⟨Rb, hRb, B, hB⟩
  · intro n C trans hn wC sC tC rC
    have gC := grid wC sC tC rC
    obtain ⟨D, hD, gD⟩ := Mat.leftMulTiled_total hf hTo hQ hfu hp hn hsq gY dY tY gC trans
    obtain ⟨E, hE, -⟩ := Mat.leftMulTiled_total hf hTo hQ hfu hp hn hsq gY dY tY gD (!trans)
    exact ⟨D, hD, E, hE⟩

/-! ### the hypotheses can be met -/

/-- The hypotheses of all C33 theorems hold for LAPACK routines that satisfy the
contract, a 3-by-2 block matrix with low-rank tiles and zero tiles of order 2 for
`T`. -/
example : ∃ (K : QrKernels ℝ) (Y T' Rb B : Nat → Nat → Mat ℝ), QrContract K ∧ (orthOps ℝ).Fits False ∧
    Mat.QrInput (orthOps ℝ) 3 2 qrExample ∧
    Mat.TInput 3 2 (fun j => (qrExample 0 j).nCols) (fun _ _ => Mat.dense (Dense.zero 2 2 : Dense ℝ)) ∧
    Mat.tiledQr K (orthOps ℝ) 1 3 2 qrExample 3 2 (fun _ _ => .dense (Dense.zero 2 2)) = .ok (Y, T') ∧
    (Mat.hier 3 2 Y).zeroLower = .ok (.hier 3 2 Rb) ∧
    Mat.leftMulTiled (orthOps ℝ) 1 3 2 Y 3 2 T' 3 2 Rb false = .ok B ∧
    ∃ D E, Mat.leftMulTiled (orthOps ℝ) 1 3 2 Y 3 2 T' 3 2 qrExample true = .ok D ∧
      Mat.leftMulTiled (orthOps ℝ) 1 3 2 Y 3 2 T' 3 2 D false = .ok E := by
  obtain ⟨K, hK⟩ := QrKernels.exists_contract
  have tl : ∀ i < 3, ∀ j < 2, (qrExample i j).IsTile ∧ (qrExample i j).All (fun _ => True) := by
    intro i _ j _
    unfold qrExample
    split <;> exact ⟨trivial, trivial⟩
  have nc : ∀ j, (qrExample 0 j).nCols = 2 := by
    intro j
    unfold qrExample
    split <;> rfl
  have tt : ∀ i < 3, ∀ k < 2, ∃ t : Dense ℝ, (fun _ _ => Mat.dense (Dense.zero 2 2) : Nat → Nat → Mat ℝ) i k = .dense t ∧
      t.rows = (qrExample 0 k).nCols ∧ t.cols = (qrExample 0 k).nCols := by
    intro i _ k _
    rw [nc]
    exact ⟨_, rfl, rfl, rfl⟩
  obtain ⟨Y, T', h1, ⟨Rb, h2, B, h3⟩, h4⟩ := C33_returns (K := K) (fuel := 1) orthOps_fits
    orthOps_total (fun _ _ _ _ _ _ _ _ _ => trivial) (le_refl 1) (show 2 ≤ 3 by omega) qrExample_input.wf
    qrExample_input.sqr tl (fun k _ => ⟨_, if_pos rfl, rfl⟩) tt
  obtain ⟨D, h5, E, h6⟩ := h4 2 qrExample true (by omega) qrExample_input.wf qrExample_input.sqr tl (fun _ _ => rfl)
  exact ⟨K, Y, T', Rb, B, hK, orthOps_fits, qrExample_input, fun k hk i _ hi => tt i hi k hk, h1, h2, h3, D, E, h5, h6⟩

end Verif
