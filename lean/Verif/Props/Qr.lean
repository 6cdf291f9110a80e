import Verif.Lemmas.QrTotal
import Verif.Lemmas.QrExists
import Verif.Props.Gemm

/-
C32: blocked Householder QR of block low-rank matrices.
-/

set_option linter.unusedSectionVars false

namespace Verif
open Finset

variable {R : Type} [CommRing R] [DecidableEq R] {o : LrOps R} {K : QrKernels R}

/-! ### C32 -/

namespace Mat

theorem gridCol {ex : Prop} {p n : Nat} {C : Nat → Nat → Mat R} {h : Nat → Nat}
    (hC : (Mat.hier p n C).WF) (hs : (Mat.hier p n C).Square)
    (hx : ∀ i < p, ∀ j < n, (C i j).AllDense ∨ ex) (hh : ∀ i < p, (C i 0).nRows = h i) :
    ∀ j < n, ColOk ex p h (C 0 j).nCols (fun i => C i j) := by
  intro j hj i hi
  simp only [WF] at hC
  obtain ⟨w, r, c⟩ := hC.2.2 i hi j hj
  exact ⟨⟨w, hs i hi j hj, hx i hi j hj⟩, r.trans (hh i hi), c⟩

end Mat

/-- C32.  `Q * R = A`: after `blocked_householder_blr_qr(A, T)` has left the
reflectors and `R` in `A` (now `Y`), multiplying `R` (`zero_lower(Y)`) with the
reflectors gives a matrix with the entries of the original `A`. -/
theorem C32_q_times_r (hK : QrContract K) (hf : o.Fits False) {fuel fuel' p q tr tc : Nat}
    {A Y B Rb T T' : Nat → Nat → Mat R} (hA : Mat.QrInput o p q A)
    (hq : Mat.blockedQr K o fuel p q A tr tc T = .ok (Y, T'))
    (hz : (Mat.hier p q Y).zeroLower = .ok (.hier p q Rb))
    (hm : Mat.leftMulBlocked o fuel' p q Y tr tc T' p q Rb false = .ok B) :
    (Mat.hier p q B).SameEntries (Mat.hier p q A) := by
  obtain ⟨t, P⟩ := Mat.blockedQr_post hK hf hA hq
  have hw := hA.wf
  simp only [Mat.WF] at hw
  obtain ⟨hp, hq0, hw⟩ := hw
  have hY : ∀ k < q, ∀ i, k ≤ i → i < p → (Y i k).WF := fun k hk i _ hi => ((P k hk).2.col i hi).1
  have cols := Mat.leftMulBlocked_cols hm
  -- the diagonal blocks are dense, because the multiplication returned
  have dg : ∀ k < q, ∃ d, Y k k = .dense d := by
    intro k hk
    obtain ⟨-, -, hr⟩ := (cols k).1 hk
    have e : Mat.order false k = k :: (List.range k).reverse := by
      simp [Mat.order, List.range_succ]
    rw [e] at hr
    unfold Mat.runCols at hr
    rw [List.foldlM_cons, except_bind_eq_ok] at hr
    obtain ⟨c, hc, -⟩ := hr
    simp only [Mat.applyBlockCol, except_bind_eq_ok] at hc
    obtain ⟨-, -, -, -, C1, hC1, -⟩ := hc
    exact (Mat.trmm_trans_inv hC1).1
  have hR : ∀ i < p, ∀ j < q, _ := fun i hi j hj =>
    Mat.zeroLower_blocks hz hi hj ((P j hj).2.col i hi).1 ((P j hj).2.col i hi).2.1
      (fun hne => by
        by_cases h : j ≤ i
        · exact Or.inl ((P j hj).2.tile i h hi)
        · exact Or.inr (by omega))
      (fun e => by subst e; exact dg i hj)
  have shR : ∀ i < p, ∀ j < q, (A i j).SameShape (Rb i j) := fun i hi j hj =>
    (((P j hj).2.col i hi).2.2).trans (hR i hi j hj).1
  have colR : ∀ j < q, Mat.ColOk (o.Exact False ∧ o.LeftOrth) p (fun i => (A i 0).nRows) (A 0 j).nCols
      (fun i => Rb i j) := by
    intro j hj i hi
    have c := hA.col hj i hi
    have d := (shR i hi j hj).dims c.1.wf
    exact ⟨c.1.of_shape (hR i hi j hj).2.1 (hR i hi j hj).2.2.1 (shR i hi j hj), d.1.trans c.2.1,
      d.2.trans c.2.2⟩
  obtain ⟨-, -, shB, dgn, ent, -⟩ := Mat.leftMulBlocked_ok hf (fun h => h.1) hY (fun k hk => (P k hk).1)
    colR hm
  refine Mat.sameEntries_of_cols hA.wf (fun i hi j hj => ?_) (fun i hi j hj r hr s hs => ?_)
  · exact ((shR i hi j hj).trans (shB j hj i hi)).dims (hw i hi j hj).1
  · obtain ⟨-, rr, cc⟩ := hw i hi j hj
    rw [rr] at hr
    rw [cc] at hs
    obtain ⟨-, fac⟩ := (P j hj).2.fac (dgn j hj).2
    have e1 : Mat.EqOn p (fun i => (A i 0).nRows) (Mat.colv (fun i => Rb i j) s)
        (Mat.hops p (fun i => (A i 0).nRows) Y t true (Mat.order true j) (Mat.colv (fun i => A i j) s)) := by
      refine Mat.EqOn.trans ?_ (fac s hs)
      intro x hx
      obtain ⟨⟨-, h1⟩, h2⟩ := Mat.mem_rowsFrom.1 hx
      have d := (((P j hj).2.col x.1 h1).2.2).dims (hw x.1 h1 j hj).1
      exact (hR x.1 h1 j hj).2.2.2 x.2 (by rw [d.1, (hw x.1 h1 j hj).2.1]; exact h2) s
        (by rw [d.2, (hw x.1 h1 j hj).2.2]; exact hs)
    have e2 := Mat.hops_congr (Y := Y) (t := t) (trans := false) (ks := Mat.order false j) e1
    have e3 := Mat.hops_cancel (p := p) (h := fun i => (A i 0).nRows) (Y := Y) (t := t) (trans := true)
      (ks := Mat.order true j) (fun k hk => by
        have hk := Mat.mem_order.1 hk
        exact ((P k (by omega)).2.fac (dgn k (by omega)).2).1) (Mat.colv (fun i => A i j) s)
    rw [← Mat.order_not] at e3
    exact (((ent j hj s hs).trans e2).trans e3) ⟨i, r⟩ (Mat.mem_rowsFrom.2 ⟨⟨Nat.zero_le _, hi⟩, hr⟩)

/-- C32.  `Q^T * A = R`: multiplying the original matrix with the transposed
reflectors gives the upper triangular factor. -/
theorem C32_qt_times_a (hK : QrContract K) (hf : o.Fits False) {fuel fuel' p q tr tc : Nat}
    {A Y B T T' : Nat → Nat → Mat R} (hA : Mat.QrInput o p q A)
    (hq : Mat.blockedQr K o fuel p q A tr tc T = .ok (Y, T'))
    (hm : Mat.leftMulBlocked o fuel' p q Y tr tc T' p q A true = .ok B) :
    ∀ i < p, ∀ j < q, ∀ r < (A i j).nRows, ∀ s < (A i j).nCols,
      (B i j).entry r s = if j < i ∨ (i = j ∧ s < r) then 0 else (Y i j).entry r s := by
  obtain ⟨t, P⟩ := Mat.blockedQr_post hK hf hA hq
  have hw := hA.wf
  simp only [Mat.WF] at hw
  obtain ⟨hp, hq0, hw⟩ := hw
  have hY : ∀ k < q, ∀ i, k ≤ i → i < p → (Y i k).WF := fun k hk i _ hi => ((P k hk).2.col i hi).1
  obtain ⟨-, -, -, dgn, ent, -⟩ := Mat.leftMulBlocked_ok hf (fun h => h.1) hY (fun k hk => (P k hk).1)
    (fun j hj => hA.col hj) hm
  intro i hi j hj r hr s hs
  obtain ⟨-, rr, cc⟩ := hw i hi j hj
  rw [rr] at hr
  rw [cc] at hs
  exact ((ent j hj s hs).trans (((P j hj).2.fac (dgn j hj).2).2 s hs).symm) ⟨i, r⟩
    (Mat.mem_rowsFrom.2 ⟨⟨Nat.zero_le _, hi⟩, hr⟩)

/-- C32.  Multiplying any matrix with the reflectors and then with the transposed
ones (`trans = false`), or the other way round (`trans = true`), changes nothing. -/
theorem C32_undo (hK : QrContract K) (hf : o.Fits False) {fuel fuel' fuel'' p q tr tc n : Nat}
    {A Y C D E T T' : Nat → Nat → Mat R} {trans : Bool} (hA : Mat.QrInput o p q A)
    (hq : Mat.blockedQr K o fuel p q A tr tc T = .ok (Y, T'))
    (hC : (Mat.hier p n C).WF) (hs : (Mat.hier p n C).Square)
    (hx : (∀ i < p, ∀ j < n, (C i j).AllDense) ∨ o.Exact False)
    (hh : ∀ i < p, (C i 0).nRows = (A i 0).nRows)
    (h1 : Mat.leftMulBlocked o fuel' p q Y tr tc T' p n C trans = .ok D)
    (h2 : Mat.leftMulBlocked o fuel'' p q Y tr tc T' p n D (!trans) = .ok E) :
    (Mat.hier p n E).SameEntries (Mat.hier p n C) := by
  obtain ⟨t, P⟩ := Mat.blockedQr_post hK hf hA hq
  have hw := hC
  simp only [Mat.WF] at hw
  have hY : ∀ k < q, ∀ i, k ≤ i → i < p → (Y i k).WF := fun k hk i _ hi => ((P k hk).2.col i hi).1
  have c0 := Mat.gridCol (ex := o.Exact False) hC hs
    (fun i hi j hj => hx.imp_left (fun h => h i hi j hj)) hh
  obtain ⟨-, c1, s1, dgn, e1, u1⟩ := Mat.leftMulBlocked_ok hf id hY (fun k hk => (P k hk).1) c0 h1
  obtain ⟨-, c2, s2, -, e2, u2⟩ := Mat.leftMulBlocked_ok hf id hY (fun k hk => (P k hk).1) c1 h2
  refine Mat.sameEntries_of_cols hC (fun i hi j hj => ?_) (fun i hi j hj r hr s hs => ?_)
  · exact ((s1 j hj i hi).trans (s2 j hj i hi)).dims (hw.2.2 i hi j hj).1
  · by_cases hjq : j < q
    · obtain ⟨-, rr, cc⟩ := hw.2.2 i hi j hj
      rw [rr, hh i hi] at hr
      rw [cc] at hs
      have e3 := Mat.hops_cancel (p := p) (h := fun i => (A i 0).nRows) (Y := Y) (t := t) (trans := trans)
        (ks := Mat.order trans j) (fun k hk => by
          have hk := Mat.mem_order.1 hk
          exact ((P k (by omega)).2.fac (dgn k (by omega)).2).1) (Mat.colv (fun i => C i j) s)
      rw [← Mat.order_not] at e3
      exact (((e2 j hjq s hs).trans (Mat.hops_congr (e1 j hjq s hs))).trans e3) ⟨i, r⟩
        (Mat.mem_rowsFrom.2 ⟨⟨Nat.zero_le _, hi⟩, hr⟩)
    · rw [u2 j (by omega), u1 j (by omega)]

/-- C32.  Factorization and multiplications return, on block matrices of dense and
low-rank tiles with at least as many block rows as block columns and dense square
diagonal blocks, if low-rank addition returns. -/
theorem C32_returns (hK : QrContract K) (hf : o.Fits False) {Q : LowRank R → Prop} (hT : o.Total False Q)
    (hQ : LrOps.ShapeOnly Q) {fuel p q : Nat} (hfu : 1 ≤ fuel) (hp : q ≤ p) {A T : Nat → Nat → Mat R}
    (hw : (Mat.hier p q A).WF) (hs : (Mat.hier p q A).Square)
    (ht : ∀ i < p, ∀ j < q, (A i j).IsTile ∧ (A i j).All Q)
    (hd : ∀ k < q, ∃ d : Dense R, A k k = .dense d ∧ d.rows = d.cols) :
    ∃ Y T', Mat.blockedQr K o fuel p q A q 1 T = .ok (Y, T') ∧
      (∃ Rb, (Mat.hier p q Y).zeroLower = .ok (.hier p q Rb) ∧
        ∃ B, Mat.leftMulBlocked o fuel p q Y q 1 T' p q Rb false = .ok B) ∧
      ∀ (n : Nat) (C : Nat → Nat → Mat R) (trans : Bool), q ≤ n → (Mat.hier p n C).WF → (Mat.hier p n C).Square →
        (∀ i < p, ∀ j < n, (C i j).IsTile ∧ (C i j).All Q) → (∀ i < p, (C i 0).nRows = (A i 0).nRows) →
        ∃ D, Mat.leftMulBlocked o fuel p q Y q 1 T' p n C trans = .ok D ∧
          ∃ E, Mat.leftMulBlocked o fuel p q Y q 1 T' p n D (!trans) = .ok E := by
  have grid : ∀ {n : Nat} {C : Nat → Nat → Mat R}, (Mat.hier p n C).WF → (Mat.hier p n C).Square →
      (∀ i < p, ∀ j < n, (C i j).IsTile ∧ (C i j).All Q) → (∀ i < p, (C i 0).nRows = (A i 0).nRows) →
      Mat.GridOk Q p n (fun i => (A i 0).nRows) (fun j => (C 0 j).nCols) C := by
    intro n C w s t r i hi j hj
    simp only [Mat.WF] at w
    obtain ⟨a, b, c⟩ := w.2.2 i hi j hj
    exact ⟨a, s i hi j hj, (t i hi j hj).1, (t i hi j hj).2, b.trans (r i hi), c⟩
  have gA := grid hw hs ht (fun _ _ => rfl)
  have hsq : ∀ k < q, (A 0 k).nCols = (A k 0).nRows := by
    intro k hk
    obtain ⟨d, e, hd⟩ := hd k hk
    have g := gA k (by omega) k hk
    have := g.rows
    have := g.cols
    rw [e] at *
    simp only [Mat.nRows, Mat.nCols] at *
    omega
  obtain ⟨⟨Y, T'⟩, h1, gY, dY, tY⟩ := Mat.blockedQr_total (T := T) hK hf hT hQ hfu hp gA
    (fun k hk => (hd k hk).imp (fun _ h => h.1)) hsq
  simp only at gY dY tY
  refine ⟨Y, T', h1, ?_, ?_⟩
  · obtain ⟨Rb, hRb, gR⟩ := Mat.zeroLower_total hQ gY dY
    obtain ⟨B, hB, -⟩ := Mat.leftMulBlocked_total hf hT hQ hfu hp (le_refl q) gY dY hsq tY gR false
    exact ⟨Rb, hRb, B, hB⟩
  · intro n C trans hn wC sC tC rC
    have gC := grid wC sC tC rC
    obtain ⟨D, hD, gD⟩ := Mat.leftMulBlocked_total hf hT hQ hfu hp hn gY dY hsq tY gC trans
    obtain ⟨E, hE, -⟩ := Mat.leftMulBlocked_total hf hT hQ hfu hp hn gY dY hsq tY gD (!trans)
    exact ⟨D, hD, E, hE⟩

/-! ### the hypotheses can be met -/

section
variable {R : Type} [CommRing R]

/-- Keeps everything, with the identity as left factor. -/
def keepRight (D : Dense R) : LowRank R where
  dim0 := D.rows
  dim1 := D.cols
  rank := D.rows
  eps := 0
  U := Dense.ident D.rows D.rows
  S := Dense.ident D.rows D.rows
  V := D

theorem keepRight_entry (D : Dense R) {i : Nat} (hi : i < D.rows) (j : Nat) :
    (keepRight D).entry i j = D.val i j := by
  have h1 : ∀ b ∈ range D.rows, (∑ a ∈ range D.rows, (if i = a then (1 : R) else 0) * (if a = b then 1 else 0)) *
      D.val b j = if i = b then D.val b j else 0 := by
    intro b hb
    simp only [mul_ite, mul_one, mul_zero]
    rw [Finset.sum_ite_eq' (range D.rows), if_pos hb]
    split <;> simp
  show ∑ b ∈ range D.rows, (∑ a ∈ range D.rows, (if i = a then (1 : R) else 0) * (if a = b then 1 else 0)) *
      D.val b j = _
  rw [Finset.sum_congr rfl h1, Finset.sum_ite_eq, if_pos (Finset.mem_range.2 hi)]

/-- Exact low-rank operations with orthonormal left factors. -/
def orthOps (R : Type) [CommRing R] : LrOps R where
  add A B := do
    let a ← A.toDense
    let b ← B.toDense
    .ok (keepRight ⟨A.dim0, A.dim1, fun i j => a.val i j + b.val i j⟩)
  ofRank D _ := .ok (keepRight D)
  ofEps D _ := .ok (keepRight D)
  ofHier M _ := do
    let d ← M.toDense
    .ok (keepRight d)

theorem orthOps_fits : (orthOps R).Fits False where
  add := by
    intro A B C hA _ hB _ _ _ h
    obtain ⟨a, ha, -⟩ := Mat.LowRank_toDense_ok A hA
    obtain ⟨b, hb, -⟩ := Mat.LowRank_toDense_ok B hB
    simp only [orthOps, ha, hb, except_bind_ok] at h
    cases h
    exact ⟨⟨rfl, rfl, rfl, rfl, rfl⟩, rfl, rfl, rfl⟩
  ofRank := by
    intro D r C h
    cases h
    exact ⟨⟨rfl, rfl, rfl, rfl, rfl⟩, rfl, rfl, rfl⟩
  ofEps := by
    intro D r C h
    cases h
    exact ⟨⟨rfl, rfl, rfl, rfl, rfl⟩, rfl, rfl, rfl⟩
  ofHier := by
    intro M r C hM h
    obtain ⟨a, ha, -⟩ := Mat.toDense_ok M hM
    simp only [orthOps, ha, except_bind_ok] at h
    cases h
    exact ⟨⟨rfl, rfl, rfl, rfl, rfl⟩, rfl⟩

theorem orthOps_exact : (orthOps R).Exact False where
  add := by
    intro A B C hA _ hB _ h0 h1 h i hi j hj
    obtain ⟨a, ha, -, -, ea⟩ := Mat.LowRank_toDense_ok A hA
    obtain ⟨b, hb, -, -, eb⟩ := Mat.LowRank_toDense_ok B hB
    simp only [orthOps, ha, hb, except_bind_ok] at h
    rw [← Except.ok.inj h, keepRight_entry _ hi, ← ea, ← eb]
  ofRank := by
    intro D r C h i hi j hj
    rw [← Except.ok.inj h, keepRight_entry _ hi]
  ofEps := by
    intro D r C h i hi j hj
    rw [← Except.ok.inj h, keepRight_entry _ hi]
  ofHier := by
    intro M r C hM h h0 h1 i hi j hj
    obtain ⟨a, ha, a0, a1, ea⟩ := Mat.toDense_ok M hM
    simp only [orthOps, ha, except_bind_ok] at h
    rw [← Except.ok.inj h, keepRight_entry _ (by rw [a0]; exact hi), ea i hi j hj]

theorem keepRight_leftOrth (D : Dense R) : (keepRight D).LeftOrth := by
  intro a ha b hb
  have ha : a < D.rows := ha
  show ∑ l ∈ range D.rows, (if l = a then (1 : R) else 0) * (if l = b then 1 else 0) = _
  simp only [ite_mul, one_mul, zero_mul]
  rw [Finset.sum_ite_eq', if_pos (Finset.mem_range.2 ha)]

theorem orthOps_leftOrth : (orthOps R).LeftOrth := by
  intro A B C h
  simp only [orthOps, except_bind_eq_ok] at h
  obtain ⟨_, _, _, _, h⟩ := h
  rw [← Except.ok.inj h]
  exact keepRight_leftOrth _

theorem orthOps_total : (orthOps R).Total False (fun _ => True) where
  scale := fun _ _ _ => trivial
  add := by
    intro A B hA _ hB _ _ _ _
    obtain ⟨a, ha, -⟩ := Mat.LowRank_toDense_ok A hA
    obtain ⟨b, hb, -⟩ := Mat.LowRank_toDense_ok B hB
    simp only [orthOps, ha, hb, except_bind_ok]
    exact ⟨_, rfl, trivial⟩
  ofRank := fun _ _ _ _ _ _ _ => ⟨_, rfl⟩
  ofEps := fun _ _ _ _ _ _ _ => ⟨_, rfl, trivial⟩
  ofHier := by
    intro c M _ _ _ hM h0 h1
    obtain ⟨a, ha, a0, a1, -⟩ := Mat.toDense_ok M hM
    simp only [orthOps, ha, except_bind_ok]
    exact ⟨_, rfl, a0.trans h0, a1.trans h1⟩

end

/-- For the example: 3-by-2 blocks of order 2, dense on the diagonal, low-rank off
the diagonal. -/
def qrExample (i j : Nat) : Mat ℝ :=
  if i = j then .dense ⟨2, 2, fun r s => (r : ℝ) + 2 * s + i⟩
  else .lowRank (keepRight ⟨2, 2, fun r s => (r : ℝ) * s + i - j⟩)

theorem qrExample_input : Mat.QrInput (orthOps ℝ) 3 2 qrExample where
  wf := by
    refine ⟨by omega, by omega, fun i hi j hj => ⟨?_, ?_, ?_⟩⟩
    · unfold qrExample
      split
      · trivial
      · exact ⟨rfl, rfl, rfl, rfl, rfl⟩
    · unfold qrExample
      split <;> split <;> rfl
    · unfold qrExample
      split <;> split <;> rfl
  sqr := by
    intro i hi j hj
    unfold qrExample
    split
    · trivial
    · exact rfl
  fine := Or.inr ⟨orthOps_exact, orthOps_leftOrth⟩
  orth := by
    intro i hi j hj hq l hl
    unfold qrExample at hl
    rw [if_neg (by omega)] at hl
    cases hl
    exact keepRight_leftOrth _

/-- The hypotheses of all C32 theorems hold for LAPACK routines that satisfy the
contract and a 3-by-2 block matrix with low-rank tiles. -/
example : ∃ (K : QrKernels ℝ) (Y T' Rb B : Nat → Nat → Mat ℝ), QrContract K ∧ (orthOps ℝ).Fits False ∧
    Mat.QrInput (orthOps ℝ) 3 2 qrExample ∧
    Mat.blockedQr K (orthOps ℝ) 1 3 2 qrExample 2 1 (fun _ _ => .empty 0 0) = .ok (Y, T') ∧
    (Mat.hier 3 2 Y).zeroLower = .ok (.hier 3 2 Rb) ∧
    Mat.leftMulBlocked (orthOps ℝ) 1 3 2 Y 2 1 T' 3 2 Rb false = .ok B ∧
    ∃ D E, Mat.leftMulBlocked (orthOps ℝ) 1 3 2 Y 2 1 T' 3 2 qrExample true = .ok D ∧
      Mat.leftMulBlocked (orthOps ℝ) 1 3 2 Y 2 1 T' 3 2 D false = .ok E := by
  obtain ⟨K, hK⟩ := QrKernels.exists_contract
  have tl : ∀ i < 3, ∀ j < 2, (qrExample i j).IsTile ∧ (qrExample i j).All (fun _ => True) := by
    intro i _ j _
    unfold qrExample
    split <;> exact ⟨trivial, trivial⟩
  obtain ⟨Y, T', h1, ⟨Rb, h2, B, h3⟩, h4⟩ := C32_returns (fuel := 1) (T := fun _ _ => .empty 0 0) hK orthOps_fits
    orthOps_total (fun _ _ _ _ _ _ _ _ _ => trivial) (le_refl 1) (show 2 ≤ 3 by omega) qrExample_input.wf
    qrExample_input.sqr tl (fun k _ => ⟨_, if_pos rfl, rfl⟩)
  obtain ⟨D, h5, E, h6⟩ := h4 2 qrExample true (by omega) qrExample_input.wf qrExample_input.sqr tl (fun _ _ => rfl)
  exact ⟨K, Y, T', Rb, B, hK, orthOps_fits, qrExample_input, h1, h2, h3, D, E, h5, h6⟩

end Verif
