import Verif.Lemmas.ErrGemm
import Verif.Lemmas.Lu

set_option linter.unusedSectionVars false
set_option linter.unusedVariables false

/-
Truncation errors of triangular solves and LU factorizations add up.
-/

namespace Verif
open Finset

namespace Mat

theorem Wide.shape {R : Type} [CommRing R] {t : Bool} {A B : Mat R} (h : A.Wide t) (hs : A.SameShape B) :
    B.Wide t := by
  induction A generalizing B with
  | dense a =>
    cases B <;> first | exact hs.elim | skip
    cases t
    · exact lt_of_lt_of_eq h hs.2
    · exact lt_of_lt_of_eq h hs.1
  | lowRank a =>
    cases B <;> first | exact hs.elim | skip
    cases t
    · exact lt_of_lt_of_eq h hs.2
    · exact lt_of_lt_of_eq h hs.1
  | empty m n =>
    cases B <;> first | exact hs.elim | skip
    cases t
    · exact lt_of_lt_of_eq h hs.2
    · exact lt_of_lt_of_eq h hs.1
  | hier p q A ih =>
    cases B <;> first | exact hs.elim | skip
    obtain ⟨rfl, rfl, hs⟩ := hs
    exact fun i hi j hj => ih i j (h i hi j hj) (hs i hi j hj)

theorem Filled.shape {R : Type} [CommRing R] {A B : Mat R} (h : A.Filled) (hs : A.SameShape B) :
    B.Filled := ⟨h.1.shape hs, h.2.shape hs⟩

theorem Filled.block {R : Type} {p q : Nat} {A : Nat → Nat → Mat R} (h : (Mat.hier p q A).Filled)
    {i j : Nat} (hi : i < p) (hj : j < q) : (A i j).Filled := ⟨h.1 i hi j hj, h.2 i hi j hj⟩

variable {K : Type} [Field K] [LinearOrder K] [IsStrictOrderedRing K]

/-! ### triangular solves -/

/-- The updates of one block before it is solved. -/
theorem trsm_line_err {ex : Prop} {g : GemmT K} (hg : GemmOk ex False g) {τ : K} (he : GemmErr τ g)
    {uplo : Uplo} {side : Side}
    {p q r s : Nat} {A X : Nat → Nat → Mat K} (hA : (Mat.hier p q A).WF)
    (hAw : (Mat.hier p q A).Wide (side.pick false true)) {i j : Nat} (hi : i < r)
    (hj : j < s) {c b : Mat K} (hc : c.WF) (hcs : c.Square)
    (hd : side.pick i j < p ∧ side.pick i j < q)
    (hX : ∀ u < Dense.solveOrder (backwards uplo side) (side.pick r s) (side.pick i j),
      (side.pick (X (Dense.solveOrder (backwards uplo side) (side.pick r s) u) j)
        (X i (Dense.solveOrder (backwards uplo side) (side.pick r s) u))).WF)
    (hXw : ∀ u < Dense.solveOrder (backwards uplo side) (side.pick r s) (side.pick i j),
      (side.pick (X (Dense.solveOrder (backwards uplo side) (side.pick r s) u) j)
        (X i (Dense.solveOrder (backwards uplo side) (side.pick r s) u))).Wide (side.pick true false))
    (h : loop (Dense.solveOrder (backwards uplo side) (side.pick r s) (side.pick i j)) (fun u b => do
          let a ← side.pick
            (blockAt p q A i (Dense.solveOrder (backwards uplo side) (side.pick r s) u))
            (blockAt p q A (Dense.solveOrder (backwards uplo side) (side.pick r s) u) j)
          side.pick
            (g a (X (Dense.solveOrder (backwards uplo side) (side.pick r s) u) j) b (-1) 1 false false)
            (g (X i (Dense.solveOrder (backwards uplo side) (side.pick r s) u)) a b (-1) 1 false false))
          c = .ok b) (hpr : side.pick r s ≤ p) (hqr : side.pick r s ≤ q) :
    ∀ x < c.nRows, ∀ y < c.nCols,
      |b.entry x y - (- offProd uplo side (side.pick r s) A X i j x y + c.entry x y)| ≤
        2 * (∑ k ∈ range (side.pick r s), if strictB uplo side (side.pick i j) k then
          ((side.pick (A i k) (X i k)).nCols : K) else 0) * τ := by
  have hn : side.pick i j < side.pick r s := by cases side <;> simpa [Side.pick]
  generalize hσ : Dense.solveOrder (backwards uplo side) (side.pick r s) = σ at *
  have hlt : ∀ u < σ (side.pick i j), σ u < side.pick r s := by
    intro u hu
    rw [← hσ] at hu ⊢
    have := solveOrder_lt (b := backwards uplo side) hn
    exact solveOrder_lt (by omega)
  simp only [WF] at hA
  obtain ⟨-, -, hAd⟩ := hA
  have L := loop_err hg he (a := fun u => side.pick (A i (σ u)) (X i (σ u)))
    (b := fun u => side.pick (X (σ u) j) (A (σ u) j)) (β := fun _ => 1) (α := -1) (ta := false)
    (tb := false) hc hcs
    (fun u hu => by
      have := hlt u hu
      cases side
      · exact (hAd i hd.1 _ (by omega)).1
      · exact hX u hu)
    (fun u hu => by
      have := hlt u hu
      cases side
      · exact hX u hu
      · exact (hAd _ (by omega) j hd.2).1)
    (fun u _ => TransSafe_ff _ _) (fun u hu => by
      have := hlt u hu
      cases side
      · exact Wide.innr (hAw i hd.1 _ (by omega)) (hXw u hu)
      · exact Wide.innr (hXw u hu) (hAw _ (by omega) j hd.2))
    (fun u _ x x' hx => by
      simp only [except_bind_eq_ok] at hx
      obtain ⟨a, ha, hx⟩ := hx
      cases side
      · obtain ⟨-, -, rfl⟩ := blockAt_ok ha
        exact hx
      · obtain ⟨-, -, rfl⟩ := blockAt_ok ha
        exact hx) (fun _ _ => rfl) h
  intro x hx y hy
  have E := L x hx y hy
  have e : (if σ (side.pick i j) = 0 then (1 : K) else 1) = 1 := by
    split <;> rfl
  simp only [e, one_mul, neg_mul] at E
  have hσlt : σ (side.pick i j) < side.pick r s := by rw [← hσ]; exact solveOrder_lt hn
  have t1 := sum_solveOrder uplo side (n := side.pick r s) (t := σ (side.pick i j)) hσlt
    (fun k => prodEntry false false (side.pick (A i k) (X i k)) (side.pick (X k j) (A k j)) x y)
  have t2 := sum_solveOrder uplo side (n := side.pick r s) (t := σ (side.pick i j)) hσlt
    (fun k => ((side.pick (A i k) (X i k)).nCols : K))
  rw [hσ] at t1 t2
  rw [← hσ, solveOrder_invol hn, hσ] at t1 t2
  rw [t1] at E
  push_cast at E
  have t3 : (∑ x ∈ range (σ (side.pick i j)), ((side.pick (A i (σ x)) (X i (σ x))).opCols false : K)) =
      ∑ k ∈ range (side.pick r s), if strictB uplo side (side.pick i j) k then
          ((side.pick (A i k) (X i k)).nCols : K) else 0 := t2
  rw [t3] at E
  have t4 : offProd uplo side (side.pick r s) A X i j x y = ∑ k ∈ range (side.pick r s),
      if strictB uplo side (side.pick i j) k then
        prodEntry false false (side.pick (A i k) (X i k)) (side.pick (X k j) (A k j)) x y else 0 := by
    refine Finset.sum_congr rfl (fun k _ => ?_)
    cases side <;> rfl
  rw [t4]
  exact E

theorem trsmWith_err {ex : Prop} {g : GemmT K} (hg : GemmOk ex False g) {τ : K} (hτ : 0 ≤ τ)
    (he : GemmErr τ g) {side : Side} {uplo : Uplo}
    (fuel : Nat) : ∀ A B B', A.WF → B.WF → B.Square → A.DiagSquare →
      TriFits side A B → A.nRows = side.pick B.nRows B.nCols → A.Wide (side.pick false true) →
      B.Wide (side.pick true false) →
      trsmWith g uplo side fuel A B = .ok B' →
      ∀ i < B.nRows, ∀ j < B.nCols,
        |sideProd side A.nRows (triEntry uplo (decide (uplo = .lower)) A) B' i j - B.entry i j| ≤
          2 * (A.nRows : K) * τ := by
  induction fuel with
  | zero => intro A B B' _ _ _ _ _ _ _ _ h; cases h
  | succ fuel ih =>
    intro A B B' hA hB hBs hD hT hn hAw hBw h
    have full := trsmWith_ok hg (fuel + 1) A B B' hA hB hBs hD hT hn h
    have S := trsmWith_shape hg (fuel + 1) A B B' hA hB hBs h
    simp only [trsmWith] at h
    cases B with
    | lowRank b =>
      have h : (do
        let X ← trsmWith g uplo side fuel A (.dense (b.outer side))
        let X ← X.asDense
        .ok (.lowRank (b.setOuter side X))) = Except.ok B' := by
        rw [← h]; cases A <;> rfl
      simp only [except_bind_eq_ok] at h
      obtain ⟨X, hX, d, hd, h⟩ := h
      cases h
      have hb : b.WF := hB
      have I := trsmWith_ok hg fuel A (.dense (b.outer side)) X hA trivial trivial hD (TriFits_dense _ _ _) (by
        rw [hn]
        cases side
        · exact hb.urows.symm
        · exact hb.vcols.symm) hX
      obtain rfl := asDense_ok hd
      intro i hi j hj
      rw [setOuter_trsm hb (fun x hx y hy => I.ent x hx y hy (Or.inl trivial)) i hi j hj, sub_self,
        abs_zero]
      positivity
    | empty => cases A <;> cases h
    | dense b =>
      intro i hi j hj
      rw [full.ent i hi j hj (Or.inl trivial), sub_self, abs_zero]
      positivity
    | hier r s B =>
      cases A with
      | lowRank a => cases h
      | empty => cases h
      | dense a => cases h
      | hier p q A =>
        have hA0 := hA
        have hB' := hB
        simp only [WF] at hA0 hB'
        obtain ⟨X, rfl, key, b1, b2, L⟩ := trsmHH_shape hg (trsmWith_shape hg fuel) hA hB hBs h
        obtain ⟨X', eX, H⟩ := trsmHH_spec h
        injection eX with _ _ eX
        subst eX
        have hp : p = side.pick r s := hT.1
        have dlt : ∀ i < r, ∀ j < s, side.pick i j < p := fun i hi j hj => by
          rw [hp]; cases side <;> simpa [Side.pick]
        have hpq : p = q := hD.1
        have XB := S.2.2.dims hB
        have hh := tri_heights (uplo := uplo) hD hA S.1 hp (by rw [XB.1, XB.2]; exact hn)
          (fun i hi j hj k hk hs => by
            obtain ⟨b, gd, -⟩ := L i hi j hj
            have dm := (key i hi j hj).2.2.dims (hB'.2.2 i hi j hj).1
            have := gd k (by rw [← hp]; exact hk) hs
            cases side
            · exact ⟨this.rows.trans dm.1.symm, this.inner, this.cols.trans dm.2.symm⟩
            · exact ⟨this.rows.trans dm.1.symm, this.inner, this.cols.trans dm.2.symm⟩)
        have hXw := S.1
        have hXW := hXw
        simp only [WF] at hXw
        have hw := hD.widths hA
        have hpr : side.pick r s ≤ p := b1
        have hqr : side.pick r s ≤ q := b2
        intro i0 hi0 j0 hj0
        rw [nRows_hier] at hi0
        rw [nCols_hier] at hj0
        obtain ⟨i, hi, x, hx, rfl⟩ := exists_block _ _ _ hi0
        obtain ⟨j, hj, y, hy, rfl⟩ := exists_block _ _ _ hj0
        have hx' : x < (B i j).nRows := by rw [(hB'.2.2 i hi j hj).2.1]; exact hx
        have hy' : y < (B i j).nCols := by rw [(hB'.2.2 i hi j hj).2.2]; exact hy
        obtain ⟨h1, h2, b, hb, hbt⟩ := H i hi j hj
        have hnp : side.pick i j < side.pick r s := by cases side <;> simpa [Side.pick]
        have hlt := solveOrder_lt (b := backwards uplo side) hnp
        have wfX : ∀ u < Dense.solveOrder (backwards uplo side) (side.pick r s) (side.pick i j),
            (side.pick (X (Dense.solveOrder (backwards uplo side) (side.pick r s) u) j)
              (X i (Dense.solveOrder (backwards uplo side) (side.pick r s) u))).WF := fun u hu => by
          have hl := solveOrder_lt (b := backwards uplo side) (show u < side.pick r s by omega)
          cases side
          · exact (key _ hl j hj).1
          · exact (key i hi _ hl).1
        have wdX : ∀ u < Dense.solveOrder (backwards uplo side) (side.pick r s) (side.pick i j),
            (side.pick (X (Dense.solveOrder (backwards uplo side) (side.pick r s) u) j)
              (X i (Dense.solveOrder (backwards uplo side) (side.pick r s) u))).Wide
                (side.pick true false) := fun u hu => by
          have hl := solveOrder_lt (b := backwards uplo side) (show u < side.pick r s by omega)
          cases side
          · exact (hBw _ hl j hj).shape (key _ hl j hj).2.2
          · exact (hBw i hi _ hl).shape (key i hi _ hl).2.2
        have Ln := trsm_line hg hA hi hj (hB'.2.2 i hi j hj).1 (hBs i hi j hj) ⟨h1, h2⟩ wfX hb b1 b2
        have Le := trsm_line_err hg he hA hAw hi hj (hB'.2.2 i hi j hj).1 (hBs i hi j hj) ⟨h1, h2⟩ wfX
          wdX hb b1 b2 x hx' y hy'
        obtain ⟨-, bw, bs, sh, -⟩ := Ln
        have hd := dlt i hi j hj
        have dmb := sh.dims (hB'.2.2 i hi j hj).1
        have dmx := (key i hi j hj).2.2.dims (hB'.2.2 i hi j hj).1
        have I := ih _ _ _ (hA0.2.2 _ hd _ (by omega)).1 bw bs (hD.2 _ hd) ((hT.2 i hi j hj).shape sh) (by
          have e1 := hh _ hd
          rw [(hA0.2.2 _ hd _ (by omega)).2.1, e1, dmb.1, dmb.2, ← dmx.1, ← dmx.2]
          cases side
          · exact ((hXw.2.2 i hi j hj).2.1).symm
          · exact ((hXw.2.2 i hi j hj).2.2).symm) (hAw _ hd _ (by omega))
          ((hBw i hi j hj).shape sh) hbt x (by rw [dmb.1]; exact hx') y (by rw [dmb.2]; exact hy')
        -- assemble
        have e1 : ∀ k < r, (B k 0).nRows = (X k 0).nRows := fun k hk =>
          (((key k hk 0 hB'.2.1).2.2.dims (hB'.2.2 k hk 0 hB'.2.1).1).1).symm
        have e2 : ∀ k < s, (B 0 k).nCols = (X 0 k).nCols := fun k hk =>
          (((key 0 hB'.1 k hk).2.2.dims (hB'.2.2 0 hB'.1 k hk).1).2).symm
        rw [entry_block hi hj hx hy]
        have SB := sideProd_block hD hA hXW uplo side (decide (uplo = .lower)) hp hh hi hj
          (by rw [← e1 i hi]; exact hx) (by rw [← e2 j hj]; exact hy)
        rw [psum_congr (h' := fun k => (X k 0).nRows) (fun k hk => e1 k (by omega)),
          psum_congr (h' := fun k => (X 0 k).nCols) (fun k hk => e2 k (by omega))]
        have SB' : sideProd side (Mat.hier p q A).nRows
            (triEntry uplo (decide (uplo = .lower)) (.hier p q A)) (.hier r s X)
            (psum (fun k => (X k 0).nRows) i + x) (psum (fun k => (X 0 k).nCols) j + y) =
          sideProd side (A (side.pick i j) (side.pick i j)).nRows
            (triEntry uplo (decide (uplo = .lower)) (A (side.pick i j) (side.pick i j))) (X i j) x y +
            offProd uplo side p A X i j x y := SB
        rw [SB']
        rw [← hp] at Le
        -- the sizes
        have wid : ∀ k < p, ((side.pick (A i k) (X i k)).nCols) = (A k 0).nRows := by
          intro k hk
          cases side with
          | left => 
            rw [← hw k hk]
            exact (hA0.2.2 i hd k (by omega)).2.2
          | right =>
            rw [hh k hk]
            exact (hXw.2.2 i hi k (by rw [hp] at hk; exact hk)).2.2
        have sz : ((A (side.pick i j) (side.pick i j)).nRows : K) +
            (∑ k ∈ range p, if strictB uplo side (side.pick i j) k then
              ((side.pick (A i k) (X i k)).nCols : K) else 0) ≤ ((Mat.hier p q A).nRows : K) := by
          rw [nRows_hier, (hA0.2.2 _ hd _ (by omega)).2.1]
          rw [← sum_diag_strict hd uplo side ((A (side.pick i j) 0).nRows : K)
            (fun k => ((side.pick (A i k) (X i k)).nCols : K))
            (F := fun k => if k = side.pick i j then ((A (side.pick i j) 0).nRows : K) else
              if strictB uplo side (side.pick i j) k then ((side.pick (A i k) (X i k)).nCols : K) else 0)
            (fun k _ => rfl)]
          rw [show (psum (fun i => (A i 0).nRows) p : K) = ∑ k ∈ range p, ((A k 0).nRows : K) by
            simp [psum]]
          refine Finset.sum_le_sum (fun k hk => ?_)
          have hk := mem_range.1 hk
          split
          · rename_i e
            subst e
            exact le_refl _
          · split
            · rw [wid k hk]
            · positivity
        have tr := abs_add_le (sideProd side (A (side.pick i j) (side.pick i j)).nRows
            (triEntry uplo (decide (uplo = .lower)) (A (side.pick i j) (side.pick i j))) (X i j) x y -
            b.entry x y) (b.entry x y - (-offProd uplo side p A X i j x y + (B i j).entry x y))
        have ee : sideProd side (A (side.pick i j) (side.pick i j)).nRows
            (triEntry uplo (decide (uplo = .lower)) (A (side.pick i j) (side.pick i j))) (X i j) x y +
            offProd uplo side p A X i j x y - (B i j).entry x y =
          (sideProd side (A (side.pick i j) (side.pick i j)).nRows
            (triEntry uplo (decide (uplo = .lower)) (A (side.pick i j) (side.pick i j))) (X i j) x y -
            b.entry x y) + (b.entry x y - (-offProd uplo side p A X i j x y + (B i j).entry x y)) := by
          ring
        rw [ee]
        refine tr.trans ((add_le_add I Le).trans ?_)
        have := mul_le_mul_of_nonneg_right sz hτ
        linarith

end Mat
end Verif
