import Verif.Lemmas.Tri

set_option linter.unusedSectionVars false
set_option linter.unusedVariables false

namespace Verif
open Finset

variable {R : Type} [CommRing R]

namespace Mat

theorem sum_below {n d : Nat} (h : d ≤ n) (f : Nat → R) :
    (∑ k ∈ range n, if k < d then f k else 0) = ∑ k ∈ range d, f k := by
  obtain ⟨m, rfl⟩ := Nat.exists_eq_add_of_le h
  rw [Finset.sum_range_add]
  rw [Finset.sum_congr rfl (g := f) (fun k hk => if_pos (mem_range.1 hk)),
    Finset.sum_eq_zero (fun k _ => if_neg (by omega)), add_zero]

theorem sum_above {n d : Nat} (h : d < n) (f : Nat → R) :
    (∑ k ∈ range n, if d < k then f k else 0) = ∑ u ∈ range (n - (d + 1)), f (d + 1 + u) := by
  obtain ⟨m, rfl⟩ := Nat.exists_eq_add_of_le (Nat.succ_le_of_lt h)
  rw [Finset.sum_range_add, Finset.sum_eq_zero (fun k hk => if_neg (by
    have := mem_range.1 hk; omega)), zero_add]
  have : d.succ + m - (d + 1) = m := by omega
  rw [this]
  exact Finset.sum_congr rfl (fun k _ => if_pos (by omega))

theorem sum_trmmIndex (uplo : Uplo) (side : Side) {n i j : Nat} (h : side.pick i j < n) (f : Nat → R) :
    ∑ u ∈ range (trmmCount uplo side n i j), f (trmmIndex uplo side i j u) =
      ∑ k ∈ range n, if strictB uplo side (side.pick i j) k then f k else 0 := by
  cases uplo <;> cases side <;>
    simp only [Side.pick_left, Side.pick_right] at h <;> simp only [trmmCount, trmmIndex]
  · exact (sum_above h f).symm.trans
      (Finset.sum_congr rfl fun k _ => if_congr decide_eq_true_iff.symm rfl rfl)
  · exact (Finset.sum_range_reflect f j).trans ((sum_below (le_of_lt h) f).symm.trans
      (Finset.sum_congr rfl fun k _ => if_congr decide_eq_true_iff.symm rfl rfl))
  · exact (Finset.sum_range_reflect f i).trans ((sum_below (le_of_lt h) f).symm.trans
      (Finset.sum_congr rfl fun k _ => if_congr decide_eq_true_iff.symm rfl rfl))
  · exact (sum_above h f).symm.trans
      (Finset.sum_congr rfl fun k _ => if_congr decide_eq_true_iff.symm rfl rfl)

theorem trmmIndex_lt {uplo : Uplo} {side : Side} {n i j u : Nat} (h : side.pick i j < n)
    (hu : u < trmmCount uplo side n i j) : trmmIndex uplo side i j u < n := by
  cases uplo <;> cases side <;> simp only [Side.pick_left, Side.pick_right] at h <;>
    simp only [trmmCount] at hu <;> simp only [trmmIndex] <;> omega

theorem trmmIndex_exists {uplo : Uplo} {side : Side} {n i j k : Nat} (h : side.pick i j < n)
    (hk : k < n) (hs : strictB uplo side (side.pick i j) k = true) :
    ∃ u < trmmCount uplo side n i j, trmmIndex uplo side i j u = k := by
  cases uplo <;> cases side <;> simp only [Side.pick_left, Side.pick_right] at h <;>
    have hs := of_decide_eq_true hs <;> simp only [Side.pick_left, Side.pick_right] at hs <;>
    simp only [trmmCount, trmmIndex]
  · exact ⟨k - (i + 1), by omega, by omega⟩
  · exact ⟨j - 1 - k, by omega, by omega⟩
  · exact ⟨i - 1 - k, by omega, by omega⟩
  · exact ⟨k - (j + 1), by omega, by omega⟩

/-! ### leaves -/

theorem triEntry_dense (uplo : Uplo) (unit : Bool) (a : Dense R) (i j : Nat) :
    triEntry uplo unit (.dense a) i j = a.tri uplo unit i j := rfl

theorem sideProd_congr {side : Side} {n : Nat} {T T' : Nat → Nat → R} {X X' : Mat R} {i j : Nat}
    (hT : ∀ l < n, side.pick (T i l = T' i l) (T l j = T' l j))
    (hX : ∀ l < n, side.pick (X.entry l j = X'.entry l j) (X.entry i l = X'.entry i l)) :
    sideProd side n T X i j = sideProd side n T' X' i j := by
  cases side
  · exact Finset.sum_congr rfl (fun l hl => by
      rw [show T i l = T' i l from hT l (mem_range.1 hl),
        show X.entry l j = X'.entry l j from hX l (mem_range.1 hl)])
  · exact Finset.sum_congr rfl (fun l hl => by
      rw [show T l j = T' l j from hT l (mem_range.1 hl),
        show X.entry i l = X'.entry i l from hX l (mem_range.1 hl)])

/-- `op` of an entry function. -/
def opFun (t : Bool) (T : Nat → Nat → R) (i j : Nat) : R := if t then T j i else T i j

theorem Dense_trmm_ok {side : Side} {uplo : Uplo} {trans unit : Bool} {α : R} {a b d : Dense R}
    (h : Dense.trmm side uplo trans unit α a b = .ok d) :
    a.rows = a.cols ∧ a.rows = side.pick b.rows b.cols ∧ d.rows = b.rows ∧ d.cols = b.cols ∧
    ∀ i j, d.val i j =
      α * sideProd side a.rows (opFun trans (triEntry uplo unit (.dense a))) (.dense b) i j := by
  simp only [Dense.trmm, except_bind_eq_ok, assertM_eq_ok, decide_eq_true_eq] at h
  obtain ⟨-, h1, -, h2, h⟩ := h
  cases h
  refine ⟨h1, h2, rfl, rfl, fun i j => ?_⟩
  cases side <;> rfl

theorem setOuter_trmm {l : LowRank R} (hl : l.WF) {side : Side} {n : Nat} {T : Nat → Nat → R} {α : R}
    {X : Dense R}
    (h : ∀ x < (l.outer side).rows, ∀ y < (l.outer side).cols,
      X.val x y = α * sideProd side n T (.dense (l.outer side)) x y) :
    ∀ i < l.dim0, ∀ j < l.dim1, (Mat.lowRank (l.setOuter side X)).entry i j =
      α * sideProd side n T (.lowRank l) i j := by
  intro i hi j hj
  rw [sideProd_lowRank]
  cases side with
  | left =>
    simp only [entry, LowRank_entry_mm, LowRank.setOuter, Side.pick_left]
    have : α * mm l.S.cols (mm l.S.rows (mm n T l.U.val) l.S.val) l.V.val i j =
        mm l.S.cols (mm l.S.rows (smul α (mm n T l.U.val)) l.S.val) l.V.val i j := by
      rw [mm_smul_left, mm_smul_left]; rfl
    rw [this]
    refine mm_congr (fun b _ => mm_congr (fun a ha => ?_) (fun _ _ => rfl)) (fun _ _ => rfl)
    exact h i (by rw [← hl.urows] at hi; exact hi) a (by
      have := hl.ucols; have := hl.srows
      show a < l.U.cols
      omega)
  | right =>
    simp only [entry, LowRank_entry_mm, LowRank.setOuter, Side.pick_right]
    have : α * mm l.S.cols (mm l.S.rows l.U.val l.S.val) (mm n l.V.val T) i j =
        mm l.S.cols (mm l.S.rows l.U.val l.S.val) (smul α (mm n l.V.val T)) i j := by
      rw [mm_smul_right]; rfl
    rw [this]
    refine mm_congr (fun b _ => rfl) (fun b hb => ?_)
    exact h b (by
      have := hl.vrows
      show b < l.V.rows
      omega) j (by rw [← hl.vcols] at hj; exact hj)

theorem setOuter_trsm {l : LowRank R} (hl : l.WF) {side : Side} {n : Nat} {T : Nat → Nat → R}
    {X : Dense R}
    (h : ∀ x < (l.outer side).rows, ∀ y < (l.outer side).cols,
      sideProd side n T (.dense X) x y = (l.outer side).val x y) :
    ∀ i < l.dim0, ∀ j < l.dim1, sideProd side n T (.lowRank (l.setOuter side X)) i j =
      (Mat.lowRank l).entry i j := by
  intro i hi j hj
  rw [sideProd_lowRank]
  cases side with
  | left =>
    simp only [entry, LowRank_entry_mm, LowRank.setOuter, Side.pick_left]
    refine mm_congr (fun b _ => mm_congr (fun a ha => ?_) (fun _ _ => rfl)) (fun _ _ => rfl)
    exact h i (by rw [← hl.urows] at hi; exact hi) a (by
      have := hl.ucols; have := hl.srows
      show a < l.U.cols
      omega)
  | right =>
    simp only [entry, LowRank_entry_mm, LowRank.setOuter, Side.pick_right]
    refine mm_congr (fun b _ => rfl) (fun b hb => ?_)
    exact h b (by
      have := hl.vrows
      show b < l.V.rows
      omega) j (by rw [← hl.vcols] at hj; exact hj)

/-! ### trmm -/

/-- The loop over `k` of one block. -/
theorem trmmHH_block {ex : Prop} {g : GemmT R} (hg : GemmOk ex False g) {side : Side} {uplo : Uplo}
    {α : R} {p r s : Nat} {A B : Nat → Nat → Mat R} (hA : (Mat.hier p p A).WF)
    (hB : (Mat.hier r s B).WF) (hp : p = side.pick r s) {i j : Nat} (hi : i < r) (hj : j < s)
    {c c' : Mat R} (hc : c.WF) (hcs : c.Square)
    (h : loop (trmmCount uplo side (side.pick r s) i j) (fun u c =>
      side.pick
        (g (A i (trmmIndex uplo side i j u)) (B (trmmIndex uplo side i j u) j) c α 1 false false)
        (g (B i (trmmIndex uplo side i j u)) (A (trmmIndex uplo side i j u) j) c α 1 false false)) c
      = .ok c') :
    (∀ k < p, strictB uplo side (side.pick i j) k = true →
      side.pick (GemmDims false false (A i k) (B k j) c) (GemmDims false false (B i k) (A k j) c)) ∧
    c'.WF ∧ c'.Square ∧ c.SameShape c' ∧
    ∀ x < c.nRows, ∀ y < c.nCols, (c.denseAt x y ∨ ex) →
      c'.entry x y = α * offProd uplo side p A B i j x y + c.entry x y := by
  simp only [WF] at hA hB
  obtain ⟨hp0, -, hAd⟩ := hA
  obtain ⟨hr0, hs0, hBd⟩ := hB
  have hd : side.pick i j < side.pick r s := by cases side <;> simpa [Side.pick]
  have idx : ∀ u < trmmCount uplo side (side.pick r s) i j, trmmIndex uplo side i j u < p :=
    fun u hu => by rw [hp]; exact trmmIndex_lt hd hu
  have L := loop_post hg (a := fun u => side.pick (A i (trmmIndex uplo side i j u))
      (B i (trmmIndex uplo side i j u))) (b := fun u => side.pick (B (trmmIndex uplo side i j u) j)
      (A (trmmIndex uplo side i j u) j)) (β := fun _ => 1) (α := α) (ta := false) (tb := false) hc hcs
    (fun u hu => by
      have := idx u hu
      cases side
      · exact (hAd i (by rw [hp]; exact hi) _ this).1
      · exact (hBd i hi _ (by rw [hp] at this; exact this)).1)
    (fun u hu => by
      have := idx u hu
      cases side
      · exact (hBd _ (by rw [hp] at this; exact this) j hj).1
      · exact (hAd _ this j (by rw [hp]; exact hj)).1)
    (fun u _ => TransSafe_ff _ _) (fun u _ hf => hf.elim)
    (fun u _ x x' hx => by cases side <;> exact hx) (fun _ _ => rfl) h
  refine ⟨?_, L.2.1, L.2.2.1, L.2.2.2.1, ?_⟩
  · intro k hk hst
    obtain ⟨u, hu, rfl⟩ := trmmIndex_exists (uplo := uplo) (i := i) (j := j) hd (by rw [← hp]; exact hk) hst
    have := L.1 u hu
    cases side <;> exact this
  · intro x hx y hy hP
    rw [L.2.2.2.2 x hx y hy hP]
    have e : (if trmmCount uplo side (side.pick r s) i j = 0 then (1 : R) else 1) = 1 := by
      split <;> rfl
    simp only [e, one_mul]
    congr 2
    rw [sum_trmmIndex uplo side hd (fun k => prodEntry false false (side.pick (A i k) (B i k))
      (side.pick (B k j) (A k j)) x y), offProd, hp]
    refine Finset.sum_congr rfl (fun k _ => ?_)
    cases side <;> rfl

theorem trmmWith_shape {ex : Prop} {g : GemmT R} (hg : GemmOk ex False g) {side : Side} {uplo : Uplo}
    {trans unit : Bool} {α : R} (fuel : Nat) : ∀ A B B', A.WF → B.WF → B.Square →
      trmmWith g side uplo trans unit α fuel A B = .ok B' →
      B'.WF ∧ B'.Square ∧ B.SameShape B' := by
  induction fuel with
  | zero => intro A B B' _ _ _ h; cases h
  | succ fuel ih =>
    intro A B B' hA hB hBs h
    simp only [trmmWith] at h
    cases A with
    | lowRank a => cases B <;> cases h
    | empty m n => cases B <;> cases h
    | dense a =>
      cases B with
      | empty => cases h
      | dense b =>
        simp only [trmmOmm, except_bind_eq_ok] at h
        obtain ⟨d, hd, h⟩ := h
        cases h
        have := Dense_trmm_ok hd
        exact ⟨trivial, trivial, this.2.2.1.symm, this.2.2.2.1.symm⟩
      | lowRank b =>
        simp only [trmmOmm, except_bind_eq_ok] at h
        obtain ⟨-, -, -, -, d, hd, h⟩ := h
        cases h
        have := Dense_trmm_ok hd
        exact ⟨setOuter_wf hB this.2.2.1 this.2.2.2.1, setOuter_square hBs, setOuter_shape⟩
      | hier r s B =>
        simp only [trmmOmm, except_bind_eq_ok] at h
        obtain ⟨-, -, -, -, AH, hAH, h⟩ := h
        have hn : 1 ≤ side.pick r s := by
          have := hB; simp only [WF] at this
          cases side
          · exact this.1
          · exact this.2.1
        obtain ⟨b, rfl, w, -, -⟩ := split_dense_leaves hn hn hAH
        exact ih _ _ _ w hB hBs h
    | hier p q A =>
      have hA0 := hA
      simp only [WF] at hA0
      cases B with
      | empty => cases h
      | dense b =>
        simp only [trmmOmm, except_bind_eq_ok] at h
        obtain ⟨-, -, -, -, BH, hBH, BH', hBH', h⟩ := h
        have h1 : 1 ≤ side.pick q 1 := by cases side <;> simp [Side.pick] ; omega
        have h2 : 1 ≤ side.pick 1 p := by cases side <;> simp [Side.pick] ; omega
        obtain ⟨bl, rfl, w, -, dl⟩ := split_dense_leaves h1 h2 hBH
        have I := ih _ _ _ hA w (dense_leaves dl).square hBH'
        obtain ⟨d, rfl, e1, e2, -⟩ := joinDense_entries h1 h2 hBH I.2.2 h
        exact ⟨trivial, trivial, e1.symm, e2.symm⟩
      | lowRank b =>
        simp only [trmmOmm, except_bind_eq_ok] at h
        obtain ⟨-, -, -, -, BH, hBH, BH', hBH', X, hX, d, hd, h⟩ := h
        cases h
        have h1 : 1 ≤ side.pick q 1 := by cases side <;> simp [Side.pick] ; omega
        have h2 : 1 ≤ side.pick 1 p := by cases side <;> simp [Side.pick] ; omega
        obtain ⟨bl, rfl, w, -, dl⟩ := split_dense_leaves h1 h2 hBH
        have I := ih _ _ _ hA w (dense_leaves dl).square hBH'
        obtain ⟨d', rfl, e1, e2, -⟩ := joinDense_entries h1 h2 hBH I.2.2 hX
        cases hd
        exact ⟨setOuter_wf hB e1 e2, setOuter_square hBs, setOuter_shape⟩
      | hier r s B =>
        simp only [trmmOmm, trmmHH, except_bind_eq_ok, assertM_eq_ok, decide_eq_true_eq] at h
        obtain ⟨-, rfl, -, hp, -, -, X, hX, h⟩ := h
        cases h
        have hB' := hB
        simp only [WF] at hB'
        have key : ∀ i < r, ∀ j < s, (X i j).WF ∧ (X i j).Square ∧ (B i j).SameShape (X i j) := by
          intro i hi j hj
          have hx := collect2_ok hX i hi j hj
          simp only [except_bind_eq_ok] at hx
          obtain ⟨c, hc, hx⟩ := hx
          have hd : side.pick i j < p := by rw [hp]; cases side <;> simpa [Side.pick]
          have I := ih _ _ _ (hA0.2.2 _ hd _ hd).1 (hB'.2.2 i hi j hj).1 (hBs i hi j hj) hc
          have L := trmmHH_block hg hA hB hp hi hj I.1 I.2.1 hx
          exact ⟨L.2.1, L.2.2.1, I.2.2.trans L.2.2.2.1⟩
        have G := hier_grid (blk := X) (h := fun a => (B a 0).nRows) (w := fun b => (B 0 b).nCols)
          hB'.1 hB'.2.1 (fun i hi j hj => ⟨(key i hi j hj).1, by
            rw [((key i hi j hj).2.2.dims (hB'.2.2 i hi j hj).1).1, (hB'.2.2 i hi j hj).2.1], by
            rw [((key i hi j hj).2.2.dims (hB'.2.2 i hi j hj).1).2, (hB'.2.2 i hi j hj).2.2]⟩)
        exact ⟨G.1, fun i hi j hj => (key i hi j hj).2.1, rfl, rfl, fun i hi j hj => (key i hi j hj).2.2⟩

/-- The split of a square dense matrix has a square diagonal. -/
theorem split_diagSquare {a : Dense R} (ha : a.rows = a.cols) {n : Nat} (hn : 1 ≤ n) {M : Mat R}
    (h : (Mat.dense a).split n n = .ok M) :
    ∃ b, M = .hier n n b ∧ (Mat.hier n n b).WF ∧ SameEntries (.hier n n b) (.dense a) ∧
      (∀ i < n, ∀ j < n, ∃ d, b i j = .dense d) ∧ (Mat.hier n n b).DiagSquare := by
  obtain ⟨b, rfl, w, same, dl⟩ := split_dense_leaves hn hn h
  obtain ⟨b', e, H⟩ := split_isSplit (A := .dense a) trivial hn hn h
  injection e with e1 e2 e3
  subst e3
  refine ⟨b, rfl, w, same, dl, rfl, fun i hi => ?_⟩
  have D := H.dims i hi i hi
  obtain ⟨d, hd⟩ := dl i hi i hi
  rw [hd] at D ⊢
  have e1 : d.rows = evenSize a.rows n i := D.2.1
  have e2 : d.cols = evenSize a.cols n i := D.2.2
  show d.rows = d.cols
  rw [e1, e2, ha]

theorem trmmWith_ok {ex : Prop} {g : GemmT R} (hg : GemmOk ex False g) {side : Side} {uplo : Uplo}
    {trans unit : Bool} {α : R} (fuel : Nat) : ∀ A B B', A.WF → B.WF → B.Square → A.DiagSquare →
      TriFits side A B → A.nRows = side.pick B.nRows B.nCols →
      trmmWith g side uplo trans unit α fuel A B = .ok B' →
      TrmmPost ex side (opFun trans (triEntry uplo unit A)) A.nRows α B B' := by
  induction fuel with
  | zero => intro A B B' _ _ _ _ _ _ h; cases h
  | succ fuel ih =>
    intro A B B' hA hB hBs hD hT hn h
    have S := trmmWith_shape hg (fuel + 1) A B B' hA hB hBs h
    simp only [trmmWith] at h
    cases A with
    | lowRank a => exact hD.elim
    | empty m n => exact hD.elim
    | dense a =>
      cases B with
      | empty => cases h
      | dense b =>
        refine ⟨S.1, S.2.1, S.2.2, fun i hi j hj _ => ?_⟩
        simp only [trmmOmm, except_bind_eq_ok] at h
        obtain ⟨d, hd, h⟩ := h
        cases h
        exact (Dense_trmm_ok hd).2.2.2.2 i j
      | lowRank b =>
        refine ⟨S.1, S.2.1, S.2.2, fun i hi j hj _ => ?_⟩
        simp only [trmmOmm, except_bind_eq_ok] at h
        obtain ⟨-, -, -, -, d, hd, h⟩ := h
        cases h
        exact setOuter_trmm hB (fun x _ y _ => (Dense_trmm_ok hd).2.2.2.2 x y) i hi j hj
      | hier r s B =>
        simp only [trmmOmm, except_bind_eq_ok] at h
        obtain ⟨-, -, -, -, AH, hAH, h⟩ := h
        have hns : 1 ≤ side.pick r s := by
          have := hB; simp only [WF] at this
          cases side
          · exact this.1
          · exact this.2.1
        obtain ⟨b, rfl, w, same, dl, dq⟩ := split_diagSquare hD hns hAH
        have I := ih _ _ _ w hB hBs dq ⟨rfl, fun i hi j hj => by
          have hd : side.pick i j < side.pick r s := by cases side <;> simpa [Side.pick]
          obtain ⟨d, hd⟩ := dl _ hd _ hd
          rw [hd]
          trivial⟩ (by rw [same.1]; exact hn) h
        refine ⟨S.1, S.2.1, S.2.2, fun i hi j hj hP => ?_⟩
        rw [I.ent i hi j hj hP, same.1]
        congr 1
        have E : ∀ x < a.rows, ∀ y < a.rows, triEntry uplo unit (.hier (side.pick r s) (side.pick r s) b) x y =
            triEntry uplo unit (.dense a) x y := by
          intro x hx y hy
          unfold triEntry
          rw [same.2.2 x (by rw [same.1]; exact hx) y (by rw [same.2.1]; show y < a.cols; rw [← show a.rows = a.cols from hD]; exact hy)]
        refine sideProd_congr (fun l hl => ?_) (fun l hl => by cases side <;> rfl)
        have hl : l < a.rows := hl
        have hn : a.rows = side.pick (Mat.hier r s B).nRows (Mat.hier r s B).nCols := hn
        cases side
        · have hi : i < a.rows := by rw [hn]; exact hi
          cases trans
          · exact E i hi l hl
          · exact E l hl i hi
        · have hj : j < a.rows := by rw [hn]; exact hj
          cases trans
          · exact E l hl j hj
          · exact E j hj l hl
    | hier p q A =>
      have hA0 := hA
      simp only [WF] at hA0
      have hpq : p = q := hD.1
      have h1 : 1 ≤ side.pick q 1 := by cases side <;> simp [Side.pick] ; omega
      have h2 : 1 ≤ side.pick 1 p := by cases side <;> simp [Side.pick] ; omega
      -- the split right-hand side
      have core : ∀ (b : Dense R) (BH BH' : Mat R) (X : Mat R),
          (Mat.hier p q A).nRows = side.pick b.rows b.cols →
          (Mat.dense b).split (side.pick q 1) (side.pick 1 p) = .ok BH →
          trmmWith g side uplo trans unit α fuel (.hier p q A) BH = .ok BH' →
          joinDense b BH' = .ok X →
          ∃ d, X = .dense d ∧ d.rows = b.rows ∧ d.cols = b.cols ∧
            ∀ i < b.rows, ∀ j < b.cols, d.val i j =
              α * sideProd side (Mat.hier p q A).nRows (opFun trans (triEntry uplo unit (.hier p q A)))
                (.dense b) i j := by
        intro b BH BH' X hb hBH hBH' hX
        obtain ⟨bl, rfl, w, same, dl⟩ := split_dense_leaves h1 h2 hBH
        have I := ih _ _ _ hA w (dense_leaves dl).square hD ⟨by cases side <;> simp [Side.pick]; exact hpq,
          fun i hi j hj => by
            obtain ⟨d, hd⟩ := dl i hi j hj
            rw [hd]
            exact TriFits_dense _ _ _⟩ (by rw [hb, same.1, same.2.1]; rfl) hBH'
        obtain ⟨d, rfl, e1, e2, e3⟩ := joinDense_entries h1 h2 hBH I.shape hX
        refine ⟨d, rfl, e1, e2, fun i hi j hj => ?_⟩
        have hi' : i < (Mat.hier (side.pick q 1) (side.pick 1 p) bl).nRows := by rw [same.1]; exact hi
        have hj' : j < (Mat.hier (side.pick q 1) (side.pick 1 p) bl).nCols := by rw [same.2.1]; exact hj
        rw [e3 i hi j hj, I.ent i hi' j hj' (Or.inl ((dense_leaves dl).denseAt hi' hj' w))]
        congr 1
        refine sideProd_congr (fun l _ => by cases side <;> rfl) (fun l hl => ?_)
        cases side
        · exact same.2.2 l (by rw [same.1]; rw [hb] at hl; exact hl) j hj'
        · exact same.2.2 i hi' l (by rw [same.2.1]; rw [hb] at hl; exact hl)
      cases B with
      | empty => cases h
      | dense b =>
        simp only [trmmOmm, except_bind_eq_ok] at h
        obtain ⟨-, -, -, -, BH, hBH, BH', hBH', h⟩ := h
        obtain ⟨d, rfl, -, -, e⟩ := core b BH BH' B' hn hBH hBH' h
        exact ⟨S.1, S.2.1, S.2.2, fun i hi j hj _ => e i hi j hj⟩
      | lowRank b =>
        simp only [trmmOmm, except_bind_eq_ok] at h
        obtain ⟨-, -, -, -, BH, hBH, BH', hBH', X, hX, d, hd, h⟩ := h
        cases h
        have hb : b.WF := hB
        obtain ⟨d', rfl, -, -, e⟩ := core (b.outer side) BH BH' X (by
          rw [hn]
          cases side
          · exact hb.urows.symm
          · exact hb.vcols.symm) hBH hBH' hX
        cases hd
        exact ⟨S.1, S.2.1, S.2.2, fun i hi j hj _ => setOuter_trmm hB e i hi j hj⟩
      | hier r s B =>
        simp only [trmmOmm, trmmHH, except_bind_eq_ok, assertM_eq_ok, decide_eq_true_eq] at h
        obtain ⟨-, rfl, -, hp, -, htr, X, hX, h⟩ := h
        cases h
        have htr : trans = false := by cases trans <;> simp at htr ⊢
        subst htr
        have hB' := hB
        simp only [WF] at hB'
        have dlt : ∀ i < r, ∀ j < s, side.pick i j < p := fun i hi j hj => by
          rw [hp]; cases side <;> simpa [Side.pick]
        -- the first step and the rest of the loop of every block
        have key : ∀ i < r, ∀ j < s, ∃ c,
            trmmWith g side uplo false unit α fuel (A (side.pick i j) (side.pick i j)) (B i j) = .ok c ∧
            (B i j).SameShape c ∧
            (∀ k < p, strictB uplo side (side.pick i j) k = true →
              side.pick (GemmDims false false (A i k) (B k j) c) (GemmDims false false (B i k) (A k j) c)) ∧
            ∀ x < c.nRows, ∀ y < c.nCols, (c.denseAt x y ∨ ex) →
              (X i j).entry x y = α * offProd uplo side p A B i j x y + c.entry x y := by
          intro i hi j hj
          have hx := collect2_ok hX i hi j hj
          simp only [except_bind_eq_ok] at hx
          obtain ⟨c, hc, hx⟩ := hx
          have hd := dlt i hi j hj
          have I := trmmWith_shape hg fuel _ _ _ (hA0.2.2 _ hd _ hd).1 (hB'.2.2 i hi j hj).1
            (hBs i hi j hj) hc
          have L := trmmHH_block hg hA hB hp hi hj I.1 I.2.1 hx
          exact ⟨c, hc, I.2.2, L.1, L.2.2.2.2⟩
        have hh := tri_heights (uplo := uplo) hD hA hB hp hn (fun i hi j hj k hk hs => by
          obtain ⟨c, -, sh, gd, -⟩ := key i hi j hj
          have dm := sh.dims (hB'.2.2 i hi j hj).1
          have := gd k hk hs
          cases side
          · exact ⟨this.rows.trans dm.1, this.inner, this.cols.trans dm.2⟩
          · exact ⟨this.rows.trans dm.1, this.inner, this.cols.trans dm.2⟩)
        refine trmm_blocks hD hA hB hp hh (fun i hi j hj => ⟨?_, S.2.1 i hi j hj, S.2.2.2.2 i hi j hj⟩) ?_
        · have := S.1
          simp only [WF] at this
          exact (this.2.2 i hi j hj).1
        · intro i hi j hj x hx y hy hP
          obtain ⟨c, hc, sh, -, e⟩ := key i hi j hj
          have hd := dlt i hi j hj
          have dm := sh.dims (hB'.2.2 i hi j hj).1
          have I := ih _ _ _ (hA0.2.2 _ hd _ hd).1 (hB'.2.2 i hi j hj).1 (hBs i hi j hj)
            (hD.2 _ hd) (hT.2 i hi j hj) (by
              have e1 := hh _ hd
              rw [(hA0.2.2 _ hd _ hd).2.1, e1]
              cases side
              · exact ((hB'.2.2 i hi j hj).2.1).symm
              · exact ((hB'.2.2 i hi j hj).2.2).symm) hc
          rw [e x (by rw [dm.1]; exact hx) y (by rw [dm.2]; exact hy)
            (by rwa [sh.denseAt (hB'.2.2 i hi j hj).1 hx hy]), I.ent x hx y hy hP, mul_add, add_comm]
          rfl

/-- A successful multiplication had fitting operands. -/
theorem trmmWith_fits {ex : Prop} {g : GemmT R} (hg : GemmOk ex False g) {side : Side} {uplo : Uplo}
    {trans unit : Bool} {α : R} (fuel : Nat) : ∀ A B B', A.WF → B.WF → B.Square → A.DiagSquare →
      trmmWith g side uplo trans unit α fuel A B = .ok B' →
      TriFits side A B ∧ A.nRows = side.pick B.nRows B.nCols := by
  induction fuel with
  | zero => intro A B B' _ _ _ _ h; cases h
  | succ fuel ih =>
    intro A B B' hA hB hBs hD h
    simp only [trmmWith] at h
    cases A with
    | lowRank a => exact hD.elim
    | empty m n => exact hD.elim
    | dense a =>
      cases B with
      | empty => cases h
      | dense b =>
        simp only [trmmOmm, except_bind_eq_ok] at h
        obtain ⟨d, hd, h⟩ := h
        exact ⟨trivial, (Dense_trmm_ok hd).2.1⟩
      | lowRank b =>
        simp only [trmmOmm, except_bind_eq_ok, assertM_eq_ok, decide_eq_true_eq] at h
        obtain ⟨-, -, -, e, -⟩ := h
        exact ⟨trivial, e⟩
      | hier r s B =>
        simp only [trmmOmm, except_bind_eq_ok, assertM_eq_ok, decide_eq_true_eq] at h
        obtain ⟨-, -, -, e, -⟩ := h
        exact ⟨trivial, e⟩
    | hier p q A =>
      cases B with
      | empty => cases h
      | dense b =>
        simp only [trmmOmm, except_bind_eq_ok, assertM_eq_ok, decide_eq_true_eq] at h
        obtain ⟨-, -, -, e, -⟩ := h
        exact ⟨trivial, e⟩
      | lowRank b =>
        simp only [trmmOmm, except_bind_eq_ok, assertM_eq_ok, decide_eq_true_eq] at h
        obtain ⟨-, -, -, e, -⟩ := h
        exact ⟨trivial, e⟩
      | hier r s B =>
        simp only [trmmOmm, trmmHH, except_bind_eq_ok, assertM_eq_ok, decide_eq_true_eq] at h
        obtain ⟨-, rfl, -, hp, -, -, X, hX, -⟩ := h
        have hB' := hB
        have hA' := hA
        simp only [WF] at hB' hA'
        have dlt : ∀ i < r, ∀ j < s, side.pick i j < p := fun i hi j hj => by
          rw [hp]; cases side <;> simpa [Side.pick]
        have key : ∀ i < r, ∀ j < s, TriFits side (A (side.pick i j) (side.pick i j)) (B i j) ∧
            (A (side.pick i j) (side.pick i j)).nRows = side.pick (B i j).nRows (B i j).nCols := by
          intro i hi j hj
          have hx := collect2_ok hX i hi j hj
          simp only [except_bind_eq_ok] at hx
          obtain ⟨c, hc, hx⟩ := hx
          have hd := dlt i hi j hj
          exact ih _ _ _ (hA'.2.2 _ hd _ hd).1 (hB'.2.2 i hi j hj).1 (hBs i hi j hj) (hD.2 _ hd) hc
        refine ⟨⟨hp, fun i hi j hj => (key i hi j hj).1⟩, ?_⟩
        rw [nRows_hier, nRows_hier, nCols_hier, hp]
        cases side
        · exact psum_congr (fun k hk => by
            have := (key k hk 0 hB'.2.1).2
            rw [(hA'.2.2 _ (dlt k hk 0 hB'.2.1) _ (dlt k hk 0 hB'.2.1)).2.1] at this
            exact this)
        · exact psum_congr (fun k hk => by
            have := (key 0 hB'.1 k hk).2
            rw [(hA'.2.2 _ (dlt 0 hB'.1 k hk) _ (dlt 0 hB'.1 k hk)).2.1] at this
            exact this)

end Mat
end Verif
