import Verif.Spec.Tri
import Verif.Lemmas.GemmTop

set_option linter.unusedSectionVars false
set_option linter.unusedVariables false

namespace Verif
open Finset

variable {R : Type}

theorem Side.pick_left {α : Type _} (x y : α) : Side.left.pick x y = x := rfl
theorem Side.pick_right {α : Type _} (x y : α) : Side.right.pick x y = y := rfl

namespace Mat

/-! ### triangular matrices in blocks -/

/-- Is block `k` among the off-diagonal blocks of the triangle that meet the
diagonal block `d`? -/
def strictB (uplo : Uplo) (side : Side) (d k : Nat) : Bool :=
  match uplo, side with
  | .upper, .left => decide (d < k)
  | .upper, .right => decide (k < d)
  | .lower, .left => decide (k < d)
  | .lower, .right => decide (d < k)

theorem strictB_self (uplo : Uplo) (side : Side) (d : Nat) : strictB uplo side d d = false := by
  cases uplo <;> cases side <;> simp [strictB]

theorem DiagSquare.dims [CommRing R] {A : Mat R} (h : A.DiagSquare) (hA : A.WF) : A.nRows = A.nCols := by
  induction A with
  | dense d => exact h
  | lowRank l => exact h.elim
  | empty => exact h.elim
  | hier p q A ih =>
    obtain ⟨rfl, h⟩ := h
    simp only [WF] at hA
    obtain ⟨hp, -, hd⟩ := hA
    rw [nRows_hier, nCols_hier]
    refine psum_congr (fun a ha => ?_)
    rw [← (hd a ha a ha).2.1, ← (hd a ha a ha).2.2]
    exact ih a a (h a ha) (hd a ha a ha).1

section
variable [CommRing R]

/-- Row heights and column widths of a matrix with square diagonal agree. -/
theorem DiagSquare.widths {p q : Nat} {A : Nat → Nat → Mat R} (h : (Mat.hier p q A).DiagSquare)
    (hA : (Mat.hier p q A).WF) : ∀ k < p, (A 0 k).nCols = (A k 0).nRows := by
  intro k hk
  obtain ⟨rfl, h⟩ := h
  simp only [WF] at hA
  obtain ⟨hp, -, hd⟩ := hA
  rw [← (hd k hk k hk).2.1, ← (hd k hk k hk).2.2]
  exact ((h k hk).dims (hd k hk k hk).1).symm

theorem triEntry_block {p q : Nat} {A : Nat → Nat → Mat R} (h : (Mat.hier p q A).DiagSquare)
    (hA : (Mat.hier p q A).WF) (uplo : Uplo) (unit : Bool) {a b r s : Nat} (ha : a < p) (hb : b < p)
    (hr : r < (A a 0).nRows) (hs : s < (A b 0).nRows) :
    triEntry uplo unit (.hier p q A) (psum (fun k => (A k 0).nRows) a + r)
        (psum (fun k => (A k 0).nRows) b + s) =
      if b = a then triEntry uplo unit (A a a) r s
      else if strictB uplo .left a b then (A a b).entry r s else 0 := by
  have hw := h.widths hA
  have e : psum (fun k => (A k 0).nRows) b = psum (fun k => (A 0 k).nCols) b :=
    psum_congr (fun k hk => (hw k (by omega)).symm)
  have hq : p = q := h.1
  have E : (Mat.hier p q A).entry (psum (fun k => (A k 0).nRows) a + r)
      (psum (fun k => (A k 0).nRows) b + s) = (A a b).entry r s := by
    rw [e]
    exact entry_block ha (by omega) hr (by rw [hw b hb]; exact hs)
  unfold triEntry
  rw [E]
  by_cases hab : b = a
  · subst hab
    simp only [Nat.add_left_cancel_iff, Nat.add_lt_add_iff_left, if_true]
  · rw [if_neg hab]
    rcases Nat.lt_or_gt_of_ne hab with hlt | hlt
    · have := psum_le (fun k => (A k 0).nRows) hlt
      have h1 : ¬ (psum (fun k => (A k 0).nRows) a + r = psum (fun k => (A k 0).nRows) b + s) := by
        omega
      have h2 : (psum (fun k => (A k 0).nRows) b + s < psum (fun k => (A k 0).nRows) a + r) := by
        omega
      rw [if_neg h1]
      cases uplo
      · have hs : strictB .upper .left a b = false := by simp only [strictB, decide_eq_false_iff_not]; omega
        simp only [hs, Bool.false_eq_true, if_false]
        rw [if_neg (by omega)]
      · have hs : strictB .lower .left a b = true := by simp only [strictB, decide_eq_true_eq]; omega
        simp only [hs, if_true]
        rw [if_pos h2]
    · have := psum_le (fun k => (A k 0).nRows) hlt
      have h1 : ¬ (psum (fun k => (A k 0).nRows) a + r = psum (fun k => (A k 0).nRows) b + s) := by
        omega
      have h2 : (psum (fun k => (A k 0).nRows) a + r < psum (fun k => (A k 0).nRows) b + s) := by
        omega
      rw [if_neg h1]
      cases uplo
      · have hs : strictB .upper .left a b = true := by simp only [strictB, decide_eq_true_eq]; omega
        simp only [hs, if_true]
        rw [if_pos h2]
      · have hs : strictB .lower .left a b = false := by simp only [strictB, decide_eq_false_iff_not]; omega
        simp only [hs, Bool.false_eq_true, if_false]
        rw [if_neg (by omega)]

theorem prodEntry_ff (A B : Mat R) (i j : Nat) :
    prodEntry false false A B i j = ∑ l ∈ range A.nCols, A.entry i l * B.entry l j := rfl

theorem sum_diag_strict {p d : Nat} (hd : d < p) (uplo : Uplo) (side : Side) (D : R) (P : Nat → R)
    {F : Nat → R} (hF : ∀ k < p, F k = if k = d then D else if strictB uplo side d k then P k else 0) :
    ∑ k ∈ range p, F k = D + ∑ k ∈ range p, if strictB uplo side d k then P k else 0 := by
  have : ∀ k ∈ range p, F k = (if k = d then D else 0) + (if strictB uplo side d k then P k else 0) := by
    intro k hk
    rw [hF k (mem_range.1 hk)]
    by_cases h : k = d
    · subst h
      simp [strictB_self]
    · simp [h]
  rw [Finset.sum_congr rfl this, Finset.sum_add_distrib]
  congr 1
  rw [Finset.sum_ite_eq' (range p) d (fun _ => D), if_pos (mem_range.2 hd)]

/-- The product with the triangle of a block matrix, in blocks. -/
theorem sideProd_block {p q r s : Nat} {A X : Nat → Nat → Mat R} (h : (Mat.hier p q A).DiagSquare)
    (hA : (Mat.hier p q A).WF) (hX : (Mat.hier r s X).WF) (uplo : Uplo) (side : Side) (unit : Bool)
    (hp : p = side.pick r s)
    (hh : ∀ k < p, (A k 0).nRows = side.pick (X k 0).nRows (X 0 k).nCols)
    {i j x y : Nat} (hi : i < r) (hj : j < s) (hx : x < (X i 0).nRows) (hy : y < (X 0 j).nCols) :
    sideProd side (Mat.hier p q A).nRows (triEntry uplo unit (.hier p q A)) (.hier r s X)
        (psum (fun k => (X k 0).nRows) i + x) (psum (fun k => (X 0 k).nCols) j + y) =
      sideProd side (A (side.pick i j) (side.pick i j)).nRows
        (triEntry uplo unit (A (side.pick i j) (side.pick i j))) (X i j) x y +
      ∑ k ∈ range p, if strictB uplo side (side.pick i j) k then
        side.pick (prodEntry false false (A i k) (X k j) x y)
          (prodEntry false false (X i k) (A k j) x y) else 0 := by
  have hq : p = q := h.1
  have hA' := hA
  simp only [WF] at hA'
  obtain ⟨hp0, -, hd⟩ := hA'
  have hX' := hX
  simp only [WF] at hX'
  obtain ⟨hr0, hs0, hXd⟩ := hX'
  have hw := h.widths hA
  cases side with
  | left =>
    simp only [Side.pick_left] at *
    subst hp
    simp only [sideProd]
    rw [nRows_hier, sum_blocks]
    have e1 : ∀ k ≤ p, psum (fun k => (X k 0).nRows) k = psum (fun k => (A k 0).nRows) k :=
      fun k hk => psum_congr (fun a ha => (hh a (by omega)).symm)
    refine sum_diag_strict hi uplo .left _ _ (fun k hk => ?_)
    have T : ∀ l < (A k 0).nRows,
        triEntry uplo unit (Mat.hier p q A) (psum (fun k => (X k 0).nRows) i + x)
          (psum (fun k => (A k 0).nRows) k + l) *
        (Mat.hier p s X).entry (psum (fun k => (A k 0).nRows) k + l)
          (psum (fun k => (X 0 k).nCols) j + y) =
        (if k = i then triEntry uplo unit (A i i) x l
          else if strictB uplo .left i k then (A i k).entry x l else 0) * (X k j).entry l y := by
      intro l hl
      rw [e1 i (by omega), triEntry_block h hA uplo unit hi hk (by rw [hh i hi]; exact hx) hl]
      congr 1
      rw [← e1 k (by omega)]
      exact entry_block hk hj (by rw [← hh k hk]; exact hl) hy
    rw [Finset.sum_congr rfl (fun l hl => T l (mem_range.1 hl))]
    by_cases hki : k = i
    · subst hki
      simp only [if_true]
      rw [(hd k hk k (by omega)).2.1]
    · simp only [if_neg hki]
      by_cases hs : strictB uplo .left i k = true
      · simp only [hs, if_true]
        rw [prodEntry_ff, (hd i hi k (by omega)).2.2, hw k hk]
      · simp only [hs, Bool.false_eq_true, if_false, zero_mul, Finset.sum_const_zero]
  | right =>
    simp only [Side.pick_right] at *
    subst hp
    simp only [sideProd]
    rw [nRows_hier, sum_blocks]
    have e1 : ∀ k ≤ p, psum (fun k => (X 0 k).nCols) k = psum (fun k => (A k 0).nRows) k :=
      fun k hk => psum_congr (fun a ha => (hh a (by omega)).symm)
    have sw : ∀ d k, strictB uplo .right d k = strictB uplo .left k d := by
      intro d k; cases uplo <;> rfl
    refine sum_diag_strict hj uplo .right _ _ (fun k hk => ?_)
    have T : ∀ l < (A k 0).nRows,
        (Mat.hier r p X).entry (psum (fun k => (X k 0).nRows) i + x)
          (psum (fun k => (A k 0).nRows) k + l) *
        triEntry uplo unit (Mat.hier p q A) (psum (fun k => (A k 0).nRows) k + l)
          (psum (fun k => (X 0 k).nCols) j + y) =
        (X i k).entry x l * (if k = j then triEntry uplo unit (A j j) l y
          else if strictB uplo .right j k then (A k j).entry l y else 0) := by
      intro l hl
      rw [e1 j (by omega), triEntry_block h hA uplo unit hk hj hl (by rw [hh j hj]; exact hy), sw]
      congr 1
      · rw [← e1 k (by omega)]
        exact entry_block hi hk hx (by rw [← hh k hk]; exact hl)
      · by_cases hkj : k = j
        · subst hkj; simp
        · rw [if_neg hkj, if_neg (fun e => hkj e.symm)]
    rw [Finset.sum_congr rfl (fun l hl => T l (mem_range.1 hl))]
    by_cases hki : k = j
    · subst hki
      simp only [if_true]
      rw [(hd k hk k (by omega)).2.1]
    · simp only [if_neg hki]
      by_cases hs : strictB uplo .right j k = true
      · simp only [hs, if_true]
        rw [prodEntry_ff, (hXd i hi k hk).2.2, ← hh k hk]
      · simp only [hs, Bool.false_eq_true, if_false, mul_zero, Finset.sum_const_zero]

theorem heights_of_pairs {p : Nat} {a b : Nat → Nat} (tot : psum a p = psum b p)
    (pairs : ∀ d k, k < d → d < p → a d = b d ∧ a k = b k) : ∀ k < p, a k = b k := by
  intro k hk
  by_cases h1 : p = 1
  · subst h1
    have : k = 0 := by omega
    subst this
    simpa [psum] using tot
  · by_cases hk0 : k = 0
    · subst hk0
      exact (pairs 1 0 (by omega) (by omega)).2
    · exact (pairs k 0 (by omega) hk).1

/-- The block sizes of a triangular matrix and of the other operand agree if all
products of the substitution have fitting dimensions. -/
theorem tri_heights {p q r s : Nat} {A Y : Nat → Nat → Mat R} (h : (Mat.hier p q A).DiagSquare)
    (hA : (Mat.hier p q A).WF) (hY : (Mat.hier r s Y).WF) {uplo : Uplo} {side : Side}
    (hp : p = side.pick r s)
    (hn : (Mat.hier p q A).nRows = side.pick (Mat.hier r s Y).nRows (Mat.hier r s Y).nCols)
    (dims : ∀ i < r, ∀ j < s, ∀ k < p, strictB uplo side (side.pick i j) k = true →
      side.pick (GemmDims false false (A i k) (Y k j) (Y i j))
        (GemmDims false false (Y i k) (A k j) (Y i j))) :
    ∀ k < p, (A k 0).nRows = side.pick (Y k 0).nRows (Y 0 k).nCols := by
  have hq : p = q := h.1
  have hw := h.widths hA
  have hA' := hA
  simp only [WF] at hA'
  obtain ⟨hp0, -, hd⟩ := hA'
  have hY' := hY
  simp only [WF] at hY'
  obtain ⟨hr0, hs0, hYd⟩ := hY'
  cases side with
  | left =>
    simp only [Side.pick_left] at *
    subst hp
    rw [nRows_hier, nRows_hier] at hn
    refine heights_of_pairs hn ?_
    have P : ∀ d < p, ∀ k < p, strictB uplo .left d k = true →
        (A d 0).nRows = (Y d 0).nRows ∧ (A k 0).nRows = (Y k 0).nRows := by
      intro d hd' k hk hst
      have G := dims d hd' 0 hs0 k hk hst
      have e1 : (A d k).nRows = (Y d 0).nRows := G.rows
      have e2 : (A d k).nCols = (Y k 0).nRows := G.inner
      rw [(hd d hd' k (by omega)).2.1] at e1
      rw [(hd d hd' k (by omega)).2.2, hw k hk] at e2
      exact ⟨e1, e2⟩
    intro d k hkd hdp
    cases uplo with
    | upper => exact (P k (by omega) d hdp (by simp [strictB, hkd])).symm
    | lower => exact P d hdp k (by omega) (by simp [strictB, hkd])
  | right =>
    simp only [Side.pick_right] at *
    subst hp
    rw [nRows_hier, nCols_hier] at hn
    refine heights_of_pairs hn ?_
    have P : ∀ d < p, ∀ k < p, strictB uplo .right d k = true →
        (A d 0).nRows = (Y 0 d).nCols ∧ (A k 0).nRows = (Y 0 k).nCols := by
      intro d hd' k hk hst
      have G := dims 0 hr0 d hd' k hk hst
      have e1 : (Y 0 k).nCols = (A k d).nRows := G.inner
      have e2 : (A k d).nCols = (Y 0 d).nCols := G.cols
      rw [(hd k hk d (by omega)).2.1] at e1
      rw [(hd k hk d (by omega)).2.2, hw d hd'] at e2
      exact ⟨e2, e1.symm⟩
    intro d k hkd hdp
    cases uplo with
    | upper => exact P d hdp k (by omega) (by simp [strictB, hkd])
    | lower => exact (P k (by omega) d hdp (by simp [strictB, hkd])).symm

/-! ### what the operations achieve -/

/-- `B'` is `alpha * T * B` (or `alpha * B * T`), with the structure of `B`. -/
structure TrmmPost (ex : Prop) (side : Side) (T : Nat → Nat → R) (n : Nat) (α : R) (B B' : Mat R) :
    Prop where
  wf : B'.WF
  sqr : B'.Square
  shape : B.SameShape B'
  ent : ∀ i < B.nRows, ∀ j < B.nCols, (B.denseAt i j ∨ ex) →
    B'.entry i j = α * sideProd side n T B i j

/-- `T * B' = B` (or `B' * T = B`), with the structure of `B`. -/
structure TrsmPost (ex : Prop) (side : Side) (T : Nat → Nat → R) (n : Nat) (B B' : Mat R) : Prop where
  wf : B'.WF
  sqr : B'.Square
  shape : B.SameShape B'
  ent : ∀ i < B.nRows, ∀ j < B.nCols, (B.denseAt i j ∨ ex) → sideProd side n T B' i j = B.entry i j

/-- Off-diagonal part of the product of block row (column) `d` of the triangle. -/
def offProd (uplo : Uplo) (side : Side) (p : Nat) (A X : Nat → Nat → Mat R) (i j x y : Nat) : R :=
  ∑ k ∈ range p, if strictB uplo side (side.pick i j) k then
    side.pick (prodEntry false false (A i k) (X k j) x y)
      (prodEntry false false (X i k) (A k j) x y) else 0

theorem trmm_blocks {ex : Prop} {p q r s : Nat} {A B X : Nat → Nat → Mat R}
    (h : (Mat.hier p q A).DiagSquare) (hA : (Mat.hier p q A).WF) (hB : (Mat.hier r s B).WF)
    {uplo : Uplo} {side : Side} {unit : Bool} {α : R} (hp : p = side.pick r s)
    (hh : ∀ k < p, (A k 0).nRows = side.pick (B k 0).nRows (B 0 k).nCols)
    (key : ∀ i < r, ∀ j < s, (X i j).WF ∧ (X i j).Square ∧ (B i j).SameShape (X i j))
    (ent : ∀ i < r, ∀ j < s, ∀ x < (B i j).nRows, ∀ y < (B i j).nCols, ((B i j).denseAt x y ∨ ex) →
      (X i j).entry x y = α * (sideProd side (A (side.pick i j) (side.pick i j)).nRows
        (triEntry uplo unit (A (side.pick i j) (side.pick i j))) (B i j) x y +
        offProd uplo side p A B i j x y)) :
    TrmmPost ex side (triEntry uplo unit (.hier p q A)) (Mat.hier p q A).nRows α (.hier r s B)
      (.hier r s X) := by
  have hB' := hB
  simp only [WF] at hB'
  obtain ⟨hr0, hs0, hBd⟩ := hB'
  have Bw := blockwise (g := X) hB
    (fun i j => α * sideProd side (Mat.hier p q A).nRows (triEntry uplo unit (.hier p q A))
      (.hier r s B) i j) ex
    (fun i hi j hj => by
      refine ⟨(key i hi j hj).1, (key i hi j hj).2.2, fun x hx y hy hP => ?_⟩
      rw [ent i hi j hj x (by rw [(hBd i hi j hj).2.1]; exact hx) y
        (by rw [(hBd i hi j hj).2.2]; exact hy) hP]
      show _ = _
      rw [sideProd_block h hA hB uplo side unit hp hh hi hj hx hy]
      rfl)
  exact ⟨Bw.1, fun i hi j hj => (key i hi j hj).2.1, Bw.2.1, Bw.2.2⟩

theorem trsm_blocks {ex : Prop} {p q r s : Nat} {A B X : Nat → Nat → Mat R}
    (h : (Mat.hier p q A).DiagSquare) (hA : (Mat.hier p q A).WF) (hB : (Mat.hier r s B).WF)
    {uplo : Uplo} {side : Side} {unit : Bool} (hp : p = side.pick r s)
    (hh : ∀ k < p, (A k 0).nRows = side.pick (X k 0).nRows (X 0 k).nCols)
    (key : ∀ i < r, ∀ j < s, (X i j).WF ∧ (X i j).Square ∧ (B i j).SameShape (X i j))
    (ent : ∀ i < r, ∀ j < s, ∀ x < (B i j).nRows, ∀ y < (B i j).nCols, ((B i j).denseAt x y ∨ ex) →
      sideProd side (A (side.pick i j) (side.pick i j)).nRows
        (triEntry uplo unit (A (side.pick i j) (side.pick i j))) (X i j) x y +
        offProd uplo side p A X i j x y = (B i j).entry x y) :
    TrsmPost ex side (triEntry uplo unit (.hier p q A)) (Mat.hier p q A).nRows (.hier r s B)
      (.hier r s X) := by
  have hB' := hB
  simp only [WF] at hB'
  obtain ⟨hr0, hs0, hBd⟩ := hB'
  have G := hier_grid (blk := X) (h := fun a => (B a 0).nRows) (w := fun b => (B 0 b).nCols)
    hr0 hs0 (fun i hi j hj => ⟨(key i hi j hj).1, by
      rw [((key i hi j hj).2.2.dims (hBd i hi j hj).1).1, (hBd i hi j hj).2.1], by
      rw [((key i hi j hj).2.2.dims (hBd i hi j hj).1).2, (hBd i hi j hj).2.2]⟩)
  have G0 := hier_grid (blk := B) (h := fun a => (B a 0).nRows) (w := fun b => (B 0 b).nCols)
    hr0 hs0 hBd
  refine ⟨G.1, fun i hi j hj => (key i hi j hj).2.1, ⟨rfl, rfl, fun i hi j hj => (key i hi j hj).2.2⟩, ?_⟩
  intro i hi j hj hP
  rw [nRows_hier] at hi
  rw [nCols_hier] at hj
  obtain ⟨a, ha, x, hx, rfl⟩ := exists_block _ _ _ hi
  obtain ⟨b, hb, y, hy, rfl⟩ := exists_block _ _ _ hj
  rw [(G0.2.2.2 a ha b hb x hx y hy).1,
    ← ent a ha b hb x (by rw [(hBd a ha b hb).2.1]; exact hx) y (by rw [(hBd a ha b hb).2.2]; exact hy)
      (by rwa [← (G0.2.2.2 a ha b hb x hx y hy).2.1])]
  have e1 : ∀ k < r, (B k 0).nRows = (X k 0).nRows := fun k hk =>
    (((key k hk 0 hs0).2.2.dims (hBd k hk 0 hs0).1).1).symm
  have e2 : ∀ k < s, (B 0 k).nCols = (X 0 k).nCols := fun k hk =>
    (((key 0 hr0 k hk).2.2.dims (hBd 0 hr0 k hk).1).2).symm
  rw [psum_congr (h' := fun k => (X k 0).nRows) (fun k hk => e1 k (by omega)),
    psum_congr (h' := fun k => (X 0 k).nCols) (fun k hk => e2 k (by omega))]
  exact sideProd_block h hA G.1 uplo side unit hp hh ha hb (by rw [← e1 a ha]; exact hx)
    (by rw [← e2 b hb]; exact hy)

/-! ### leaves -/

theorem DenseLeaves_dense (d : Dense R) : (Mat.dense d).DenseLeaves := trivial

/-- A dense matrix updated through its split. -/
theorem joinDense_entries {c : Dense R} {nr nc : Nat} {CH CH' D : Mat R} (hr1 : 1 ≤ nr) (hc1 : 1 ≤ nc)
    (hs : (Mat.dense c).split nr nc = .ok CH) (sh : CH.SameShape CH') (hj : joinDense c CH' = .ok D) :
    ∃ d, D = .dense d ∧ d.rows = c.rows ∧ d.cols = c.cols ∧
      ∀ i < c.rows, ∀ j < c.cols, d.val i j = CH'.entry i j := by
  obtain ⟨b, rfl, w, same, hd⟩ := split_dense_leaves hr1 hc1 hs
  have dims := sh.dims w
  cases CH' <;> try cases hj
  rename_i m n blk
  simp only [joinDense, except_bind_eq_ok] at hj
  obtain ⟨e, he, hj⟩ := hj
  cases hj
  refine ⟨_, rfl, rfl, rfl, ?_⟩
  intro i hi j hj
  have hi2 : i < (Mat.hier nr nc b).nRows := by rw [same.1]; exact hi
  have hj2 : j < (Mat.hier nr nc b).nCols := by rw [same.2.1]; exact hj
  rw [← dims.1, nRows_hier] at hi2
  rw [← dims.2, nCols_hier] at hj2
  obtain ⟨p, hp, r, hr, rfl⟩ := exists_block _ _ _ hi2
  obtain ⟨q, hq, s, hs, rfl⟩ := exists_block _ _ _ hj2
  rw [entry_block hp hq hr hs, asDense_ok (collect2_ok he p hp q hq)]
  simp only [entry, joinVal, locate_at (fun a => (blk a 0).nRows) m p r hp hr,
    locate_at (fun a => (blk 0 a).nCols) n q s hq hs]

theorem TriFits_dense (side : Side) (A : Mat R) (b : Dense R) : TriFits side A (.dense b) := by
  cases A <;> trivial

theorem TriFits.shape {side : Side} {A B B' : Mat R} (h : TriFits side A B) (hs : B.SameShape B') :
    TriFits side A B' := by
  induction A generalizing B B' with
  | dense a => cases B' <;> trivial
  | lowRank a => cases B' <;> trivial
  | empty => cases B' <;> trivial
  | hier p q A ih =>
    cases B <;> cases B' <;> first | trivial | exact hs.elim | skip
    obtain ⟨rfl, rfl, hs⟩ := hs
    exact ⟨h.1, fun i hi j hj => ih _ _ (h.2 i hi j hj) (hs i hi j hj)⟩

theorem setOuter_wf {l : LowRank R} (h : l.WF) {side : Side} {X : Dense R}
    (h0 : X.rows = (l.outer side).rows) (h1 : X.cols = (l.outer side).cols) : (l.setOuter side X).WF := by
  cases side
  · exact ⟨h0.trans h.urows, h1.trans h.ucols, h.srows, h.vrows, h.vcols⟩
  · exact ⟨h.urows, h.ucols, h.srows, h0.trans h.vrows, h1.trans h.vcols⟩

theorem setOuter_shape {l : LowRank R} {side : Side} {X : Dense R} :
    (Mat.lowRank l).SameShape (.lowRank (l.setOuter side X)) := by
  cases side <;> exact ⟨rfl, rfl⟩

theorem setOuter_square {l : LowRank R} (h : l.Square) {side : Side} {X : Dense R} :
    (l.setOuter side X).Square := by
  cases side <;> exact h

/-- Multiplying the outer factor multiplies the low-rank matrix. -/
theorem sideProd_lowRank (side : Side) (n : Nat) (T : Nat → Nat → R) (l : LowRank R) (i j : Nat) :
    sideProd side n T (.lowRank l) i j = side.pick
      (mm l.S.cols (mm l.S.rows (mm n T l.U.val) l.S.val) l.V.val i j)
      (mm l.S.cols (mm l.S.rows l.U.val l.S.val) (mm n l.V.val T) i j) := by
  cases side
  · simp only [Side.pick_left]
    rw [mm_assoc, mm_assoc]
    simp only [sideProd, entry]
    rw [LowRank_entry_mm, mm_assoc]
    rfl
  · simp only [Side.pick_right]
    rw [← mm_assoc]
    rfl

end
end Mat
end Verif
