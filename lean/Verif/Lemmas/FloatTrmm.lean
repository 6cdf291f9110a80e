import Verif.Lemmas.FloatTri
import Verif.Lemmas.FloatReturns
import Verif.Lemmas.Trmm
import Verif.Spec.FloatTrmm

/-
Triangular multiplication in floating-point arithmetic: structure and errors.
-/

set_option linter.unusedSectionVars false
set_option linter.unusedVariables false

namespace Verif
open Finset

namespace Mat

/-- No product of blocks with an empty inner dimension occurs. -/
def TriWide (side : Side) (A B : Mat ℝ) : Prop :=
  (A.Wide (side.pick false true) ∧ B.WideLeaf (side.pick true false)) ∨
  (A.Wide (side.pick false true) ∧ (∃ p q C, A = .hier p q C) ∧ (∃ r s C, B = .hier r s C) ∧
    B.WideBlocks (side.pick true false)) ∨
  ((∃ a, A = .dense a) ∧ B.Wide (side.pick true false)) ∨
  ((∃ p q b, A = .hier p q b ∧ ∀ i < p, ∀ j < q, ∃ d, b i j = .dense d) ∧ (∃ r s C, B = .hier r s C) ∧
    B.Wide (side.pick true false))

/-- Blocks that meet in a product. -/
theorem TriWide.innr {side : Side} {p q r s : Nat} {A B : Nat → Nat → Mat ℝ}
    (h : TriWide side (.hier p q A) (.hier r s B)) {i j k l : Nat} (hi : i < p) (hj : j < q) (hk : k < r)
    (hl : l < s) : side.pick (Innr false false (A i j) (B k l)) (Innr false false (B k l) (A i j)) := by
  have C : (A i j).Wide (side.pick false true) ∧ (B k l).WideLeaf (side.pick true false) ∨
      (∃ d, A i j = .dense d) ∧ (B k l).Wide (side.pick true false) := by
    rcases h with ⟨h1, h2⟩ | ⟨h1, -, -, h2⟩ | ⟨⟨_, h⟩, -⟩ | ⟨⟨_, _, _, h1, h2⟩, -, h3⟩
    · exact Or.inl ⟨h1 i hi j hj, h2.blocks k hk l hl⟩
    · exact Or.inl ⟨h1 i hi j hj, h2 k hk l hl⟩
    · cases h
    · cases h1
      exact Or.inr ⟨h2 i hi j hj, h3 k hk l hl⟩
  rcases C with ⟨a, b⟩ | ⟨⟨d, e⟩, b⟩
  · cases side
    · exact b.innr_right a
    · exact b.innr_left a
  · rw [e]
    cases side
    · exact Innr_leaf_left trivial b
    · exact Innr_leaf_right trivial b

/-- Diagonal blocks. -/
theorem TriWide.block {side : Side} {p q r s : Nat} {A B : Nat → Nat → Mat ℝ}
    (h : TriWide side (.hier p q A) (.hier r s B)) {i j k l : Nat} (hi : i < p) (hj : j < q) (hk : k < r)
    (hl : l < s) : TriWide side (A i j) (B k l) := by
  rcases h with ⟨h1, h2⟩ | ⟨h1, -, -, h2⟩ | ⟨⟨_, h⟩, -⟩ | ⟨⟨_, _, _, h1, h2⟩, -, h3⟩
  · exact Or.inl ⟨h1 i hi j hj, h2.blocks k hk l hl⟩
  · exact Or.inl ⟨h1 i hi j hj, h2 k hk l hl⟩
  · cases h
  · cases h1
    exact Or.inr (Or.inr (Or.inl ⟨h2 i hi j hj, h3 k hk l hl⟩))

/-- A dense triangle is split. -/
theorem TriWide.split_left {side : Side} {a : Dense ℝ} {n m r s : Nat} {b B : Nat → Nat → Mat ℝ}
    (h : TriWide side (.dense a) (.hier r s B)) (hb : ∀ i < n, ∀ j < m, ∃ d, b i j = .dense d) :
    TriWide side (.hier n m b) (.hier r s B) := by
  refine Or.inr (Or.inr (Or.inr ⟨⟨n, m, b, rfl, hb⟩, ⟨r, s, B, rfl⟩, ?_⟩))
  rcases h with ⟨h1, h2 | ⟨_, h2⟩⟩ | ⟨-, ⟨_, _, _, h⟩, -⟩ | ⟨-, h2⟩ | ⟨⟨_, _, _, h, -⟩, -⟩
  · exact h2
  · cases h2
  · cases h
  · exact h2
  · cases h

/-- A dense right-hand side is split. -/
theorem TriWide.split_right {side : Side} {p q r s : Nat} {A bl : Nat → Nat → Mat ℝ}
    {b : Mat ℝ} (hn : ∀ r s C, b ≠ .hier r s C) (h : TriWide side (.hier p q A) b)
    (hb : ∀ i < r, ∀ j < s, ∃ d, bl i j = .dense d) :
    TriWide side (.hier p q A) (.hier r s bl) := by
  refine Or.inr (Or.inl ⟨?_, ⟨_, _, _, rfl⟩, ⟨_, _, _, rfl⟩, fun i hi j hj => Or.inr (hb i hi j hj)⟩)
  rcases h with ⟨h1, -⟩ | ⟨h1, -⟩ | ⟨⟨_, h⟩, -⟩ | ⟨-, ⟨_, _, _, h⟩, -⟩
  · exact h1
  · exact h1
  · cases h
  · exact absurd h (hn _ _ _)

theorem TriWide.outer {side : Side} {p q : Nat} {A : Nat → Nat → Mat ℝ} {b : LowRank ℝ}
    (h : TriWide side (.hier p q A) (.lowRank b)) (X : Dense ℝ) : TriWide side (.hier p q A) (.dense X) := by
  refine Or.inl ⟨?_, Or.inr ⟨X, rfl⟩⟩
  rcases h with ⟨h1, -⟩ | ⟨h1, -⟩ | ⟨⟨_, h⟩, -⟩ | ⟨-, ⟨_, _, _, h⟩, -⟩
  · exact h1
  · exact h1
  · cases h
  · cases h

variable {u : ℝ}

theorem trmmDense_ok {F : FlTrmm} {side : Side} {uplo : Uplo} {tr unit : Bool} {α : ℝ} {a b d : Dense ℝ}
    (h : F.trmmDense side uplo tr unit α a b = .ok d) :
    a.rows = a.cols ∧ a.rows = side.pick b.rows b.cols ∧ d.rows = b.rows ∧ d.cols = b.cols ∧
    d.val = F.dtrmm side (opFun tr (triEntry uplo unit (.dense a))) α b := by
  simp only [FlTrmm.trmmDense, except_bind_eq_ok, assertM_eq_ok, decide_eq_true_eq] at h
  obtain ⟨-, h1, -, h2, h⟩ := h
  cases h
  exact ⟨h1, h2, rfl, rfl, rfl⟩

theorem triEntry_dense_abs (uplo : Uplo) (unit : Bool) (a : Dense ℝ) (i j : Nat) :
    triEntry uplo unit (Mat.dense a).abs i j = |triEntry uplo unit (.dense a) i j| := by
  unfold triEntry
  cases uplo <;> (dsimp only; split_ifs) <;> simp [abs, entry, Dense.abs]

/-- Multiplication of dense matrices. -/
theorem trmmDense_fl {F : FlTrmm} (hF : F.Sound u) {L : Nat} (hL : 3 ≤ L) {side : Side} {uplo : Uplo}
    {tr unit : Bool} {α : ℝ} {a b d : Dense ℝ} (h : F.trmmDense side uplo tr unit α a b = .ok d) :
    ∀ i < b.rows, ∀ j < b.cols, FlNear u (a.rows * L) (d.val i j)
      (α * sideProd side a.rows (opFun tr (triEntry uplo unit (.dense a))) (.dense b) i j)
      (|α| * sideProd side a.rows (opFun tr (triEntry uplo unit (Mat.dense a).abs)) (Mat.dense b).abs i j) := by
  obtain ⟨h1, h2, -, -, h3⟩ := trmmDense_ok h
  intro i hi j hj
  have e : ∀ x y, opFun tr (triEntry uplo unit (Mat.dense a).abs) x y =
      |opFun tr (triEntry uplo unit (.dense a)) x y| := by
    intro x y
    unfold opFun
    split <;> exact triEntry_dense_abs _ _ _ _ _
  have hk : ∀ n, 1 ≤ n → n + 2 ≤ n * L := fun n hn => by
    calc n + 2 ≤ n * 3 := by omega
      _ ≤ n * L := Nat.mul_le_mul_left _ hL
  rw [h3]
  generalize opFun tr (triEntry uplo unit (.dense a)) = T at *
  generalize opFun tr (triEntry uplo unit (Mat.dense a).abs) = TA at *
  obtain rfl : TA = fun x y => |T x y| := by funext x y; exact e x y
  cases side with
  | left =>
    have h2 : a.rows = b.rows := h2
    refine FlNear.mono hF.u0 (K := b.rows + 2) ⟨?_, ?_⟩ (by rw [h2]; exact hk _ (by omega))
    · rw [h2]
      exact hF.dtrmm_left _ _ _ i hi j hj
    · rw [abs_mul]
      refine mul_le_mul_of_nonneg_left ?_ (abs_nonneg _)
      refine (Finset.abs_sum_le_sum_abs _ _).trans (le_of_eq (Finset.sum_congr rfl fun l _ => ?_))
      exact abs_mul _ _
  | right =>
    have h2 : a.rows = b.cols := h2
    refine FlNear.mono hF.u0 (K := b.cols + 2) ⟨?_, ?_⟩ (by rw [h2]; exact hk _ (by omega))
    · rw [h2]
      exact hF.dtrmm_right _ _ _ i hi j hj
    · rw [abs_mul]
      refine mul_le_mul_of_nonneg_left ?_ (abs_nonneg _)
      refine (Finset.abs_sum_le_sum_abs _ _).trans (le_of_eq (Finset.sum_congr rfl fun l _ => ?_))
      exact abs_mul _ _

/-- The loop over `k` of one block. -/
theorem trmmHH_block_fl (u0 : 0 ≤ u) {g : GemmT ℝ} (hg : GemmFl u g) {L : Nat} {side : Side} {uplo : Uplo}
    {α : ℝ} {p r s : Nat} {A B : Nat → Nat → Mat ℝ} (hA : (Mat.hier p p A).WF)
    (hB : (Mat.hier r s B).WF) (hBs : (Mat.hier r s B).DenseLeaves) (hp : p = side.pick r s)
    (hw : TriWide side (.hier p p A) (.hier r s B)) (hL : (Mat.hier p p A).lag + 3 ≤ L)
    {i j : Nat} (hi : i < r) (hj : j < s)
    {c c' : Mat ℝ} (hc : c.WF) (hcs : c.DenseLeaves)
    (h : loop (trmmCount uplo side (side.pick r s) i j) (fun u c =>
      side.pick
        (g (A i (trmmIndex uplo side i j u)) (B (trmmIndex uplo side i j u) j) c α 1 false false)
        (g (B i (trmmIndex uplo side i j u)) (A (trmmIndex uplo side i j u) j) c α 1 false false)) c
      = .ok c') :
    (∀ k < p, strictB uplo side (side.pick i j) k = true →
      side.pick (GemmDims false false (A i k) (B k j) c) (GemmDims false false (B i k) (A k j) c)) ∧
    c'.WF ∧ c.SameShape c' ∧
    ∀ (K0 : Nat) (y w : Nat → Nat → ℝ),
    (∀ x < c.nRows, ∀ z < c.nCols, FlNear u K0 (c.entry x z) (y x z) (w x z)) →
    ∀ x < c.nRows, ∀ z < c.nCols,
      FlNear u (K0 + (∑ k ∈ range p, if strictB uplo side (side.pick i j) k then
          ((side.pick (A i k) (B i k)).nCols) else 0) * L) (c'.entry x z)
        (α * offProd uplo side p A B i j x z + y x z)
        (|α| * offProd uplo side p (fun i j => (A i j).abs) (fun i j => (B i j).abs) i j x z + w x z) := by
  simp only [WF] at hA hB
  obtain ⟨hp0, -, hAd⟩ := hA
  obtain ⟨hr0, hs0, hBd⟩ := hB
  have hd : side.pick i j < side.pick r s := by cases side <;> simpa [Side.pick]
  have idx : ∀ u < trmmCount uplo side (side.pick r s) i j, trmmIndex uplo side i j u < p :=
    fun u hu => by rw [hp]; exact trmmIndex_lt hd hu
  have LL : ∀ {K0 : Nat} {y w : Nat → Nat → ℝ},
      (∀ x < c.nRows, ∀ z < c.nCols, FlNear u K0 (c.entry x z) (y x z) (w x z)) → _ := fun {K0 y w} hy =>
    loop_fl u0 hg (a := fun u => side.pick (A i (trmmIndex uplo side i j u))
      (B i (trmmIndex uplo side i j u))) (b := fun u => side.pick (B (trmmIndex uplo side i j u) j)
      (A (trmmIndex uplo side i j u) j)) (β := fun _ => 1) (α := α) (ta := false) (tb := false) (L := L)
    (K0 := K0) (y := y) (w := w) hc hcs
    (fun u hu => by
      have := idx u hu
      cases side
      · exact (hAd i (by rw [hp]; exact hi) _ this).1
      · exact (hBd i hi _ (by rw [hp] at this; exact this)).1)
    (fun u hu => by
      have := idx u hu
      cases side
      · exact (hBd _ (by rw [hp] at this; exact this) j hj).1
      · exact (hAd _ this j (by rw [hp]; exact hj)).1)
    (fun u _ => TransSafe_ff _ _) (fun u hu => by
      have := idx u hu
      cases side
      · exact hw.innr (i := i) (by rw [hp]; exact hi) this (by rw [hp] at this; exact this) hj
      · exact hw.innr (j := j) this (by rw [hp]; exact hj) hi (by rw [hp] at this; exact this))
    (fun u hu => by
      have t := idx u hu
      cases side
      · have l0 := lag_leaves (hBs _ (by rw [hp] at t; exact t) j hj)
        have := lag_block (blk := A) (show i < p by rw [hp]; exact hi) t
        simp only [Side.pick_left] at l0 this ⊢
        omega
      · have l0 := lag_leaves (hBs i hi _ (by rw [hp] at t; exact t))
        have := lag_block (blk := A) t (show j < p by rw [hp]; exact hj)
        simp only [Side.pick_right] at l0 this ⊢
        omega)
    (fun u _ x x' hx => by cases side <;> exact hx) (fun _ _ => rfl) hy h
  have L0 := LL (fun x _ z _ => FlNear.const u _)
  refine ⟨?_, L0.2.1, L0.2.2.1, ?_⟩
  · intro k hk hst
    obtain ⟨u, hu, rfl⟩ := trmmIndex_exists (uplo := uplo) (i := i) (j := j) hd (by rw [← hp]; exact hk) hst
    have := L0.1 u hu
    cases side <;> exact this
  · intro K0 y w hy x hx z hz
    have E := (LL hy).2.2.2 x hx z hz
    have e : (if trmmCount uplo side (side.pick r s) i j = 0 then (1 : ℝ) else 1) = 1 := by
      split <;> rfl
    have e' : (if trmmCount uplo side (side.pick r s) i j = 0 then (1 : ℝ) else |1|) = 1 := by
      split <;> simp
    simp only [e, e', one_mul] at E
    rw [sum_trmmIndex uplo side hd (fun k => prodEntry false false (side.pick (A i k) (B i k))
      (side.pick (B k j) (A k j)) x z),
      sum_trmmIndex uplo side hd (fun k => prodEntry false false (side.pick (A i k) (B i k)).abs
      (side.pick (B k j) (A k j)).abs x z)] at E
    have t2 := sum_trmmIndex uplo side hd (fun k => ((side.pick (A i k) (B i k)).nCols : ℤ))
    have t3 : (∑ u ∈ range (trmmCount uplo side (side.pick r s) i j),
        (side.pick (A i (trmmIndex uplo side i j u)) (B i (trmmIndex uplo side i j u))).opCols false) =
        ∑ k ∈ range (side.pick r s), if strictB uplo side (side.pick i j) k then
          ((side.pick (A i k) (B i k)).nCols) else 0 := by
      have : (∑ u ∈ range (trmmCount uplo side (side.pick r s) i j),
        (side.pick (A i (trmmIndex uplo side i j u)) (B i (trmmIndex uplo side i j u))).nCols) =
        ∑ k ∈ range (side.pick r s), if strictB uplo side (side.pick i j) k then
          ((side.pick (A i k) (B i k)).nCols) else 0 := by exact_mod_cast t2
      exact this
    rw [t3, ← hp] at E
    have t4 : offProd uplo side p A B i j x z = ∑ k ∈ range p,
        if strictB uplo side (side.pick i j) k then
          prodEntry false false (side.pick (A i k) (B i k)) (side.pick (B k j) (A k j)) x z else 0 := by
      refine Finset.sum_congr rfl (fun k _ => ?_)
      cases side <;> rfl
    have t5 : offProd uplo side p (fun i j => (A i j).abs) (fun i j => (B i j).abs) i j x z =
        ∑ k ∈ range p, if strictB uplo side (side.pick i j) k then
          prodEntry false false (side.pick (A i k) (B i k)).abs (side.pick (B k j) (A k j)).abs x z else 0 := by
      refine Finset.sum_congr rfl (fun k _ => ?_)
      cases side <;> rfl
    rw [t4, t5]
    exact E

theorem trmmWith_flshape (u0 : 0 ≤ u) {F : FlTrmm} {g : GemmT ℝ} (hg : GemmFl u g) {L : Nat} {side : Side}
    {uplo : Uplo} {tr unit : Bool} {α : ℝ} (fuel : Nat) : ∀ A B B', A.WF → B.WF → B.DenseLeaves →
      TriWide side A B → A.lag + 3 ≤ L →
      F.trmmWith g side uplo tr unit α fuel A B = .ok B' → B'.WF ∧ B.SameShape B' := by
  induction fuel with
  | zero => intro A B B' _ _ _ _ _ h; cases h
  | succ fuel ih =>
    intro A B B' hA hB hBs hw hL h
    simp only [FlTrmm.trmmWith] at h
    cases A with
    | lowRank a => cases B <;> cases h
    | empty m n => cases B <;> cases h
    | dense a =>
      cases B with
      | empty => cases h
      | dense b =>
        simp only [FlTrmm.trmmOmm, except_bind_eq_ok] at h
        obtain ⟨d, hd, h⟩ := h
        cases h
        have := trmmDense_ok hd
        exact ⟨trivial, this.2.2.1.symm, this.2.2.2.1.symm⟩
      | lowRank b => exact hBs.elim
      | hier r s B =>
        simp only [FlTrmm.trmmOmm, trmmOmm, except_bind_eq_ok] at h
        obtain ⟨-, -, -, -, AH, hAH, h⟩ := h
        have hn : 1 ≤ side.pick r s := by
          have := hB; simp only [WF] at this
          cases side
          · exact this.1
          · exact this.2.1
        obtain ⟨b, rfl, w, -, dl⟩ := split_dense_leaves hn hn hAH
        exact ih _ _ _ w hB hBs (hw.split_left dl) (by
          rw [lag_leaves (dense_leaves dl)]
          exact (Nat.add_le_add_right (Nat.zero_le _) _).trans hL) h
    | hier p q A =>
      have hA0 := hA
      simp only [WF] at hA0
      cases B with
      | empty => cases h
      | dense b =>
        simp only [FlTrmm.trmmOmm, trmmOmm, except_bind_eq_ok] at h
        obtain ⟨-, -, -, -, BH, hBH, BH', hBH', h⟩ := h
        have h1 : 1 ≤ side.pick q 1 := by cases side <;> simp [Side.pick] ; omega
        have h2 : 1 ≤ side.pick 1 p := by cases side <;> simp [Side.pick] ; omega
        obtain ⟨bl, rfl, w, -, dl⟩ := split_dense_leaves h1 h2 hBH
        have I := ih _ _ _ hA w (dense_leaves dl) (hw.split_right (by intros; simp) dl) hL hBH'
        obtain ⟨d, rfl, e1, e2, -⟩ := joinDense_entries h1 h2 hBH I.2 h
        exact ⟨trivial, e1.symm, e2.symm⟩
      | lowRank b => exact hBs.elim
      | hier r s B =>
        simp only [FlTrmm.trmmOmm, trmmOmm, trmmHH, except_bind_eq_ok, assertM_eq_ok, decide_eq_true_eq] at h
        obtain ⟨-, rfl, -, hp, -, -, X, hX, h⟩ := h
        cases h
        have hB' := hB
        simp only [WF] at hB'
        have key : ∀ i < r, ∀ j < s, (X i j).WF ∧ (B i j).SameShape (X i j) := by
          intro i hi j hj
          have hx := collect2_ok hX i hi j hj
          simp only [except_bind_eq_ok] at hx
          obtain ⟨c, hc, hx⟩ := hx
          have hd : side.pick i j < p := by rw [hp]; cases side <;> simpa [Side.pick]
          have lg := lag_block (blk := A) hd hd
          have I := ih _ _ _ (hA0.2.2 _ hd _ hd).1 (hB'.2.2 i hi j hj).1 (hBs i hi j hj)
            (hw.block hd hd hi hj) (by omega) hc
          have L := trmmHH_block_fl u0 hg hA hB hBs hp hw hL hi hj I.1 ((hBs i hi j hj).shape I.2) hx
          exact ⟨L.2.1, I.2.trans L.2.2.1⟩
        have G := hier_grid (blk := X) (h := fun a => (B a 0).nRows) (w := fun b => (B 0 b).nCols)
          hB'.1 hB'.2.1 (fun i hi j hj => ⟨(key i hi j hj).1, by
            rw [((key i hi j hj).2.dims (hB'.2.2 i hi j hj).1).1, (hB'.2.2 i hi j hj).2.1], by
            rw [((key i hi j hj).2.dims (hB'.2.2 i hi j hj).1).2, (hB'.2.2 i hi j hj).2.2]⟩)
        exact ⟨G.1, rfl, rfl, fun i hi j hj => (key i hi j hj).2⟩

/-- What a multiplication in floating-point arithmetic yields. -/
structure TrmmFl (u : ℝ) (L : Nat) (side : Side) (uplo : Uplo) (tr unit : Bool) (α : ℝ) (A B B' : Mat ℝ) :
    Prop where
  wf : B'.WF
  shape : B.SameShape B'
  ent : ∀ i < B.nRows, ∀ j < B.nCols, FlNear u (A.nRows * L) (B'.entry i j)
    (α * sideProd side A.nRows (opFun tr (triEntry uplo unit A)) B i j)
    (|α| * sideProd side A.nRows (opFun tr (triEntry uplo unit A.abs)) B.abs i j)

theorem trmmWith_fl_leaves (u0 : 0 ≤ u) {F : FlTrmm} (hF : F.Sound u) {g : GemmT ℝ} (hg : GemmFl u g)
    {L : Nat} {side : Side} {uplo : Uplo} {tr unit : Bool} {α : ℝ} (fuel : Nat) : ∀ A B B', A.WF → B.WF →
      B.DenseLeaves → A.DiagSquare → TriFits side A B → A.nRows = side.pick B.nRows B.nCols →
      TriWide side A B → A.lag + 3 ≤ L →
      F.trmmWith g side uplo tr unit α fuel A B = .ok B' → TrmmFl u L side uplo tr unit α A B B' := by
  induction fuel with
  | zero => intro A B B' _ _ _ _ _ _ _ _ h; cases h
  | succ fuel ih =>
    intro A B B' hA hB hBs hD hT hn hw hL h
    have S := trmmWith_flshape u0 hg (fuel + 1) A B B' hA hB hBs hw hL h
    simp only [FlTrmm.trmmWith] at h
    cases A with
    | lowRank a => exact hD.elim
    | empty m n => exact hD.elim
    | dense a =>
      cases B with
      | empty => cases h
      | dense b =>
        simp only [FlTrmm.trmmOmm, except_bind_eq_ok] at h
        obtain ⟨d, hd, h⟩ := h
        cases h
        exact ⟨S.1, S.2, trmmDense_fl hF (by omega) hd⟩
      | lowRank b => exact hBs.elim
      | hier r s B =>
        simp only [FlTrmm.trmmOmm, trmmOmm, except_bind_eq_ok] at h
        obtain ⟨-, -, -, -, AH, hAH, h⟩ := h
        have hns : 1 ≤ side.pick r s := by
          have := hB; simp only [WF] at this
          cases side
          · exact this.1
          · exact this.2.1
        obtain ⟨b, rfl, w, same, dl, dq⟩ := split_diagSquare hD hns hAH
        have I := ih _ _ _ w hB hBs dq ⟨rfl, fun i hi j hj => by
          have hd : side.pick i j < side.pick r s := by cases side <;> simpa [Side.pick]
          obtain ⟨d, hd⟩ := dl _ hd _ hd
          rw [hd]
          trivial⟩ (by rw [same.1]; exact hn) (hw.split_left dl) (by
          rw [lag_leaves (dense_leaves dl)]
          exact (Nat.add_le_add_right (Nat.zero_le _) _).trans hL) h
        refine ⟨S.1, S.2, fun i hi j hj => ?_⟩
        have I := I.ent i hi j hj
        have ha : a.rows = a.cols := hD
        have bnd : ∀ x < a.rows, ∀ y < a.rows, x < (Mat.hier (side.pick r s) (side.pick r s) b).nRows ∧
            y < (Mat.hier (side.pick r s) (side.pick r s) b).nCols := fun x hx y hy =>
          ⟨by rw [same.1]; exact hx, by rw [same.2.1]; show y < a.cols; rw [← ha]; exact hy⟩
        have E : ∀ x < a.rows, ∀ y < a.rows, triEntry uplo unit (.hier (side.pick r s) (side.pick r s) b) x y =
            triEntry uplo unit (.dense a) x y := by
          intro x hx y hy
          unfold triEntry
          rw [same.2.2 x (bnd x hx y hy).1 y (bnd x hx y hy).2]
        have EA : ∀ x < a.rows, ∀ y < a.rows,
            triEntry uplo unit (Mat.hier (side.pick r s) (side.pick r s) b).abs x y =
            triEntry uplo unit (Mat.dense a).abs x y := by
          intro x hx y hy
          unfold triEntry
          rw [abs_entry w (dense_leaves dl) (bnd x hx y hy).1 (bnd x hx y hy).2,
            same.2.2 x (bnd x hx y hy).1 y (bnd x hx y hy).2]
          rfl
        have hn : a.rows = side.pick (Mat.hier r s B).nRows (Mat.hier r s B).nCols := hn
        have cg : ∀ (T T' : Nat → Nat → ℝ) (Y : Mat ℝ), (∀ x < a.rows, ∀ y < a.rows, T x y = T' x y) →
            sideProd side a.rows (opFun tr T) Y i j = sideProd side a.rows (opFun tr T') Y i j := by
          intro T T' Y e
          refine sideProd_congr (fun l hl => ?_) (fun l hl => by cases side <;> rfl)
          have hl : l < a.rows := hl
          cases side
          · have hi : i < a.rows := by rw [hn]; exact hi
            cases tr
            · exact e i hi l hl
            · exact e l hl i hi
          · have hj : j < a.rows := by rw [hn]; exact hj
            cases tr
            · exact e l hl j hj
            · exact e j hj l hl
        rw [same.1] at I
        have I : FlNear u (a.rows * L) (B'.entry i j)
          (α * sideProd side a.rows (opFun tr (triEntry uplo unit
            (.hier (side.pick r s) (side.pick r s) b))) (.hier r s B) i j)
          (|α| * sideProd side a.rows (opFun tr (triEntry uplo unit
            (Mat.hier (side.pick r s) (side.pick r s) b).abs)) (Mat.hier r s B).abs i j) := I
        rw [cg _ _ _ E, cg _ _ _ EA] at I
        exact I
    | hier p q A =>
      have hA0 := hA
      simp only [WF] at hA0
      have hpq : p = q := hD.1
      cases B with
      | empty => cases h
      | dense b =>
        have h1 : 1 ≤ side.pick q 1 := by cases side <;> simp [Side.pick] ; omega
        have h2 : 1 ≤ side.pick 1 p := by cases side <;> simp [Side.pick] ; omega
        simp only [FlTrmm.trmmOmm, trmmOmm, except_bind_eq_ok] at h
        obtain ⟨-, -, -, -, BH, hBH, BH', hBH', h⟩ := h
        obtain ⟨bl, rfl, w, same, dl⟩ := split_dense_leaves h1 h2 hBH
        have I := ih _ _ _ hA w (dense_leaves dl) hD ⟨by cases side <;> simp [Side.pick]; exact hpq,
          fun i hi j hj => by
            obtain ⟨d, hd⟩ := dl i hi j hj
            rw [hd]
            exact TriFits_dense _ _ _⟩ (by rw [hn, same.1, same.2.1])
            (hw.split_right (by intros; simp) dl) hL hBH'
        obtain ⟨d, rfl, e1, e2, e3⟩ := joinDense_entries h1 h2 hBH I.shape h
        refine ⟨S.1, S.2, fun i hi j hj => ?_⟩
        have hi' : i < (Mat.hier (side.pick q 1) (side.pick 1 p) bl).nRows := by rw [same.1]; exact hi
        have hj' : j < (Mat.hier (side.pick q 1) (side.pick 1 p) bl).nCols := by rw [same.2.1]; exact hj
        have E := I.ent i hi' j hj'
        have c1 : sideProd side (Mat.hier p q A).nRows (opFun tr (triEntry uplo unit (.hier p q A)))
            (.hier (side.pick q 1) (side.pick 1 p) bl) i j =
            sideProd side (Mat.hier p q A).nRows (opFun tr (triEntry uplo unit (.hier p q A))) (.dense b) i j := by
          refine sideProd_congr (fun l _ => by cases side <;> rfl) (fun l hl => ?_)
          rw [hn] at hl
          cases side
          · exact same.2.2 l (by rw [same.1]; exact hl) j hj'
          · exact same.2.2 i hi' l (by rw [same.2.1]; exact hl)
        have c2 : sideProd side (Mat.hier p q A).nRows (opFun tr (triEntry uplo unit (Mat.hier p q A).abs))
            (Mat.hier (side.pick q 1) (side.pick 1 p) bl).abs i j =
            sideProd side (Mat.hier p q A).nRows (opFun tr (triEntry uplo unit (Mat.hier p q A).abs))
              (Mat.dense b).abs i j := by
          refine sideProd_congr (fun l _ => by cases side <;> rfl) (fun l hl => ?_)
          rw [hn] at hl
          cases side
          · have hl' : l < (Mat.hier (Side.pick .left q 1) (Side.pick .left 1 p) bl).nRows := by rw [same.1]; exact hl
            show (Mat.hier (Side.pick .left q 1) (Side.pick .left 1 p) bl).abs.entry l j = |b.val l j|
            rw [abs_entry w (dense_leaves dl) hl' hj', same.2.2 l hl' j hj']
            rfl
          · have hl' : l < (Mat.hier (Side.pick .right q 1) (Side.pick .right 1 p) bl).nCols := by rw [same.2.1]; exact hl
            show (Mat.hier (Side.pick .right q 1) (Side.pick .right 1 p) bl).abs.entry i l = |b.val i l|
            rw [abs_entry w (dense_leaves dl) hi' hl', same.2.2 i hi' l hl']
            rfl
        rw [c1, c2, ← e3 i hi j hj] at E
        exact E
      | lowRank b => exact hBs.elim
      | hier r s B =>
        simp only [FlTrmm.trmmOmm, trmmOmm, trmmHH, except_bind_eq_ok, assertM_eq_ok, decide_eq_true_eq] at h
        obtain ⟨-, rfl, -, hp, -, htr, X, hX, h⟩ := h
        cases h
        have htr : tr = false := by cases tr <;> simp at htr ⊢
        subst htr
        have hB' := hB
        simp only [WF] at hB'
        have dlt : ∀ i < r, ∀ j < s, side.pick i j < p := fun i hi j hj => by
          rw [hp]; cases side <;> simpa [Side.pick]
        -- the first step and the rest of the loop of every block
        have key : ∀ i < r, ∀ j < s, ∃ c,
            F.trmmWith g side uplo false unit α fuel (A (side.pick i j) (side.pick i j)) (B i j) = .ok c ∧
            c.WF ∧ (B i j).SameShape c ∧
            (∀ k < p, strictB uplo side (side.pick i j) k = true →
              side.pick (GemmDims false false (A i k) (B k j) c) (GemmDims false false (B i k) (A k j) c)) ∧
            ∀ (K0 : Nat) (y w : Nat → Nat → ℝ),
            (∀ x < c.nRows, ∀ z < c.nCols, FlNear u K0 (c.entry x z) (y x z) (w x z)) →
            ∀ x < c.nRows, ∀ z < c.nCols,
              FlNear u (K0 + (∑ k ∈ range p, if strictB uplo side (side.pick i j) k then
                  ((side.pick (A i k) (B i k)).nCols) else 0) * L) ((X i j).entry x z)
                (α * offProd uplo side p A B i j x z + y x z)
                (|α| * offProd uplo side p (fun i j => (A i j).abs) (fun i j => (B i j).abs) i j x z +
                  w x z) := by
          intro i hi j hj
          have hx := collect2_ok hX i hi j hj
          simp only [except_bind_eq_ok] at hx
          obtain ⟨c, hc, hx⟩ := hx
          have hd := dlt i hi j hj
          have lg := lag_block (blk := A) hd hd
          have I := trmmWith_flshape (L := L) u0 hg fuel _ _ _ (hA0.2.2 _ hd _ hd).1 (hB'.2.2 i hi j hj).1
            (hBs i hi j hj) (hw.block hd hd hi hj) (by omega) hc
          have L := trmmHH_block_fl u0 hg hA hB hBs hp hw hL hi hj I.1 ((hBs i hi j hj).shape I.2) hx
          exact ⟨c, hc, I.1, I.2, L.1, L.2.2.2⟩
        have hh := tri_heights (uplo := uplo) hD hA hB hp hn (fun i hi j hj k hk hs => by
          obtain ⟨c, -, -, sh, gd, -⟩ := key i hi j hj
          have dm := sh.dims (hB'.2.2 i hi j hj).1
          have := gd k hk hs
          cases side
          · exact ⟨this.rows.trans dm.1, this.inner, this.cols.trans dm.2⟩
          · exact ⟨this.rows.trans dm.1, this.inner, this.cols.trans dm.2⟩)
        have hw' := hD.widths hA
        refine ⟨S.1, S.2, ?_⟩
        intro i0 hi0 j0 hj0
        rw [nRows_hier] at hi0
        rw [nCols_hier] at hj0
        obtain ⟨i, hi, x, hx, rfl⟩ := exists_block _ _ _ hi0
        obtain ⟨j, hj, y, hy, rfl⟩ := exists_block _ _ _ hj0
        have hx' : x < (B i j).nRows := by rw [(hB'.2.2 i hi j hj).2.1]; exact hx
        have hy' : y < (B i j).nCols := by rw [(hB'.2.2 i hi j hj).2.2]; exact hy
        obtain ⟨c, hc, cw, sh, -, e⟩ := key i hi j hj
        have hd := dlt i hi j hj
        have lg := lag_block (blk := A) hd hd
        have dm := sh.dims (hB'.2.2 i hi j hj).1
        have I := ih _ _ _ (hA0.2.2 _ hd _ hd).1 (hB'.2.2 i hi j hj).1 (hBs i hi j hj)
          (hD.2 _ hd) (hT.2 i hi j hj) (by
            have e1 := hh _ hd
            rw [(hA0.2.2 _ hd _ hd).2.1, e1]
            cases side
            · exact ((hB'.2.2 i hi j hj).2.1).symm
            · exact ((hB'.2.2 i hi j hj).2.2).symm) (hw.block hd hd hi hj) (by omega) hc
        have E := e _ _ _ (fun x hx z hz => I.ent x (by rw [← dm.1]; exact hx) z (by rw [← dm.2]; exact hz))
          x (by rw [dm.1]; exact hx') y (by rw [dm.2]; exact hy')
        have SB := sideProd_block hD hA hB uplo side unit hp hh hi hj hx hy
        have SA := sideProd_block (A := fun i j => (A i j).abs) (X := fun i j => (B i j).abs)
          (DiagSquare.abs hD) (WF_abs hA) (WF_abs hB) uplo side unit hp
          (fun k hk => by simpa only [nRows_abs, nCols_abs] using hh k hk) hi hj
          (by simpa only [nRows_abs] using hx) (by simpa only [nCols_abs] using hy)
        simp only [nRows_abs, nCols_abs] at SA
        have SA' : sideProd side (Mat.hier p p A).nRows (triEntry uplo unit (Mat.hier p p A).abs)
            (Mat.hier r s B).abs (psum (fun k => (B k 0).nRows) i + x) (psum (fun k => (B 0 k).nCols) j + y) =
          sideProd side (A (side.pick i j) (side.pick i j)).nRows
            (triEntry uplo unit (A (side.pick i j) (side.pick i j)).abs) (B i j).abs x y +
            offProd uplo side p (fun i j => (A i j).abs) (fun i j => (B i j).abs) i j x y := by
          rw [← nRows_abs (Mat.hier p p A)]
          exact SA
        -- the sizes
        have wid : ∀ k < p, ((side.pick (A i k) (B i k)).nCols) = (A k 0).nRows := by
          intro k hk
          cases side with
          | left =>
            rw [← hw' k hk]
            exact (hA0.2.2 i hd k hk).2.2
          | right =>
            rw [hh k hk]
            exact (hB'.2.2 i hi k (by rw [hp] at hk; exact hk)).2.2
        have sz : (∑ k ∈ range p, if strictB uplo side (side.pick i j) k then
              ((side.pick (A i k) (B i k)).nCols) else 0) + (A (side.pick i j) (side.pick i j)).nRows ≤
              (Mat.hier p p A).nRows := by
          rw [nRows_hier, (hA0.2.2 _ hd _ hd).2.1, psum,
            ← Finset.add_sum_erase _ (fun k => (A k 0).nRows) (mem_range.2 hd), add_comm,
            ← Finset.add_sum_erase _ (fun k => if strictB uplo side (side.pick i j) k then
            ((side.pick (A i k) (B i k)).nCols) else 0) (mem_range.2 hd)]
          refine Nat.add_le_add_left ?_ _
          simp only [strictB_self, Bool.false_eq_true, if_false, zero_add]
          refine Finset.sum_le_sum (fun k hk => ?_)
          have hk := mem_range.1 (Finset.mem_of_mem_erase hk)
          split
          · rw [wid k hk]
          · exact Nat.zero_le _
        refine FlNear.mono u0 (K := (A (side.pick i j) (side.pick i j)).nRows * L +
          (∑ k ∈ range p, if strictB uplo side (side.pick i j) k then
              ((side.pick (A i k) (B i k)).nCols) else 0) * L) ?_ (by
          rw [← add_mul, add_comm]; exact Nat.mul_le_mul_right _ sz)
        have SB' : sideProd side (Mat.hier p p A).nRows (triEntry uplo unit (Mat.hier p p A))
            (Mat.hier r s B) (psum (fun k => (B k 0).nRows) i + x) (psum (fun k => (B 0 k).nCols) j + y) =
          sideProd side (A (side.pick i j) (side.pick i j)).nRows
            (triEntry uplo unit (A (side.pick i j) (side.pick i j))) (B i j) x y +
            offProd uplo side p A B i j x y := SB
        have e1 : ∀ k < r, (B k 0).nRows = (X k 0).nRows := fun k hk =>
          (((S.2.2.2 k hk 0 hB'.2.1).dims (hB'.2.2 k hk 0 hB'.2.1).1).1).symm
        have e2 : ∀ k < s, (B 0 k).nCols = (X 0 k).nCols := fun k hk =>
          (((S.2.2.2 0 hB'.1 k hk).dims (hB'.2.2 0 hB'.1 k hk).1).2).symm
        have eX := entry_block (blk := X) hi hj (show x < (X i 0).nRows by rw [← e1 i hi]; exact hx)
          (show y < (X 0 j).nCols by rw [← e2 j hj]; exact hy)
        rw [← psum_congr (h := fun k => (B k 0).nRows) (fun k hk => e1 k (by omega)),
          ← psum_congr (h := fun k => (B 0 k).nCols) (fun k hk => e2 k (by omega))] at eX
        show FlNear u _ _ (α * sideProd side (Mat.hier p p A).nRows (triEntry uplo unit (Mat.hier p p A))
          (Mat.hier r s B) _ _) (|α| * sideProd side (Mat.hier p p A).nRows
            (triEntry uplo unit (Mat.hier p p A).abs) (Mat.hier r s B).abs _ _)
        rw [eX, SB', SA', mul_add, mul_add, add_comm (α * _), add_comm (|α| * _)]
        exact E

/-- The outer factor of a low-rank matrix is multiplied. -/
theorem setOuter_trmm_fl {l : LowRank ℝ} (hl : l.WF) {side : Side} {n : Nat} {T TA : Nat → Nat → ℝ}
    {c α a : ℝ} {X : Dense ℝ}
    (h : ∀ x < (l.outer side).rows, ∀ y < (l.outer side).cols,
      |X.val x y - α * sideProd side n T (.dense (l.outer side)) x y| ≤
        c * (a * sideProd side n TA (Mat.dense (l.outer side)).abs x y)) :
    ∀ i < l.dim0, ∀ j < l.dim1, |(Mat.lowRank (l.setOuter side X)).entry i j -
      α * sideProd side n T (.lowRank l) i j| ≤ c * (a * sideProd side n TA (Mat.lowRank l).abs i j) := by
  intro i hi j hj
  have z : ∀ (p : Nat) (g : Nat → Nat → ℝ) (x y : Nat), mm p (fun _ _ => 0) g x y = 0 := fun p g x y => by
    simp [mm]
  have z' : ∀ (p : Nat) (g : Nat → Nat → ℝ) (x y : Nat), mm p g (fun _ _ => 0) x y = 0 := fun p g x y => by
    simp [mm]
  have sl : ∀ (p : Nat) (k : ℝ) (f g : Nat → Nat → ℝ) (x y : Nat),
      mm p (fun x y => k * f x y) g x y = k * mm p f g x y := fun p k f g x y => by
    simp only [mm, Finset.mul_sum, mul_assoc]
  have sr : ∀ (p : Nat) (k : ℝ) (f g : Nat → Nat → ℝ) (x y : Nat),
      mm p f (fun x y => k * g x y) x y = k * mm p f g x y := fun p k f g x y => by
    simp only [mm, Finset.mul_sum, mul_left_comm]
  have sl' : ∀ (p : Nat) (k : ℝ) (f g : Nat → Nat → ℝ),
      mm p (fun x y => k * f x y) g = fun x y => k * mm p f g x y := fun p k f g => by
    funext x y; exact sl p k f g x y
  cases side with
  | left =>
    rw [sideProd_lowRank]
    simp only [abs]
    rw [sideProd_lowRank]
    simp only [entry, LowRank_entry_mm, LowRank.setOuter, Side.pick_left, LowRank.abs, Dense.abs]
    have K := mm_near_left (p := l.S.cols) (c := c) (i := i) (j := j) (g := l.V.val)
      (f := mm l.S.rows X.val l.S.val)
      (f' := mm l.S.rows (fun x y => α * mm n T l.U.val x y) l.S.val)
      (F := mm l.S.rows (fun x y => a * mm n TA (fun x y => |l.U.val x y|) x y) (fun x y => |l.S.val x y|))
      (F' := fun _ _ => 0) (fun b _ => by
        have K := mm_near_left (p := l.S.rows) (c := c) (i := i) (j := b) (g := l.S.val) (f := X.val)
          (f' := fun x y => α * mm n T l.U.val x y)
          (F := fun x y => a * mm n TA (fun x y => |l.U.val x y|) x y) (F' := fun _ _ => 0)
          (fun y hy => by
            rw [add_zero]
            exact h i (by rw [← hl.urows] at hi; exact hi) y (by
              have := hl.ucols; have := hl.srows
              show y < l.U.cols
              omega))
        rw [z] at K
        exact K)
    rw [z, add_zero] at K
    simp only [sl', sl] at K
    exact K
  | right =>
    rw [sideProd_lowRank]
    simp only [abs]
    rw [sideProd_lowRank]
    simp only [entry, LowRank_entry_mm, LowRank.setOuter, Side.pick_right, LowRank.abs, Dense.abs]
    have K := mm_near_right (p := l.S.cols) (c := c) (i := i) (j := j) (f := mm l.S.rows l.U.val l.S.val)
      (fA := mm l.S.rows (fun x y => |l.U.val x y|) (fun x y => |l.S.val x y|))
      (g := X.val) (g' := fun x y => α * mm n l.V.val T x y)
      (G := fun x y => a * mm n (fun x y => |l.V.val x y|) TA x y) (G' := fun _ _ => 0)
      (fun b hb => by
        rw [add_zero]
        exact h b (by
          have := hl.vrows
          show b < l.V.rows
          omega) j (by rw [← hl.vcols] at hj; exact hj)) (fun b _ => abs_mm_le _ _ _ _ _)
    rw [z', add_zero] at K
    simp only [sr] at K
    exact K

section
variable (F : FlTrmm)

theorem fit_trmmDense {side : Side} {uplo : Uplo} {tr unit : Bool} {α : ℝ} (a b : Dense ℝ) :
    Both (fun X X' => b.Fit X ∧ X.Fit X') (Dense.trmm side uplo tr unit α a b)
      (F.trmmDense side uplo tr unit α a b) := by
  unfold Dense.trmm FlTrmm.trmmDense
  exact Both.assert (fun _ => Both.assert (fun _ => Both.ok ⟨⟨rfl, rfl⟩, rfl, rfl⟩))

/-- Multiplication in floating-point arithmetic runs as it does in exact arithmetic. -/
theorem fit_trmmWith {g g' : GemmT ℝ} (hg : FlGemmFit g g') {side : Side} {uplo : Uplo} {tr unit : Bool}
    {α : ℝ} (fuel : Nat) : ∀ A B : Mat ℝ, A.HasBlocks → B.HasBlocks → B.DenseLeaves →
      FitTo B (trmmWith g side uplo tr unit α fuel A B) (F.trmmWith g' side uplo tr unit α fuel A B) := by
  induction fuel with
  | zero => exact fun _ _ _ _ _ => Both.err _ _
  | succ fuel ih =>
    intro A B bA bB hB
    simp only [trmmWith, FlTrmm.trmmWith]
    cases A with
    | lowRank a => cases B <;> exact Both.err _ _
    | empty m n => cases B <;> exact Both.err _ _
    | dense a =>
      cases B with
      | empty => exact hB.elim
      | lowRank b => exact hB.elim
      | dense b =>
        simp only [trmmOmm, FlTrmm.trmmOmm]
        exact (fit_trmmDense F a b).map (fun d d' h => h)
      | hier r s B =>
        simp only [trmmOmm, FlTrmm.trmmOmm]
        have hn : 1 ≤ side.pick r s := by
          cases side
          · exact bB.1
          · exact bB.2.1
        refine Both.assert (fun _ => Both.assert (fun _ => Both.bind_same _ (fun AH hAH => ?_)))
        obtain ⟨b, rfl, w, -, -⟩ := split_dense_leaves hn hn hAH
        exact ih _ _ w.hasBlocks bB hB
    | hier p q A =>
      cases B with
      | empty => exact hB.elim
      | lowRank b => exact hB.elim
      | dense b =>
        simp only [trmmOmm, FlTrmm.trmmOmm]
        have h1 : 1 ≤ side.pick q 1 := by
          cases side
          · exact bA.2.1
          · exact le_rfl
        have h2 : 1 ≤ side.pick 1 p := by
          cases side
          · exact le_rfl
          · exact bA.1
        refine Both.assert (fun _ => Both.assert (fun _ => ?_))
        refine Both.bind_same _ (fun BH hBH => ?_)
        obtain ⟨bl, rfl, w, -, dl⟩ := split_dense_leaves h1 h2 hBH
        refine (ih _ _ bA w.hasBlocks (dense_leaves dl)).bind (fun X X' _ _ ⟨x1, x2⟩ => ?_)
        refine fit_join (.refl b) x2 (x1.leaves (dense_leaves dl)) ?_
        rintro br bc blk rfl i hi j hj
        obtain ⟨rfl, rfl, x1⟩ := x1
        obtain ⟨d, e⟩ := dl i hi j hj
        have := x1 i hi j hj
        rw [e] at this
        cases e' : blk i j <;> rw [e'] at this <;> try exact this.elim
        exact ⟨_, rfl⟩
      | hier r s B =>
        simp only [trmmOmm, FlTrmm.trmmOmm, trmmHH]
        refine Both.assert (fun hpq => Both.assert (fun hp => Both.bind_same _ (fun _ _ => ?_)))
        have hd : ∀ i < r, ∀ j < s, side.pick i j < side.pick r s := fun i hi j hj => by
          cases side <;> simpa [Side.pick]
        refine (collect2_both (P := fun i j x x' => (B i j).Shape x ∧ x.Shape x')
          (fun i hi j hj => ?_)).map (fun f f' hf => ⟨⟨rfl, rfl, fun i hi j hj => (hf i hi j hj).1⟩,
            rfl, rfl, fun i hi j hj => (hf i hi j hj).2⟩)
        have dl := hd i hi j hj
        rw [← hp] at dl
        have bd := bA.2.2 _ dl _ (by rw [← hpq]; exact dl)
        refine (ih _ _ bd (bB.2.2 i hi j hj) (hB i hi j hj)).bind (fun c c' _ _ ⟨c1, c2⟩ => ?_)
        have t : Tg c c' := ⟨c2, c1.hasBlocks (bB.2.2 i hi j hj), c1.leaves (hB i hi j hj)⟩
        refine (fit_loop t (fun k hk X X' tX => ?_)).mono (fun Z Z' hZ => ⟨c1.trans hZ.1, hZ.2⟩)
        have kk := trmmIndex_lt (hd i hi j hj) hk
        have kp := kk
        rw [← hp] at kp
        cases side with
        | left =>
          exact hg _ _ _ _ _ _ _ _ (bA.2.2 i (by rw [hp]; exact hi) _ (by rw [← hpq]; exact kp))
            (bB.2.2 _ kk j hj) tX
        | right =>
          exact hg _ _ _ _ _ _ _ _ (bB.2.2 i hi _ kk)
            (bA.2.2 _ kp j (by rw [← hpq, hp]; exact hj)) tX

/-- The same for the right-hand sides that are modelled. -/
theorem fit_trmm {g g' : GemmT ℝ} (hg : FlGemmFit g g') {side : Side} {uplo : Uplo} {tr unit : Bool}
    {α : ℝ} (fuel : Nat) {A B : Mat ℝ} (bA : A.HasBlocks) (bB : B.HasBlocks) (hB : B.SolveTarget) :
    Both (fun _ _ => True) (trmmWith g side uplo tr unit α fuel A B)
      (F.trmmWith g' side uplo tr unit α fuel A B) := by
  rcases hB.cases with hd | ⟨l, rfl⟩
  · exact (fit_trmmWith F hg fuel A B bA bB hd).mono (fun _ _ _ => trivial)
  · cases fuel with
    | zero => exact Both.err _ _
    | succ fuel =>
      simp only [trmmWith, FlTrmm.trmmWith]
      cases A with
      | lowRank a => exact Both.err _ _
      | empty m n => exact Both.err _ _
      | dense a =>
        simp only [trmmOmm, FlTrmm.trmmOmm]
        exact Both.assert (fun _ => Both.assert (fun _ => (fit_trmmDense F a _).map (fun _ _ _ => trivial)))
      | hier p q A =>
        simp only [trmmOmm, FlTrmm.trmmOmm]
        have h1 : 1 ≤ side.pick q 1 := by
          cases side
          · exact bA.2.1
          · exact le_rfl
        have h2 : 1 ≤ side.pick 1 p := by
          cases side
          · exact le_rfl
          · exact bA.1
        refine Both.assert (fun _ => Both.assert (fun _ => ?_))
        refine Both.bind_same _ (fun BH hBH => ?_)
        obtain ⟨bl, rfl, w, -, dl⟩ := split_dense_leaves h1 h2 hBH
        refine (fit_trmmWith F hg fuel _ _ bA w.hasBlocks (dense_leaves dl)).bind
          (fun X X' _ _ ⟨x1, x2⟩ => ?_)
        have J := fit_join (.refl (l.outer side)) x2 (x1.leaves (dense_leaves dl)) (by
          rintro br bc blk rfl i hi j hj
          obtain ⟨rfl, rfl, x1⟩ := x1
          obtain ⟨d, e⟩ := dl i hi j hj
          have := x1 i hi j hj
          rw [e] at this
          cases e' : blk i j <;> rw [e'] at this <;> try exact this.elim
          exact ⟨_, rfl⟩)
        refine J.bind (fun Y Y' _ _ ⟨y1, y2⟩ => ?_)
        cases Y <;> try exact y1.elim
        cases Y' <;> try exact y2.elim
        exact Both.ok trivial

end

/-- Multiplication with any right-hand side that is modelled. -/
theorem trmmWith_fl (u0 : 0 ≤ u) {F : FlTrmm} (hF : F.Sound u) {g : GemmT ℝ} (hg : GemmFl u g) {L : Nat}
    {side : Side} {uplo : Uplo} {tr unit : Bool} {α : ℝ} (fuel : Nat) {A B B' : Mat ℝ} (hA : A.WF)
    (hB : B.WF) (hBs : B.SolveTarget) (hD : A.DiagSquare) (hT : TriFits side A B)
    (hn : A.nRows = side.pick B.nRows B.nCols) (hw : TriWide side A B) (hL : A.lag + 3 ≤ L)
    (h : F.trmmWith g side uplo tr unit α fuel A B = .ok B') :
    B'.WF ∧ B.SameShape B' ∧ ∀ i < B.nRows, ∀ j < B.nCols,
      |B'.entry i j - α * sideProd side A.nRows (opFun tr (triEntry uplo unit A)) B i j| ≤
        ((1 + u) ^ (A.nRows * L) - 1) *
        (|α| * sideProd side A.nRows (opFun tr (triEntry uplo unit A.abs)) B.abs i j) := by
  rcases hBs.cases with hd | ⟨b, rfl⟩
  · have P := trmmWith_fl_leaves u0 hF hg fuel A B B' hA hB hd hD hT hn hw hL h
    exact ⟨P.wf, P.shape, fun i hi j hj => (P.ent i hi j hj).1⟩
  · cases fuel with
    | zero => cases h
    | succ fuel =>
      simp only [FlTrmm.trmmWith] at h
      have hb : b.WF := hB
      cases A with
      | lowRank a => cases h
      | empty m n => cases h
      | dense a =>
        simp only [FlTrmm.trmmOmm, except_bind_eq_ok] at h
        obtain ⟨-, -, -, -, d, hd, h⟩ := h
        cases h
        have dm := trmmDense_ok hd
        exact ⟨setOuter_wf hb dm.2.2.1 dm.2.2.2.1, setOuter_shape, setOuter_trmm_fl hb (fun x hx y hy =>
          (trmmDense_fl hF (by omega) hd x hx y hy).1)⟩
      | hier p q A =>
        have e : (do
          let X ← F.trmmWith g side uplo tr unit α (fuel + 1) (.hier p q A) (.dense (b.outer side))
          let X ← X.asDense
          .ok (.lowRank (b.setOuter side X))) = Except.ok B' := by
          simp only [FlTrmm.trmmOmm, trmmOmm, except_bind_eq_ok, assertM_eq_ok, decide_eq_true_eq] at h
          obtain ⟨-, h1, -, h2, BH, hBH, BH', hBH', X, hX, d, hd, h⟩ := h
          have h2' : (Mat.hier p q A).nRows = side.pick (b.outer side).rows (b.outer side).cols := by
            rw [h2]
            cases side
            · exact hb.urows.symm
            · exact hb.vcols.symm
          simp only [FlTrmm.trmmWith, FlTrmm.trmmOmm, trmmOmm]
          rw [decide_eq_true h1, decide_eq_true h2', hBH]
          simp only [assertM, if_true, except_bind_ok, hBH', hX, hd]
          exact h
        simp only [except_bind_eq_ok] at e
        obtain ⟨X, hX, d, hd, e⟩ := e
        cases e
        have I := trmmWith_fl_leaves u0 hF hg (fuel + 1) (.hier p q A) (.dense (b.outer side)) X hA trivial
          trivial hD (TriFits_dense _ _ _) (by
            rw [hn]
            cases side
            · exact hb.urows.symm
            · exact hb.vcols.symm) (hw.outer _) hL hX
        obtain rfl := asDense_ok hd
        exact ⟨setOuter_wf hb I.shape.1.symm I.shape.2.symm, setOuter_shape,
          setOuter_trmm_fl hb (fun x hx y hy => (I.ent x hx y hy).1)⟩

end Mat
end Verif
