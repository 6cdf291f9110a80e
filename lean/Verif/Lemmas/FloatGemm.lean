import Verif.Spec.FloatGemm
import Verif.Lemmas.ErrGemm

/-
Rounding errors of matrix products.
-/

set_option linter.unusedSectionVars false
set_option linter.unusedVariables false
set_option linter.unusedSimpArgs false

namespace Verif
open Finset

/-- `x` was computed for `y` with `K` roundings on the way; `m` is what `y` would be with
absolute values everywhere. -/
def FlNear (u : ℝ) (K : Nat) (x y m : ℝ) : Prop := |x - y| ≤ ((1 + u) ^ K - 1) * m ∧ |y| ≤ m

namespace FlNear
variable {u : ℝ} {K : Nat} {x y m : ℝ}

theorem m0 (h : FlNear u K x y m) : 0 ≤ m := le_trans (abs_nonneg y) h.2

theorem const (u x : ℝ) : FlNear u 0 x x |x| := by simp [FlNear]

theorem mono (u0 : 0 ≤ u) (h : FlNear u K x y m) {K' : Nat} (hK : K ≤ K') : FlNear u K' x y m := by
  refine ⟨h.1.trans ?_, h.2⟩
  have : (1 + u) ^ K ≤ (1 + u) ^ K' := pow_le_pow_right₀ (by linarith) hK
  exact mul_le_mul_of_nonneg_right (by linarith) h.m0

theorem abs_le (h : FlNear u K x y m) : |x| ≤ (1 + u) ^ K * m := by
  have := abs_add_le (x - y) y
  rw [sub_add_cancel] at this
  nlinarith [h.1, h.2]

theorem mul (u0 : 0 ≤ u) (h : FlNear u K x y m) {K' : Nat} {x' y' m' : ℝ} (h' : FlNear u K' x' y' m') :
    FlNear u (K + K') (x * x') (y * y') (m * m') := by
  refine ⟨?_, by rw [abs_mul]; exact mul_le_mul h.2 h'.2 (abs_nonneg _) h.m0⟩
  have e : x * x' - y * y' = (x - y) * x' + y * (x' - y') := by ring
  rw [e]
  refine (abs_add_le _ _).trans ?_
  rw [abs_mul, abs_mul]
  have p0 : 0 ≤ ((1 + u) ^ K - 1) * m := le_trans (abs_nonneg _) h.1
  have t1 : |x - y| * |x'| ≤ (((1 + u) ^ K - 1) * m) * ((1 + u) ^ K' * m') :=
    mul_le_mul h.1 h'.abs_le (abs_nonneg _) p0
  have t2 : |y| * |x' - y'| ≤ m * (((1 + u) ^ K' - 1) * m') :=
    mul_le_mul h.2 h'.1 (abs_nonneg _) h.m0
  refine (add_le_add t1 t2).trans (le_of_eq ?_)
  rw [pow_add]; ring

theorem add (h : FlNear u K x y m) {x' y' m' : ℝ} (h' : FlNear u K x' y' m') :
    FlNear u K (x + x') (y + y') (m + m') := by
  refine ⟨?_, (abs_add_le _ _).trans (add_le_add h.2 h'.2)⟩
  have e : x + x' - (y + y') = (x - y) + (x' - y') := by ring
  rw [e, mul_add]
  exact (abs_add_le _ _).trans (add_le_add h.1 h'.1)

theorem sum {n : Nat} {f g w : Nat → ℝ} (h : ∀ l < n, FlNear u K (f l) (g l) (w l)) :
    FlNear u K (∑ l ∈ range n, f l) (∑ l ∈ range n, g l) (∑ l ∈ range n, w l) := by
  induction n with
  | zero => simp [FlNear]
  | succ n ih =>
    simp only [Finset.sum_range_succ]
    exact (ih fun l hl => h l (by omega)).add (h n (by omega))

/-- Multiplication by a number that is known exactly. -/
theorem cmul (h : FlNear u K x y m) (a : ℝ) : FlNear u K (a * x) (a * y) (|a| * m) := by
  refine ⟨?_, by rw [abs_mul]; exact mul_le_mul_of_nonneg_left h.2 (abs_nonneg a)⟩
  rw [← mul_sub, abs_mul]
  calc |a| * |x - y| ≤ |a| * (((1 + u) ^ K - 1) * m) := mul_le_mul_of_nonneg_left h.1 (abs_nonneg a)
    _ = _ := by ring

/-- One more step: `x` was computed for `t`, and `t` from numbers that carry errors. -/
theorem step (u0 : 0 ≤ u) {t T : ℝ} {k : Nat} (h : |x - t| ≤ ((1 + u) ^ k - 1) * T)
    (hT : T ≤ (1 + u) ^ K * m) (ht : FlNear u K t y m) : FlNear u (K + k) x y m := by
  refine ⟨?_, ht.2⟩
  have q0 : (0 : ℝ) ≤ (1 + u) ^ k - 1 := by
    have := one_le_pow₀ (a := 1 + u) (by linarith) (n := k)
    linarith
  have e : x - y = (x - t) + (t - y) := by ring
  rw [e]
  refine (abs_add_le _ _).trans ?_
  have := mul_le_mul_of_nonneg_left hT q0
  rw [pow_add]
  linarith [ht.1]

end FlNear

/-- Entry `(i,j)` of a product in floating-point arithmetic. -/
theorem FlBlas.Sound.near {F : FlBlas} {u : ℝ} (hF : F.Sound u) {m n k K L : Nat} {α β : ℝ}
    {a b c a' b' c' ma mb mc : Nat → Nat → ℝ} {i j : Nat}
    (ha : ∀ l < k, FlNear u K (a i l) (a' i l) (ma i l))
    (hb : ∀ l < k, FlNear u L (b l j) (b' l j) (mb l j)) (hc : FlNear u (K + L) (c i j) (c' i j) (mc i j)) :
    FlNear u (K + L + (k + 2)) (F.dgemm m n k α a b β c i j) (α * mm k a' b' i j + β * c' i j)
      (|α| * mm k ma mb i j + |β| * mc i j) := by
  have u0 := hF.u0
  have ht : FlNear u (K + L) (α * ∑ l ∈ range k, a i l * b l j + β * c i j)
      (α * mm k a' b' i j + β * c' i j) (|α| * mm k ma mb i j + |β| * mc i j) :=
    ((FlNear.sum fun l hl => (ha l hl).mul u0 (hb l hl)).cmul α).add (hc.cmul β)
  refine FlNear.step u0 (hF.dgemm m n k α a b β c i j) ?_ ht
  have t1 : ∑ l ∈ range k, |a i l| * |b l j| ≤ (1 + u) ^ (K + L) * mm k ma mb i j := by
    unfold mm
    rw [Finset.mul_sum]
    refine Finset.sum_le_sum fun l hl => ?_
    rw [← abs_mul]
    exact ((ha l (mem_range.1 hl)).mul u0 (hb l (mem_range.1 hl))).abs_le
  have t2 := hc.abs_le
  have := mul_le_mul_of_nonneg_left t1 (abs_nonneg α)
  have := mul_le_mul_of_nonneg_left t2 (abs_nonneg β)
  linarith

namespace Mat

/-! ### absolute values -/

@[simp] theorem nRows_abs (A : Mat ℝ) : A.abs.nRows = A.nRows := by
  induction A with
  | dense d => rfl
  | lowRank l => rfl
  | empty => rfl
  | hier br bc blk ih =>
    simp only [abs]
    rw [nRows_hier, nRows_hier]
    exact psum_congr fun a _ => ih a 0

@[simp] theorem nCols_abs (A : Mat ℝ) : A.abs.nCols = A.nCols := by
  induction A with
  | dense d => rfl
  | lowRank l => rfl
  | empty => rfl
  | hier br bc blk ih =>
    simp only [abs]
    rw [nCols_hier, nCols_hier]
    exact psum_congr fun a _ => ih 0 a

@[simp] theorem opRows_abs (t : Bool) (A : Mat ℝ) : A.abs.opRows t = A.opRows t := by
  cases t <;> simp [opRows]

@[simp] theorem opCols_abs (t : Bool) (A : Mat ℝ) : A.abs.opCols t = A.opCols t := by
  cases t <;> simp [opCols]

theorem WF_abs {A : Mat ℝ} (hA : A.WF) : A.abs.WF := by
  induction A with
  | dense d => trivial
  | lowRank l =>
    simp only [WF] at hA
    simp only [abs, WF]
    exact ⟨hA.urows, hA.ucols, hA.srows, hA.vrows, hA.vcols⟩
  | empty => trivial
  | hier br bc blk ih =>
    simp only [WF] at hA
    simp only [abs, WF, nRows_abs, nCols_abs]
    exact ⟨hA.1, hA.2.1, fun i hi j hj => ⟨ih i j (hA.2.2 i hi j hj).1, (hA.2.2 i hi j hj).2⟩⟩

/-- The absolute value of an entry of a dense block. -/
theorem abs_entry {A : Mat ℝ} (hA : A.WF) (hd : A.DenseLeaves) {i j : Nat} (hi : i < A.nRows)
    (hj : j < A.nCols) : A.abs.entry i j = |A.entry i j| := by
  induction A generalizing i j with
  | dense d => rfl
  | lowRank l => exact hd.elim
  | empty => exact hd.elim
  | hier br bc blk ih =>
    have hA' := hA
    simp only [WF] at hA'
    rw [nRows_hier] at hi
    rw [nCols_hier] at hj
    obtain ⟨p, hp, r, hr, rfl⟩ := exists_block _ _ _ hi
    obtain ⟨q, hq, s, hs, rfl⟩ := exists_block _ _ _ hj
    have e := entry_block (blk := fun i j => (blk i j).abs) (r := r) (s := s) hp hq
      (by simpa using hr) (by simpa using hs)
    simp only [nRows_abs, nCols_abs] at e
    simp only [abs]
    rw [e, entry_block hp hq hr hs]
    exact ih p q (hA'.2.2 p hp q hq).1 (hd p hp q hq) (by rw [(hA'.2.2 p hp q hq).2.1]; exact hr)
      (by rw [(hA'.2.2 p hp q hq).2.2]; exact hs)

theorem same_abs {A B : Mat ℝ} (h : SameEntries A B) (hA : A.WF) (hB : B.WF) (dA : A.DenseLeaves)
    (dB : B.DenseLeaves) : SameEntries A.abs B.abs := by
  refine ⟨by simp [h.1], by simp [h.2.1], fun i hi j hj => ?_⟩
  rw [nRows_abs] at hi
  rw [nCols_abs] at hj
  rw [abs_entry hA dA hi hj, abs_entry hB dB (by rw [← h.1]; exact hi) (by rw [← h.2.1]; exact hj),
    h.2.2 i hi j hj]

theorem opBlk_abs (t : Bool) (A : Nat → Nat → Mat ℝ) (i k : Nat) :
    opBlk t (fun i j => (A i j).abs) i k = (opBlk t A i k).abs := by
  cases t <;> rfl

theorem lag_block {br bc : Nat} {blk : Nat → Nat → Mat ℝ} {i j : Nat} (hi : i < br) (hj : j < bc) :
    (blk i j).lag ≤ (Mat.hier br bc blk).lag := by
  simp only [lag]
  exact (Finset.le_sup (f := fun j => (blk i j).lag) (mem_range.2 hj)).trans
    (Finset.le_sup (f := fun i => (range bc).sup fun j => (blk i j).lag) (mem_range.2 hi))

theorem lag_op {t : Bool} {p q : Nat} {A : Nat → Nat → Mat ℝ} {i k : Nat} (hi : i < opDim0 t p q)
    (hk : k < opDim1 t p q) : (opBlk t A i k).lag ≤ (Mat.hier p q A).lag := by
  cases t
  · exact lag_block hi hk
  · exact lag_block hk hi

theorem lag_leaves {A : Mat ℝ} (h : A.DenseLeaves) : A.lag = 0 := by
  induction A with
  | dense d => rfl
  | lowRank l => exact h.elim
  | empty => rfl
  | hier br bc blk ih =>
    simp only [lag]
    refine Nat.le_zero.1 (Finset.sup_le fun i hi => Finset.sup_le fun j hj => ?_)
    rw [ih i j (h i (mem_range.1 hi) j (mem_range.1 hj))]

theorem dop_abs (t : Bool) (d : Dense ℝ) (i j : Nat) : (dop t d.abs).val i j = |(dop t d).val i j| := by
  cases t <;> rfl

theorem dop_abs_cols (t : Bool) (d : Dense ℝ) : (dop t d.abs).cols = (dop t d).cols := by
  cases t <;> rfl

theorem lop_abs (t : Bool) (l : LowRank ℝ) : (lop t l.abs) = (lop t l).abs := by
  cases t <;> rfl

/-! ### products of leaves -/

section
variable {F : FlBlas} {u : ℝ} (hF : F.Sound u)
include hF

theorem flDense_spec {A B C D : Dense ℝ} {α β : ℝ} {ta tb : Bool}
    (h : F.gemmDense A B C α β ta tb = .ok D) :
    (dop ta A).rows = C.rows ∧ (dop ta A).cols = (dop tb B).rows ∧ (dop tb B).cols = C.cols ∧
    D.rows = C.rows ∧ D.cols = C.cols ∧
    D.val = F.dgemm C.rows C.cols (dop ta A).cols α (dop ta A).val (dop tb B).val β C.val := by
  simp only [FlBlas.gemmDense, except_bind_eq_ok, assertM_eq_ok, decide_eq_true_eq] at h
  obtain ⟨-, h1, -, h2, -, h3, h⟩ := h
  cases h
  cases ta <;> cases tb <;> exact ⟨h1, h2, h3, rfl, rfl, rfl⟩

theorem flNew_spec {A B D : Dense ℝ} {α : ℝ} {ta tb : Bool}
    (h : F.gemmDenseNew A B α ta tb = .ok D) :
    (dop ta A).cols = (dop tb B).rows ∧ D.rows = (dop ta A).rows ∧ D.cols = (dop tb B).cols ∧
    D.val = F.dgemm D.rows D.cols (dop ta A).cols α (dop ta A).val (dop tb B).val 0 (fun _ _ => 0) := by
  simp only [FlBlas.gemmDenseNew, except_bind_eq_ok] at h
  obtain ⟨-, -, h⟩ := h
  obtain ⟨h1, h2, h3, h4, h5, h6⟩ := flDense_spec hF h
  exact ⟨h2, by rw [h4, ← h1], by rw [h5, ← h3], by rw [h4, h5]; exact h6⟩

/-- A product that is not added to anything. -/
theorem nearNew {m n k K L : Nat} {α : ℝ} {a b a' b' ma mb : Nat → Nat → ℝ} {i j : Nat}
    (ha : ∀ l < k, FlNear u K (a i l) (a' i l) (ma i l))
    (hb : ∀ l < k, FlNear u L (b l j) (b' l j) (mb l j)) :
    FlNear u (K + L + (k + 2)) (F.dgemm m n k α a b 0 (fun _ _ => 0) i j) (smul α (mm k a' b') i j)
      (smul |α| (mm k ma mb) i j) := by
  have := hF.near (m := m) (n := n) (α := α) (β := 0) (c := fun _ _ => 0) (c' := fun _ _ => 0) (mc := fun _ _ => 0) ha hb
    ⟨by simp, by simp⟩
  simpa [smul] using this


theorem nearDense (d : Dense ℝ) (t : Bool) (i j : Nat) :
    FlNear u 0 ((dop t d).val i j) ((dop t d).val i j) ((dop t d.abs).val i j) := by
  rw [dop_abs]
  exact FlNear.const u _

theorem nearU (l : LowRank ℝ) (i j : Nat) :
    FlNear u 0 (l.U.val i j) (l.U.val i j) (l.abs.U.val i j) := FlNear.const u _
theorem nearS (l : LowRank ℝ) (i j : Nat) :
    FlNear u 0 (l.S.val i j) (l.S.val i j) (l.abs.S.val i j) := FlNear.const u _
theorem nearV (l : LowRank ℝ) (i j : Nat) :
    FlNear u 0 (l.V.val i j) (l.V.val i j) (l.abs.V.val i j) := FlNear.const u _

end

/-- Entry `(i,j)` of `C'` was computed for that of `alpha * op(A) * op(B) + beta * C` with
`k` roundings. -/
def FlEnt (u : ℝ) (k : Nat) (A B C C' : Mat ℝ) (α β : ℝ) (ta tb : Bool) (i j : Nat) : Prop :=
  FlNear u k (C'.entry i j) (α * prodEntry ta tb A B i j + β * C.entry i j)
    (|α| * prodEntry ta tb A.abs B.abs i j + |β| * |C.entry i j|)

theorem absSr (l : LowRank ℝ) : l.abs.S.rows = l.S.rows := rfl
theorem absSc (l : LowRank ℝ) : l.abs.S.cols = l.S.cols := rfl
theorem absD1 (l : LowRank ℝ) : l.abs.dim1 = l.dim1 := rfl

/-- Consistency, structure and a statement about entries, block by block. -/
theorem blocks_fl {br bc : Nat} {blk g : Nat → Nat → Mat ℝ} (hA : (Mat.hier br bc blk).WF)
    (E : Nat → Nat → ℝ → Prop)
    (key : ∀ i < br, ∀ j < bc, (g i j).WF ∧ (blk i j).SameShape (g i j) ∧
      ∀ r < (blk i 0).nRows, ∀ s < (blk 0 j).nCols,
        E (psum (fun a => (blk a 0).nRows) i + r) (psum (fun b => (blk 0 b).nCols) j + s)
          ((g i j).entry r s)) :
    (Mat.hier br bc g).WF ∧ (Mat.hier br bc blk).SameShape (.hier br bc g) ∧
    ∀ i < (Mat.hier br bc blk).nRows, ∀ j < (Mat.hier br bc blk).nCols,
      E i j ((Mat.hier br bc g).entry i j) := by
  have hA' := hA
  simp only [WF] at hA'
  obtain ⟨hbr, hbc, hd⟩ := hA'
  have G := hier_grid (blk := g) (h := fun a => (blk a 0).nRows) (w := fun b => (blk 0 b).nCols)
    hbr hbc (fun i hi j hj => ⟨(key i hi j hj).1, by
      rw [((key i hi j hj).2.1.dims (hd i hi j hj).1).1, (hd i hi j hj).2.1], by
      rw [((key i hi j hj).2.1.dims (hd i hi j hj).1).2, (hd i hi j hj).2.2]⟩)
  exact ⟨G.1, ⟨rfl, rfl, fun i hi j hj => (key i hi j hj).2.1⟩, blockwise_pred hA E key⟩

/-- Splitting a low-rank matrix commutes with taking absolute values. -/
theorem split_abs {X : LowRank ℝ} (hX : X.WF) {nr nc : Nat} {M : Mat ℝ}
    (h : (Mat.lowRank X).split nr nc = .ok M) : (Mat.lowRank X.abs).split nr nc = .ok M.abs := by
  unfold split at h ⊢
  simp only [nRows, nCols] at h ⊢
  simp only [show X.abs.dim0 = X.dim0 from rfl, show X.abs.dim1 = X.dim1 from rfl]
  generalize (⟨0, (X.dim0 : Int)⟩ : IndexRange).split nr = rs at h ⊢
  generalize (⟨0, (X.dim1 : Int)⟩ : IndexRange).split nc = cs at h ⊢
  simp only [splitOmm, splitLowRank, LowRank.abs, Dense.abs] at h ⊢
  by_cases hin : (rs.length ≤ 1 ∨ rangesInside X.U.rows rs = true) ∧
      (cs.length ≤ 1 ∨ rangesInside X.V.cols cs = true)
  · simp only [if_pos hin, Except.ok.injEq] at h
    rw [← h]
    simp only [hin, and_self, if_true, abs, LowRank.abs, LowRank.ofFactors, Dense.sub, Dense.abs]
    congr 2
    funext i j
    split <;> split <;> rfl
  · simp only [if_neg hin] at h
    cases h

theorem split_lr {X : LowRank ℝ} (hX : X.WF) {nr nc : Nat} (hr : 1 ≤ nr) (hc : 1 ≤ nc) {M : Mat ℝ}
    (h : (Mat.lowRank X).split nr nc = .ok M) :
    ∃ b : Nat → Nat → LowRank ℝ, M = .hier nr nc (fun i j => .lowRank (b i j)) ∧
      (∀ i < nr, ∀ j < nc, (b i j).WF) ∧
      (∀ i < nr, ∀ j < nc, (b i j).S.rows = X.S.rows ∧ (b i j).S.cols = X.S.cols) ∧
      (Mat.hier nr nc fun i j => .lowRank (b i j)).WF ∧
      SameEntries (.hier nr nc fun i j => .lowRank (b i j)) (.lowRank X) ∧
      SameEntries (.hier nr nc fun i j => .lowRank (b i j).abs) (.lowRank X.abs) := by
  obtain ⟨b', e, hs⟩ := split_isSplit (A := .lowRank X) hX hr hc h
  obtain ⟨b'', e2, hs2⟩ := split_isSplit (A := .lowRank X.abs)
    (⟨hX.urows, hX.ucols, hX.srows, hX.vrows, hX.vcols⟩ : X.abs.WF) hr hc (split_abs hX h)
  have hw := hs.wf hr hc
  have hsame := hs.same hr hc
  have hsame2 := hs2.same hr hc
  have hc : ∃ c : Nat → Nat → LowRank ℝ, b' = (fun i j => .lowRank (c i j)) ∧
      ∀ i j, (c i j).S.rows = X.S.rows ∧ (c i j).S.cols = X.S.cols := by
    simp only [split, splitOmm, splitLowRank] at h
    split at h
    · have h := (Except.ok.inj h).symm
      rw [e] at h
      injection h with f1 f2 f3
      exact ⟨_, f3, fun _ _ => ⟨rfl, rfl⟩⟩
    · cases h
  obtain ⟨c, rfl, hS⟩ := hc
  subst e
  injection e2 with f1 f2 f3
  subst f3
  refine ⟨c, rfl, fun i hi j hj => ?_, fun i _ j _ => hS i j, hw, hsame, hsame2⟩
  simp only [WF] at hw
  exact (hw.2.2 i hi j hj).1

section
variable {F : FlBlas} {u : ℝ} (hF : F.Sound u)
include hF

theorem abs_WF {l : LowRank ℝ} (h : l.WF) : l.abs.WF :=
  ⟨h.urows, h.ucols, h.srows, h.vrows, h.vcols⟩

theorem flDD {a b c d : Dense ℝ} {α β : ℝ} {ta tb : Bool} (h : F.gemmDense a b c α β ta tb = .ok d)
    (i j : Nat) :
    FlEnt u ((dop ta a).cols + 2) (.dense a) (.dense b) (.dense c) (.dense d) α β ta tb i j := by
  obtain ⟨-, -, -, -, -, e⟩ := flDense_spec hF h
  have := hF.near (m := c.rows) (n := c.cols) (α := α) (β := β) (fun l _ => nearDense (u := u) hF a ta i l)
    (fun l (_ : l < (dop ta a).cols) => nearDense hF b tb l j)
    (c := c.val) (c' := c.val) (mc := fun i j => |c.val i j|) (i := i) (j := j) (FlNear.const u _)
  rw [FlEnt, abs, abs, prodEntry_dd, prodEntry_dd, dop_abs_cols]
  simp only [entry, e]
  simpa using this

theorem flLD {a : LowRank ℝ} {b c d : Dense ℝ} {α β : ℝ} {ta tb : Bool} (ha : a.WF)
    (h : F.gemmLrDD a b c α β ta tb = .ok d) : d.rows = c.rows ∧ d.cols = c.cols ∧ ∀ i j,
    FlEnt u ((lop ta a).dim1 + (lop ta a).S.rows + (lop ta a).S.cols + 6) (.lowRank a) (.dense b)
      (.dense c) (.dense d) α β ta tb i j := by
  simp only [FlBlas.gemmLrDD, except_bind_eq_ok] at h
  obtain ⟨x, hx, y, hy, h⟩ := h
  obtain ⟨x0, x1, x2, x3⟩ := flNew_spec hF hx
  obtain ⟨y0, y1, y2, y3⟩ := flNew_spec hF hy
  obtain ⟨d0, d1, d2, d3, d4, d5⟩ := flDense_spec hF h
  have w := lop_wf (t := ta) ha
  simp only [dop_V, dop_U, dop_S, dop_false] at *
  refine ⟨d3, d4, fun i j => ?_⟩
  have nx : ∀ i j, FlNear u _ (x.val i j) _ _ := fun i j => by
    rw [x3]
    exact nearNew hF (fun l _ => nearV hF (lop ta a) i l) (fun l _ => nearDense hF b tb l j)
  have ny : ∀ i j, FlNear u _ (y.val i j) _ _ := fun i j => by
    rw [y3]
    exact nearNew hF (fun l _ => nearS hF (lop ta a) i l) (fun l _ => nx l j)
  have := hF.near (m := c.rows) (n := c.cols) (k := (lop ta a).U.cols) (α := 1) (β := β) (fun l _ => nearU hF (lop ta a) i l)
    (fun l _ => ny l j) (c := c.val) (c' := c.val) (mc := fun i j => |c.val i j|)
    ((FlNear.const u _).mono hF.u0 (Nat.zero_le _))
  rw [← d5] at this
  rw [FlEnt, abs, abs, prodEntry_ld ha, prodEntry_ld (abs_WF hF ha), lop_abs]
  simp only [absSr, absSc, absD1, w.ucols, w.srows, w.vcols, one_mul, abs_one, smul_one, mm_smul_left,
    mm_smul_right, LowRank_entry_mm, mm_assoc] at this ⊢
  refine FlNear.mono hF.u0 this ?_
  omega

theorem flDL {a : Dense ℝ} {b : LowRank ℝ} {c d : Dense ℝ} {α β : ℝ} {ta tb : Bool} (hb : b.WF)
    (h : F.gemmDLrD a b c α β ta tb = .ok d) : d.rows = c.rows ∧ d.cols = c.cols ∧ ∀ i j,
    FlEnt u ((dop ta a).cols + (lop tb b).S.rows + (lop tb b).S.cols + 6) (.dense a) (.lowRank b)
      (.dense c) (.dense d) α β ta tb i j := by
  simp only [FlBlas.gemmDLrD, except_bind_eq_ok] at h
  obtain ⟨x, hx, y, hy, h⟩ := h
  obtain ⟨x0, x1, x2, x3⟩ := flNew_spec hF hx
  obtain ⟨y0, y1, y2, y3⟩ := flNew_spec hF hy
  obtain ⟨d0, d1, d2, d3, d4, d5⟩ := flDense_spec hF h
  have w := lop_wf (t := tb) hb
  simp only [dop_V, dop_U, dop_S, dop_false] at *
  refine ⟨d3, d4, fun i j => ?_⟩
  have nx : ∀ i j, FlNear u _ (x.val i j) _ _ := fun i j => by
    rw [x3]
    exact nearNew hF (fun l _ => nearDense hF a ta i l) (fun l _ => nearU hF (lop tb b) l j)
  have ny : ∀ i j, FlNear u _ (y.val i j) _ _ := fun i j => by
    rw [y3]
    exact nearNew hF (fun l _ => nx i l) (fun l _ => nearS hF (lop tb b) l j)
  have := hF.near (m := c.rows) (n := c.cols) (k := y.cols) (α := 1) (β := β) (fun l _ => ny i l)
    (fun l _ => nearV hF (lop tb b) l j) (c := c.val) (c' := c.val) (mc := fun i j => |c.val i j|)
    ((FlNear.const u _).mono hF.u0 (Nat.zero_le _))
  rw [← d5] at this
  rw [FlEnt, abs, abs, prodEntry_dl a hb, prodEntry_dl _ (abs_WF hF hb), lop_abs, dop_abs_cols]
  simp only [y2, x2, absSr, absSc, absD1, w.ucols, w.srows, w.vcols, one_mul, abs_one, smul_one,
    mm_smul_left, mm_smul_right, LowRank_entry_mm, mm_assoc] at this ⊢
  refine FlNear.mono hF.u0 this ?_
  omega

theorem flLL {a b : LowRank ℝ} {c d : Dense ℝ} {α β : ℝ} {ta tb : Bool} (ha : a.WF) (hb : b.WF)
    (h : F.gemmLrLrD a b c α β ta tb = .ok d) : d.rows = c.rows ∧ d.cols = c.cols ∧ ∀ i j,
    FlEnt u ((lop ta a).dim1 + (lop ta a).S.rows + (lop ta a).S.cols + (lop tb b).S.rows +
      (lop tb b).S.cols + 10) (.lowRank a) (.lowRank b) (.dense c) (.dense d) α β ta tb i j := by
  simp only [FlBlas.gemmLrLrD, except_bind_eq_ok] at h
  obtain ⟨x, hx, y, hy, z, hz, v, hv, h⟩ := h
  obtain ⟨x0, x1, x2, x3⟩ := flNew_spec hF hx
  obtain ⟨y0, y1, y2, y3⟩ := flNew_spec hF hy
  obtain ⟨z0, z1, z2, z3⟩ := flNew_spec hF hz
  obtain ⟨v0, v1, v2, v3⟩ := flNew_spec hF hv
  obtain ⟨d0, d1, d2, d3, d4, d5⟩ := flDense_spec hF h
  have w := lop_wf (t := ta) ha
  have w' := lop_wf (t := tb) hb
  simp only [dop_V, dop_U, dop_S, dop_false] at *
  refine ⟨d3, d4, fun i j => ?_⟩
  have nx : ∀ i j, FlNear u _ (x.val i j) _ _ := fun i j => by
    rw [x3]
    exact nearNew hF (fun l _ => nearV hF (lop ta a) i l) (fun l _ => nearU hF (lop tb b) l j)
  have ny : ∀ i j, FlNear u _ (y.val i j) _ _ := fun i j => by
    rw [y3]
    exact nearNew hF (fun l _ => nearS hF (lop ta a) i l) (fun l _ => nx l j)
  have nz : ∀ i j, FlNear u _ (z.val i j) _ _ := fun i j => by
    rw [z3]
    exact nearNew hF (fun l _ => ny i l) (fun l _ => nearS hF (lop tb b) l j)
  have nv : ∀ i j, FlNear u _ (v.val i j) _ _ := fun i j => by
    rw [v3]
    exact nearNew hF (fun l _ => nearU hF (lop ta a) i l) (fun l _ => nz l j)
  have := hF.near (m := c.rows) (n := c.cols) (k := v.cols) (α := 1) (β := β) (fun l _ => nv i l)
    (fun l _ => nearV hF (lop tb b) l j) (c := c.val) (c' := c.val) (mc := fun i j => |c.val i j|)
    ((FlNear.const u _).mono hF.u0 (Nat.zero_le _))
  rw [← d5] at this
  rw [FlEnt, abs, abs, prodEntry_ll ha hb, prodEntry_ll (abs_WF hF ha) (abs_WF hF hb), lop_abs, lop_abs]
  simp only [v2, z2, y2, x2, absSr, absSc, absD1, w.ucols, w.srows, w.vcols, w'.ucols, w'.srows, one_mul,
    abs_one, smul_one, mm_smul_left, mm_smul_right, LowRank_entry_mm, mm_assoc] at this ⊢
  refine FlNear.mono hF.u0 this ?_
  omega

/-! ### `C *= beta; C += X` -/

theorem scale_fl {A A' : Mat ℝ} {b : ℝ} (hA : A.WF) (h : F.scale A b = .ok A') :
    A'.WF ∧ A.SameShape A' ∧ ∀ i < A.nRows, ∀ j < A.nCols,
      FlNear u 1 (A'.entry i j) (b * A.entry i j) (|b| * |A.entry i j|) := by
  induction A generalizing A' with
  | dense d =>
    cases h
    refine ⟨trivial, ⟨rfl, rfl⟩, fun i _ j _ => ⟨?_, by rw [abs_mul]⟩⟩
    have := hF.mul (d.val i j) b
    simp only [entry]
    rw [abs_mul, mul_comm (d.val i j) b] at this
    refine this.trans (le_of_eq ?_)
    ring
  | lowRank l => cases h
  | empty => cases h
  | hier br bc blk ih =>
    simp only [FlBlas.scale, except_bind_eq_ok] at h
    obtain ⟨g, hg, h⟩ := h
    cases h
    have hA' := hA
    simp only [WF] at hA'
    obtain ⟨hbr, hbc, hd⟩ := hA'
    have one := fun i hi j hj => ih i j (hd i hi j hj).1 (collect2_ok hg i hi j hj)
    refine blocks_fl hA (fun i j v => FlNear u 1 v (b * (Mat.hier br bc blk).entry i j)
      (|b| * |(Mat.hier br bc blk).entry i j|)) fun i hi j hj =>
      ⟨(one i hi j hj).1, (one i hi j hj).2.1, fun r hr s hs => ?_⟩
    rw [entry_block hi hj hr hs]
    exact (one i hi j hj).2.2 r (by rw [(hd i hi j hj).2.1]; exact hr) s
      (by rw [(hd i hi j hj).2.2]; exact hs)

/-- `A += X` with a low-rank `X`. -/
theorem addAssign_fl {A A' : Mat ℝ} {X : LowRank ℝ} (hA : A.WF) (hX : X.WF)
    (h : F.addAssign A (.lowRank X) = .ok A') :
    A.nRows = X.dim0 ∧ A.nCols = X.dim1 ∧ A'.WF ∧ A.SameShape A' ∧
    ∀ i < A.nRows, ∀ j < A.nCols,
      FlNear u (X.S.rows + X.S.cols + 4) (A'.entry i j) (A.entry i j + X.entry i j)
        (|A.entry i j| + X.abs.entry i j) := by
  induction A generalizing X A' with
  | dense a =>
    simp only [FlBlas.addAssign, FlBlas.addLowRank, except_bind_eq_ok] at h
    obtain ⟨d, ⟨US, h1, h2⟩, h⟩ := h
    cases h
    obtain ⟨x0, x1, x2, x3⟩ := flNew_spec hF h1
    obtain ⟨d0, d1, d2, d3, d4, d5⟩ := flDense_spec hF h2
    simp only [dop_false] at *
    refine ⟨by rw [← hX.urows, ← x1, d0]; rfl, by rw [← hX.vcols, d2]; rfl, trivial, ⟨d3.symm, d4.symm⟩,
      fun i _ j _ => ?_⟩
    have nx : ∀ i j, FlNear u _ (US.val i j) _ _ := fun i j => by
      rw [x3]
      exact nearNew hF (fun l _ => nearU hF X i l) (fun l _ => nearS hF X l j)
    have := hF.near (m := a.rows) (n := a.cols) (k := US.cols) (α := 1) (β := 1) (fun l _ => nx i l)
      (fun l _ => nearV hF X l j) (c := a.val) (c' := a.val) (mc := fun i j => |a.val i j|)
      ((FlNear.const u _).mono hF.u0 (Nat.zero_le _))
    rw [← d5] at this
    simp only [x2, absSr, absSc, hX.ucols, hX.srows, one_mul, abs_one, smul_one, LowRank_entry_mm,
      entry] at this ⊢
    rw [add_comm (a.val i j), add_comm |a.val i j|]
    refine FlNear.mono hF.u0 this ?_
    omega
  | lowRank a => cases h
  | empty => cases h
  | hier br bc blk ih =>
    simp only [FlBlas.addAssign, except_bind_eq_ok] at h
    obtain ⟨BH, hs, h⟩ := h
    have hA' := hA
    simp only [WF] at hA'
    obtain ⟨hbr, hbc, hd⟩ := hA'
    obtain ⟨b, rfl, bw, bS, bWF, same, same2⟩ := split_lr hX hbr hbc hs
    simp only [except_bind_eq_ok] at h
    obtain ⟨g, hg, h⟩ := h
    cases h
    have st : ∀ i < br, ∀ j < bc, F.addAssign (blk i j) (.lowRank (b i j)) = .ok (g i j) := by
      intro i hi j hj
      have := collect2_ok hg i hi j hj
      simp only [except_bind_eq_ok] at this
      obtain ⟨-, -, -, -, this⟩ := this
      exact this
    have one := fun i hi j hj => ih i j (hd i hi j hj).1 (bw i hi j hj) (st i hi j hj)
    have d1 : ∀ a < br, (blk a 0).nRows = (b a 0).dim0 := fun a ha => (one a ha 0 hbc).1
    have d2 : ∀ a < bc, (blk 0 a).nCols = (b 0 a).dim1 := fun a ha => (one 0 hbr a ha).2.1
    have dr : (Mat.hier br bc blk).nRows = X.dim0 := by
      rw [show X.dim0 = (Mat.lowRank X).nRows from rfl, ← same.1, nRows_hier, nRows_hier]
      exact psum_congr fun a ha => d1 a ha
    have dc : (Mat.hier br bc blk).nCols = X.dim1 := by
      rw [show X.dim1 = (Mat.lowRank X).nCols from rfl, ← same.2.1, nCols_hier, nCols_hier]
      exact psum_congr fun a ha => d2 a ha
    refine ⟨dr, dc, blocks_fl hA (fun i j v => FlNear u (X.S.rows + X.S.cols + 4) v
      ((Mat.hier br bc blk).entry i j + X.entry i j)
      (|(Mat.hier br bc blk).entry i j| + X.abs.entry i j)) fun i hi j hj =>
      ⟨(one i hi j hj).2.2.1, (one i hi j hj).2.2.2.1, fun r hr s hs => ?_⟩⟩
    have key := (one i hi j hj).2.2.2.2 r (by rw [(hd i hi j hj).2.1]; exact hr) s
      (by rw [(hd i hi j hj).2.2]; exact hs)
    rw [(bS i hi j hj).1, (bS i hi j hj).2] at key
    rw [entry_block hi hj hr hs]
    have eX : ∀ (Y : LowRank ℝ) (c : Nat → Nat → LowRank ℝ),
        SameEntries (.hier br bc fun i j => .lowRank (c i j)) (.lowRank Y) →
        (∀ a, (c a 0).dim0 = (b a 0).dim0) → (∀ a, (c 0 a).dim1 = (b 0 a).dim1) →
        Y.entry (psum (fun a => (blk a 0).nRows) i + r) (psum (fun b => (blk 0 b).nCols) j + s) =
        (c i j).entry r s := by
      intro Y c S c1 c2
      rw [psum_congr (fun a ha => d1 a (by omega)), psum_congr (fun a ha => d2 a (by omega))]
      have hr' : r < (c i 0).dim0 := by rw [c1, ← d1 i hi]; exact hr
      have hs' : s < (c 0 j).dim1 := by rw [c2, ← d2 j hj]; exact hs
      have e := entry_block (blk := fun i j => Mat.lowRank (c i j)) hi hj hr' hs'
      simp only [nRows, nCols, c1, c2] at e
      refine Eq.trans ?_ e
      refine (S.2.2 _ ?_ _ ?_).symm
      · rw [nRows_hier]
        simp only [nRows, c1] at hr' ⊢
        have := psum_le (fun a => (b a 0).dim0) hi
        beta_reduce at this ⊢
        omega
      · rw [nCols_hier]
        simp only [nCols, c2] at hs' ⊢
        have := psum_le (fun a => (b 0 a).dim1) hj
        beta_reduce at this ⊢
        omega
    rw [eX X b same (fun _ => rfl) (fun _ => rfl), eX X.abs (fun i j => (b i j).abs) same2
      (fun _ => rfl) (fun _ => rfl)]
    exact key

/-- The entries of a low-rank matrix with computed factors. -/
theorem lr_near {X : LowRank ℝ} {K1 K2 K3 : Nat} {U' S' V' mU mS mV : Nat → Nat → ℝ} {i j : Nat}
    (hU : ∀ a < X.S.rows, FlNear u K1 (X.U.val i a) (U' i a) (mU i a))
    (hS : ∀ a < X.S.rows, ∀ b < X.S.cols, FlNear u K2 (X.S.val a b) (S' a b) (mS a b))
    (hV : ∀ b < X.S.cols, FlNear u K3 (X.V.val b j) (V' b j) (mV b j)) :
    FlNear u (K1 + K2 + K3) (X.entry i j) (mm X.S.cols (mm X.S.rows U' S') V' i j)
      (mm X.S.cols (mm X.S.rows mU mS) mV i j) ∧
    X.abs.entry i j ≤ (1 + u) ^ (K1 + K2 + K3) * mm X.S.cols (mm X.S.rows mU mS) mV i j := by
  refine ⟨FlNear.sum fun b hb => FlNear.mul hF.u0 (FlNear.sum fun a ha => (hU a ha).mul hF.u0 (hS a ha b hb))
    (hV b hb), ?_⟩
  show ∑ b ∈ range X.S.cols, (∑ a ∈ range X.S.rows, |X.U.val i a| * |X.S.val a b|) * |X.V.val b j| ≤ _
  simp only [mm, Finset.sum_mul, Finset.mul_sum]
  refine Finset.sum_le_sum fun b hb => Finset.sum_le_sum fun a ha => ?_
  rw [← abs_mul, ← abs_mul]
  rw [mem_range] at ha hb
  exact (((hU a ha).mul hF.u0 (hS a ha b hb)).mul hF.u0 (hV b hb)).abs_le

/-- `C *= beta; C += X` where `X` was computed for `alpha * op(A) * op(B)`. -/
theorem scaleAdd_fl {A B C C' : Mat ℝ} {X : LowRank ℝ} {K : Nat}
    {α β : ℝ} {ta tb : Bool} (hC : C.WF) (hX : X.WF) (hK : 1 ≤ K)
    (hE : ∀ i < X.dim0, ∀ j < X.dim1, FlNear u K (X.entry i j) (α * prodEntry ta tb A B i j)
      (|α| * prodEntry ta tb A.abs B.abs i j) ∧
      X.abs.entry i j ≤ (1 + u) ^ K * (|α| * prodEntry ta tb A.abs B.abs i j))
    (h : F.scaleAdd C β X = .ok C') : C'.WF ∧ C.SameShape C' ∧ ∀ i < C.nRows, ∀ j < C.nCols,
      FlEnt u (K + (X.S.rows + X.S.cols + 4)) A B C C' α β ta tb i j := by
  simp only [FlBlas.scaleAdd, except_bind_eq_ok] at h
  obtain ⟨D, hD, h⟩ := h
  obtain ⟨w1, s1, e1⟩ := scale_fl hF hC hD
  obtain ⟨d1, d2, w2, s2, e2⟩ := addAssign_fl hF w1 hX h
  have dd := s1.dims hC
  refine ⟨w2, s1.trans s2, fun i hi j hj => ?_⟩
  have n1 := (e1 i hi j hj).mono hF.u0 hK
  have n2 := e2 i (by rw [dd.1]; exact hi) j (by rw [dd.2]; exact hj)
  obtain ⟨n3, n4⟩ := hE i (by rw [← d1, dd.1]; exact hi) j (by rw [← d2, dd.2]; exact hj)
  have := FlNear.step hF.u0 n2.1 (K := K) (y := β * C.entry i j + α * prodEntry ta tb A B i j)
    (m := |β| * |C.entry i j| + |α| * prodEntry ta tb A.abs B.abs i j)
    (by rw [mul_add]; exact add_le_add n1.abs_le n4) (n1.add n3)
  rw [FlEnt, add_comm (α * _), add_comm (|α| * _)]
  exact this

theorem flLrD {a : LowRank ℝ} {b : Dense ℝ} {C C' : Mat ℝ} {α β : ℝ} {ta tb : Bool} (ha : a.WF)
    (hC : C.WF) (h : F.gemmLrD a b C α β ta tb = .ok C') :
    C'.WF ∧ C.SameShape C' ∧ ∀ i < C.nRows, ∀ j < C.nCols,
      FlEnt u ((lop ta a).dim1 + (lop ta a).S.rows + (lop ta a).S.cols + 6)
        (.lowRank a) (.dense b) C C' α β ta tb i j := by
  simp only [FlBlas.gemmLrD, except_bind_eq_ok] at h
  obtain ⟨V, hV, h⟩ := h
  obtain ⟨v0, v1, v2, v3⟩ := flNew_spec hF hV
  have w := lop_wf (t := ta) ha
  rw [← lop_U, ← lop_S] at h
  rw [dop_V] at v0 v1 v3
  have nv : ∀ i j, FlNear u _ (V.val i j) _ _ := fun i j => by
    rw [v3]
    exact nearNew hF (fun l _ => nearV hF (lop ta a) i l) (fun l _ => nearDense hF b tb l j)
  have key := scaleAdd_fl hF (A := .lowRank a) (B := .dense b) (α := α) (ta := ta) (tb := tb)
    (K := 0 + 0 + (0 + 0 + ((lop ta a).V.cols + 2))) hC
    (ofFactors_wf (by rw [w.ucols, w.srows]) (by rw [v1, w.vrows])) (by omega) (by
      intro i _ j _
      have := lr_near hF (X := LowRank.ofFactors (lop ta a).U (lop ta a).S V) (i := i) (j := j)
        (fun l _ => nearU hF (lop ta a) i l) (fun l _ m _ => nearS hF (lop ta a) l m)
        (fun l _ => nv l j)
      rw [abs, abs, prodEntry_ld ha, prodEntry_ld (abs_WF hF ha), lop_abs]
      simp only [absSr, absSc, absD1, LowRank.ofFactors, w.vcols, w.srows, mm_smul_right, LowRank_entry_mm,
        mm_assoc] at this ⊢
      exact this) h
  refine ⟨key.1, key.2.1, fun i hi j hj => (key.2.2 i hi j hj).mono hF.u0 ?_⟩
  simp only [LowRank.ofFactors, w.vcols]
  omega

theorem flDLr {a : Dense ℝ} {b : LowRank ℝ} {C C' : Mat ℝ} {α β : ℝ} {ta tb : Bool} (hb : b.WF)
    (hC : C.WF) (h : F.gemmDLr a b C α β ta tb = .ok C') :
    C'.WF ∧ C.SameShape C' ∧ ∀ i < C.nRows, ∀ j < C.nCols,
      FlEnt u ((dop ta a).cols + (lop tb b).S.rows + (lop tb b).S.cols + 6)
        (.dense a) (.lowRank b) C C' α β ta tb i j := by
  simp only [FlBlas.gemmDLr, except_bind_eq_ok] at h
  obtain ⟨U, hU, h⟩ := h
  obtain ⟨v0, v1, v2, v3⟩ := flNew_spec hF hU
  have w := lop_wf (t := tb) hb
  rw [← lop_V, ← lop_S] at h
  rw [dop_U] at v0 v2 v3
  have nu : ∀ i j, FlNear u _ (U.val i j) _ _ := fun i j => by
    rw [v3]
    exact nearNew hF (fun l _ => nearDense hF a ta i l) (fun l _ => nearU hF (lop tb b) l j)
  have key := scaleAdd_fl hF (A := .dense a) (B := .lowRank b) (α := α) (ta := ta) (tb := tb)
    (K := (0 + 0 + ((dop ta a).cols + 2)) + 0 + 0) hC
    (ofFactors_wf (by rw [v2, w.ucols, w.srows]) w.vrows) (by omega) (by
      intro i _ j _
      have := lr_near hF (X := LowRank.ofFactors U (lop tb b).S (lop tb b).V) (i := i) (j := j)
        (fun l _ => nu i l) (fun l _ m _ => nearS hF (lop tb b) l m)
        (fun l _ => nearV hF (lop tb b) l j)
      rw [abs, abs, prodEntry_dl a hb, prodEntry_dl _ (abs_WF hF hb), lop_abs, dop_abs_cols]
      simp only [absSr, absSc, absD1, LowRank.ofFactors, w.vcols, w.srows, mm_smul_left, mm_smul_right,
        LowRank_entry_mm, mm_assoc] at this ⊢
      exact this) h
  refine ⟨key.1, key.2.1, fun i hi j hj => (key.2.2 i hi j hj).mono hF.u0 ?_⟩
  simp only [LowRank.ofFactors]
  omega

theorem flLrLr {a b : LowRank ℝ} {C C' : Mat ℝ} {α β : ℝ} {ta tb : Bool} (ha : a.WF) (hb : b.WF)
    (hC : C.WF) (h : F.gemmLrLr a b C α β ta tb = .ok C') :
    C'.WF ∧ C.SameShape C' ∧ ∀ i < C.nRows, ∀ j < C.nCols,
      FlEnt u ((lop ta a).dim1 + (lop ta a).S.rows + (lop ta a).S.cols + (lop tb b).S.rows +
        (lop tb b).S.cols + 10) (.lowRank a) (.lowRank b) C C' α β ta tb i j := by
  simp only [FlBlas.gemmLrLr, except_bind_eq_ok] at h
  obtain ⟨x, hx, y, hy, S, hS, h⟩ := h
  obtain ⟨x0, x1, x2, x3⟩ := flNew_spec hF hx
  obtain ⟨y0, y1, y2, y3⟩ := flNew_spec hF hy
  obtain ⟨s0, s1, s2, s3⟩ := flNew_spec hF hS
  have w := lop_wf (t := ta) ha
  have w' := lop_wf (t := tb) hb
  rw [← lop_U, ← lop_V] at h
  simp only [dop_V, dop_U, dop_S, dop_false] at *
  have hSr : S.rows = (lop ta a).S.rows := by rw [s1, x1]
  have hSc : S.cols = (lop tb b).S.cols := by rw [s2, y2]
  have nx : ∀ i j, FlNear u _ (x.val i j) _ _ := fun i j => by
    rw [x3]
    exact nearNew hF (fun l _ => nearS hF (lop ta a) i l) (fun l _ => nearV hF (lop ta a) l j)
  have ny : ∀ i j, FlNear u _ (y.val i j) _ _ := fun i j => by
    rw [y3]
    exact nearNew hF (fun l _ => nearU hF (lop tb b) i l) (fun l _ => nearS hF (lop tb b) l j)
  have nS : ∀ i j, FlNear u _ (S.val i j) _ _ := fun i j => by
    rw [s3]
    exact nearNew hF (fun l _ => nx i l) (fun l _ => ny l j)
  have key := scaleAdd_fl hF (A := .lowRank a) (B := .lowRank b) (α := α) (ta := ta) (tb := tb)
    (K := 0 + (0 + 0 + ((lop ta a).S.cols + 2) + (0 + 0 + ((lop tb b).U.cols + 2)) + (x.cols + 2)) + 0)
    hC (ofFactors_wf (by rw [w.ucols, hSr, w.srows]) (by rw [w'.vrows, hSc])) (by omega) (by
      intro i _ j _
      have := lr_near hF (X := LowRank.ofFactors (lop ta a).U S (lop tb b).V) (i := i) (j := j)
        (fun l _ => nearU hF (lop ta a) i l) (fun l _ m _ => nS l m)
        (fun l _ => nearV hF (lop tb b) l j)
      rw [abs, abs, prodEntry_ll ha hb, prodEntry_ll (abs_WF hF ha) (abs_WF hF hb), lop_abs, lop_abs]
      simp only [absSr, absSc, absD1, LowRank.ofFactors, hSr, hSc, x2, w.vcols, w.srows, w'.ucols,
        w'.srows, abs_one, smul_one, mm_smul_left, mm_smul_right, LowRank_entry_mm, mm_assoc] at this ⊢
      exact this) h
  refine ⟨key.1, key.2.1, fun i hi j hj => (key.2.2 i hi j hj).mono hF.u0 ?_⟩
  simp only [LowRank.ofFactors, hSr, hSc, x2, w.vcols, w'.ucols, w'.srows]
  omega

end
end Mat
end Verif
