import Verif.Spec.FloatNorm
import Verif.Lemmas.DiffNorm
import Mathlib.Algebra.Order.BigOperators.Group.Finset
import Mathlib.Tactic.Linarith
import Mathlib.Tactic.Positivity
import Mathlib.Tactic.FieldSimp

/-
Rounding errors of `norm` and `l2_error`.
-/

namespace Verif

open Finset

/-! ### relative errors -/

section rounded
variable {u : ℝ} {K : Nat} {x y : ℝ}

theorem Rounded.zero (u : ℝ) (K : Nat) : Rounded u K 0 0 := by simp [Rounded]

theorem Rounded.nonneg (u1 : u < 1) (h : Rounded u K x y) (hy : 0 ≤ y) : 0 ≤ x :=
  le_trans (mul_nonneg (pow_nonneg (by linarith) _) hy) h.1

theorem Rounded.mono (u0 : 0 ≤ u) (u1 : u < 1) {K' : Nat} (hK : K ≤ K') (hy : 0 ≤ y)
    (h : Rounded u K x y) : Rounded u K' x y := by
  refine ⟨le_trans (mul_le_mul_of_nonneg_right ?_ hy) h.1,
    le_trans h.2 (mul_le_mul_of_nonneg_right ?_ hy)⟩
  · exact pow_le_pow_of_le_one (by linarith) (by linarith) hK
  · exact pow_le_pow_right₀ (by linarith) hK

theorem Rounded.sum {x' y' : ℝ} (h : Rounded u K x y) (h' : Rounded u K x' y') :
    Rounded u K (x + x') (y + y') :=
  ⟨by rw [mul_add]; exact add_le_add h.1 h'.1, by rw [mul_add]; exact add_le_add h.2 h'.2⟩

theorem Rounded.mul_one_add {δ : ℝ} (u0 : 0 ≤ u) (u1 : u < 1) (hδ : |δ| ≤ u) (hy : 0 ≤ y)
    (h : Rounded u K x y) : Rounded u (K + 1) (x * (1 + δ)) y := by
  have hx := h.nonneg u1 hy
  obtain ⟨d1, d2⟩ := abs_le.1 hδ
  constructor
  · calc (1 - u) ^ (K + 1) * y = ((1 - u) ^ K * y) * (1 - u) := by ring
      _ ≤ x * (1 - u) := mul_le_mul_of_nonneg_right h.1 (by linarith)
      _ ≤ x * (1 + δ) := mul_le_mul_of_nonneg_left (by linarith) hx
  · calc x * (1 + δ) ≤ x * (1 + u) := mul_le_mul_of_nonneg_left (by linarith) hx
      _ ≤ ((1 + u) ^ K * y) * (1 + u) := mul_le_mul_of_nonneg_right h.2 (by linarith)
      _ = (1 + u) ^ (K + 1) * y := by ring

theorem Rounded.of_close (u0 : 0 ≤ u) (u1 : u < 1) {z : ℝ} (hy : 0 ≤ y) (h : Rounded u K x y)
    (hz : |z - x| ≤ u * |x|) : Rounded u (K + 1) z y := by
  have hx := h.nonneg u1 hy
  rw [abs_of_nonneg hx, abs_le] at hz
  constructor
  · calc (1 - u) ^ (K + 1) * y = ((1 - u) ^ K * y) * (1 - u) := by ring
      _ ≤ x * (1 - u) := mul_le_mul_of_nonneg_right h.1 (by linarith)
      _ ≤ z := by linarith
  · calc z ≤ x * (1 + u) := by linarith
      _ ≤ ((1 + u) ^ K * y) * (1 + u) := mul_le_mul_of_nonneg_right h.2 (by linarith)
      _ = (1 + u) ^ (K + 1) * y := by ring

theorem Rounded.trans {L : Nat} {z : ℝ} (u0 : 0 ≤ u) (u1 : u < 1) (h : Rounded u K x y)
    (h' : Rounded u L y z) : Rounded u (K + L) x z := by
  constructor
  · calc (1 - u) ^ (K + L) * z = (1 - u) ^ K * ((1 - u) ^ L * z) := by ring
      _ ≤ (1 - u) ^ K * y := mul_le_mul_of_nonneg_left h'.1 (pow_nonneg (by linarith) _)
      _ ≤ x := h.1
  · calc x ≤ (1 + u) ^ K * y := h.2
      _ ≤ (1 + u) ^ K * ((1 + u) ^ L * z) :=
        mul_le_mul_of_nonneg_left h'.2 (pow_nonneg (by linarith) _)
      _ = (1 + u) ^ (K + L) * z := by ring

/-- The square of a rounded number. -/
theorem Rounded.sq {d e : ℝ} (u1 : u < 1) (h : |d - e| ≤ u * |e|) :
    Rounded u 2 (d * d) (e * e) := by
  have a1 : |d| ≤ (1 + u) * |e| := by
    have := abs_sub_abs_le_abs_sub d e
    linarith
  have a2 : (1 - u) * |e| ≤ |d| := by
    have := abs_sub_abs_le_abs_sub e d
    rw [abs_sub_comm] at this
    linarith
  have b1 : 0 ≤ (1 - u) * |e| := mul_nonneg (by linarith) (abs_nonneg _)
  rw [← abs_mul_abs_self d, ← abs_mul_abs_self e]
  constructor
  · calc (1 - u) ^ 2 * (|e| * |e|) = ((1 - u) * |e|) * ((1 - u) * |e|) := by ring
      _ ≤ |d| * |d| := mul_self_le_mul_self b1 a2
  · calc |d| * |d| ≤ ((1 + u) * |e|) * ((1 + u) * |e|) := mul_self_le_mul_self (abs_nonneg _) a1
      _ = (1 + u) ^ 2 * (|e| * |e|) := by ring

theorem Rounded.sum2 {m n : Nat} {f g : Nat → Nat → ℝ}
    (h : ∀ i < m, ∀ j < n, Rounded u K (f i j) (g i j)) :
    Rounded u K (∑ i ∈ range m, ∑ j ∈ range n, f i j) (∑ i ∈ range m, ∑ j ∈ range n, g i j) := by
  simp only [Rounded, Finset.mul_sum]
  constructor
  · exact Finset.sum_le_sum fun i hi => Finset.sum_le_sum fun j hj =>
      (h i (by simpa using hi) j (by simpa using hj)).1
  · exact Finset.sum_le_sum fun i hi => Finset.sum_le_sum fun j hj =>
      (h i (by simpa using hi) j (by simpa using hj)).2

end rounded

/-! ### the loops -/

namespace FlArith
variable {F : FlArith} {u : ℝ}

theorem loop2_rel (P : Nat → ℝ → ℝ → Prop) (m n : Nat) (f : ℝ → Nat → Nat → ℝ)
    (t : Nat → Nat → ℝ)
    (step : ∀ k s S, ∀ i < m, ∀ j < n, P k s S → P (k + 1) (f s i j) (S + t i j))
    (k : Nat) (s S : ℝ) (h : P k s S) :
    P (k + m * n) (loop2 m n f s) (S + ∑ i ∈ range m, ∑ j ∈ range n, t i j) := by
  have inner : ∀ i < m, ∀ c ≤ n, ∀ k s S, P k s S →
      P (k + c) ((List.range c).foldl (fun s j => f s i j) s) (S + ∑ j ∈ range c, t i j) := by
    intro i hi c
    induction c with
    | zero => intro _ k s S h; simpa using h
    | succ c ih =>
      intro hc k s S h
      rw [List.range_succ, List.foldl_append, Finset.sum_range_succ, ← add_assoc, ← add_assoc]
      exact step _ _ _ i hi c (by omega) (ih (by omega) k s S h)
  have outer : ∀ r ≤ m, P (k + r * n)
      ((List.range r).foldl (fun s i => (List.range n).foldl (fun s j => f s i j) s) s)
      (S + ∑ i ∈ range r, ∑ j ∈ range n, t i j) := by
    intro r
    induction r with
    | zero => intro _; simpa using h
    | succ r ih =>
      intro hr
      rw [List.range_succ, List.foldl_append, Finset.sum_range_succ, ← add_assoc, Nat.succ_mul,
        ← Nat.add_assoc]
      exact inner r (by omega) n (le_refl _) _ _ _ (ih (by omega))
  exact outer m (le_refl _)

theorem normDense_rounded (hF : F.Sound u) (A : Dense ℝ) :
    Rounded u (A.rows * A.cols + 1) (F.normDense A)
      (∑ i ∈ range A.rows, ∑ j ∈ range A.cols, A.val i j * A.val i j) := by
  have := loop2_rel (fun k s S => 0 ≤ S ∧ Rounded u (k + 1) s S) A.rows A.cols
    (fun s i j => F.sqAdd s (A.val i j)) (fun i j => A.val i j * A.val i j)
    (fun k s S i _ j _ h => by
      obtain ⟨δ, ε, hδ, hε, e⟩ := hF.sqAdd s (A.val i j)
      have hq : 0 ≤ A.val i j * A.val i j := mul_self_nonneg _
      refine ⟨add_nonneg h.1 hq, ?_⟩
      simp only [e]
      refine Rounded.mul_one_add hF.u0 hF.u1 hε (add_nonneg h.1 hq) (Rounded.sum h.2 ?_)
      have h0 : Rounded u 0 (A.val i j * A.val i j) (A.val i j * A.val i j) := by simp [Rounded]
      exact (h0.mul_one_add hF.u0 hF.u1 hδ hq).mono hF.u0 hF.u1 (by omega) hq)
    0 0 0 ⟨le_refl _, Rounded.zero _ _⟩
  simpa [normDense] using this.2

theorem addLoop_rounded (hF : F.Sound u) (m n K : Nat) (g G : Nat → Nat → ℝ)
    (h : ∀ i < m, ∀ j < n, 0 ≤ G i j ∧ Rounded u K (g i j) (G i j)) :
    Rounded u (K + m * n) (loop2 m n (fun s i j => F.add s (g i j)) 0)
      (∑ i ∈ range m, ∑ j ∈ range n, G i j) := by
  have := loop2_rel (fun k s S => K ≤ k ∧ 0 ≤ S ∧ Rounded u k s S) m n
    (fun s i j => F.add s (g i j)) G
    (fun k s S i hi j hj hs => by
      obtain ⟨h1, h2⟩ := h i hi j hj
      refine ⟨by omega, add_nonneg hs.2.1 h1, ?_⟩
      exact Rounded.of_close hF.u0 hF.u1 (add_nonneg hs.2.1 h1)
        (Rounded.sum hs.2.2 (h2.mono hF.u0 hF.u1 hs.1 h1)) (hF.add _ _))
    K 0 0 ⟨le_refl _, le_refl _, Rounded.zero _ _⟩
  simpa using this.2.2

/-! ### reading the entries -/

theorem gamma_nonneg (hF : F.Sound u) (k : Nat) : 0 ≤ (1 + u) ^ k - 1 := by
  have := one_le_pow₀ (show 1 ≤ 1 + u by linarith [hF.u0]) (n := k)
  linarith

/-- Two products in a row. -/
theorem gemm_gemm (hF : F.Sound u) (k n : Nat) (U S V : Nat → Nat → ℝ) (i j : Nat) :
    |F.gemm n (F.gemm k U S) V i j -
        ∑ b ∈ range n, (∑ a ∈ range k, U i a * S a b) * V b j| ≤
      ((1 + u) ^ (k + n + 2) - 1) *
        ∑ b ∈ range n, (∑ a ∈ range k, |U i a| * |S a b|) * |V b j| := by
  have g1 := gamma_nonneg hF (k + 1)
  have g2 := gamma_nonneg hF (n + 1)
  set γ := (1 + u) ^ (k + 1) - 1 with hγ
  set γ' := (1 + u) ^ (n + 1) - 1 with hγ'
  have hp : (1 + u) ^ (k + n + 2) - 1 = γ' * (1 + γ) + γ := by
    rw [hγ, hγ']; ring
  have e1 := fun b => hF.gemm k U S i b
  have e2 := hF.gemm n (F.gemm k U S) V i j
  rw [← hγ] at e1
  rw [← hγ'] at e2
  set T := fun b => ∑ a ∈ range k, |U i a| * |S a b| with hT
  have t0 : ∀ b, 0 ≤ T b := fun b => Finset.sum_nonneg fun a _ =>
    mul_nonneg (abs_nonneg _) (abs_nonneg _)
  have us : ∀ b, |∑ a ∈ range k, U i a * S a b| ≤ T b := fun b =>
    le_trans (Finset.abs_sum_le_sum_abs _ _) (le_of_eq (Finset.sum_congr rfl fun a _ => abs_mul _ _))
  have w : ∀ b, |F.gemm k U S i b| ≤ (1 + γ) * T b := by
    intro b
    have := abs_sub_abs_le_abs_sub (F.gemm k U S i b) (∑ a ∈ range k, U i a * S a b)
    have := e1 b
    have := us b
    simp only [hT] at *
    linarith
  have s1 : ∑ b ∈ range n, |F.gemm k U S i b| * |V b j| ≤
      (1 + γ) * ∑ b ∈ range n, T b * |V b j| := by
    rw [Finset.mul_sum]
    refine Finset.sum_le_sum fun b _ => ?_
    rw [← mul_assoc]
    exact mul_le_mul_of_nonneg_right (w b) (abs_nonneg _)
  have s2 : |∑ b ∈ range n, F.gemm k U S i b * V b j -
      ∑ b ∈ range n, (∑ a ∈ range k, U i a * S a b) * V b j| ≤
      γ * ∑ b ∈ range n, T b * |V b j| := by
    rw [← Finset.sum_sub_distrib, Finset.mul_sum]
    refine le_trans (Finset.abs_sum_le_sum_abs _ _) (Finset.sum_le_sum fun b _ => ?_)
    rw [← sub_mul, abs_mul, ← mul_assoc]
    exact mul_le_mul_of_nonneg_right (e1 b) (abs_nonneg _)
  calc _ ≤ |F.gemm n (F.gemm k U S) V i j - ∑ b ∈ range n, F.gemm k U S i b * V b j| +
        |∑ b ∈ range n, F.gemm k U S i b * V b j -
          ∑ b ∈ range n, (∑ a ∈ range k, U i a * S a b) * V b j| := abs_sub_le _ _ _
    _ ≤ γ' * ((1 + γ) * ∑ b ∈ range n, T b * |V b j|) + γ * ∑ b ∈ range n, T b * |V b j| :=
        add_le_add (le_trans e2 (mul_le_mul_of_nonneg_left s1 g2)) s2
    _ = _ := by rw [hp]; ring

theorem fillDense_ok (hF : F.Sound u) (l : LowRank ℝ) (hl : l.WF) (B : Dense ℝ)
    (h0 : B.rows = l.dim0) (h1 : B.cols = l.dim1) :
    ∃ D, F.fillDense l B = .ok D ∧ D.rows = B.rows ∧ D.cols = B.cols ∧
      ∀ i j, |D.val i j - l.entry i j| ≤ (l.slack u).entry i j := by
  refine ⟨⟨B.rows, B.cols, F.gemm l.S.cols (F.gemm l.U.cols l.U.val l.S.val) l.V.val⟩, ?_, rfl, rfl,
    fun i j => ?_⟩
  · simp [fillDense, gemmDense, assertM, Dense.zero, hl.ucols, hl.srows, hl.vrows, hl.urows, hl.vcols,
      h0, h1]
  · have := gemm_gemm hF l.U.cols l.S.cols l.U.val l.S.val l.V.val i j
    simp only [LowRank.entry, LowRank.slack, hl.srows]
    rw [hl.ucols] at this ⊢
    refine le_trans this (le_of_eq ?_)
    simp only [Finset.mul_sum, Finset.sum_mul, mul_assoc]

end FlArith

namespace Mat
variable {u : ℝ}

@[simp] theorem nRows_slack (A : Mat ℝ) : (A.slack u).nRows = A.nRows := by
  induction A with
  | dense d => rfl
  | lowRank l => rfl
  | empty => rfl
  | hier br bc blk ih =>
    simp only [slack]
    rw [nRows_hier, nRows_hier]
    exact psum_congr fun a _ => ih a 0

@[simp] theorem nCols_slack (A : Mat ℝ) : (A.slack u).nCols = A.nCols := by
  induction A with
  | dense d => rfl
  | lowRank l => rfl
  | empty => rfl
  | hier br bc blk ih =>
    simp only [slack]
    rw [nCols_hier, nCols_hier]
    exact psum_congr fun a _ => ih 0 a

theorem slack_block {br bc : Nat} {blk : Nat → Nat → Mat ℝ} {a b r s : Nat}
    (ha : a < br) (hb : b < bc) (hr : r < (blk a 0).nRows) (hs : s < (blk 0 b).nCols) :
    ((Mat.hier br bc blk).slack u).entry (psum (fun a => (blk a 0).nRows) a + r)
      (psum (fun b => (blk 0 b).nCols) b + s) = ((blk a b).slack u).entry r s := by
  have := entry_block (blk := fun i j => (blk i j).slack u) (r := r) (s := s) ha hb
    (by simpa using hr) (by simpa using hs)
  simpa only [slack, nRows_slack, nCols_slack] using this

theorem WF_slack (A : Mat ℝ) (hA : A.WF) : (A.slack u).WF := by
  induction A with
  | dense d => trivial
  | lowRank l =>
    simp only [WF] at hA
    simp only [slack, WF]
    exact ⟨hA.urows, hA.ucols, hA.srows, hA.vrows, hA.vcols⟩
  | empty => trivial
  | hier br bc blk ih =>
    simp only [WF] at hA
    simp only [slack, WF, nRows_slack, nCols_slack]
    exact ⟨hA.1, hA.2.1, fun i hi j hj => ⟨ih i j (hA.2.2 i hi j hj).1, (hA.2.2 i hi j hj).2⟩⟩

/-- Splitting a leaf commutes with `slack`. -/
theorem split_slack {A M : Mat ℝ} (hA : A.WF) (hl : A.Leaf) {nr nc : Nat}
    (h : A.split nr nc = .ok M) : (A.slack u).split nr nc = .ok (M.slack u) := by
  unfold split at h ⊢
  rw [nRows_slack, nCols_slack]
  generalize (⟨0, (A.nRows : Int)⟩ : IndexRange).split nr = rs at h ⊢
  generalize (⟨0, (A.nCols : Int)⟩ : IndexRange).split nc = cs at h ⊢
  cases A with
  | hier => exact hl.elim
  | empty => exact hl.elim
  | dense d =>
    simp only [splitOmm, splitDense, slack, Dense.zero] at h ⊢
    by_cases hin : rangesInside d.rows rs = true ∧ rangesInside d.cols cs = true
    · simp only [if_pos hin, Except.ok.injEq] at h
      simp only [hin, and_self, if_true, ← h, slack, Dense.sub, Dense.zero]
    · simp only [if_neg hin] at h
      cases h
  | lowRank l =>
    simp only [WF] at hA
    simp only [splitOmm, splitLowRank, slack, LowRank.slack] at h ⊢
    by_cases hin : (rs.length ≤ 1 ∨ rangesInside l.U.rows rs = true) ∧
        (cs.length ≤ 1 ∨ rangesInside l.V.cols cs = true)
    · simp only [if_pos hin, Except.ok.injEq] at h
      rw [← h]
      simp only [hin, and_self, if_true, slack, LowRank.slack, LowRank.ofFactors, Dense.sub, hA.srows]
      congr 2
      funext i j
      split <;> split <;> rfl
    · simp only [if_neg hin] at h
      cases h

theorem Close.of_same {A B : Mat ℝ} {a : Nat → Nat → ℝ} (h : Close u B a)
    (s1 : SameEntries B A) (s2 : SameEntries (B.slack u) (A.slack u)) : Close u A a := by
  intro i hi j hj
  have hi' : i < B.nRows := by rw [s1.1]; exact hi
  have hj' : j < B.nCols := by rw [s1.2.1]; exact hj
  rw [← s1.2.2 i hi' j hj', ← s2.2.2 i (by simpa using hi') j (by simpa using hj')]
  exact h i hi' j hj'

/-- Putting the blocks together. -/
theorem Close.join {br bc : Nat} {blk : Nat → Nat → Mat ℝ} (hA : (Mat.hier br bc blk).WF)
    {c : Nat → Nat → Nat → Nat → ℝ} (h : ∀ i < br, ∀ j < bc, Close u (blk i j) (c i j)) :
    ∃ a, Close u (.hier br bc blk) a ∧
      ∀ p < br, ∀ q < bc, ∀ r < (blk p 0).nRows, ∀ s < (blk 0 q).nCols,
        a (psum (fun a => (blk a 0).nRows) p + r) (psum (fun a => (blk 0 a).nCols) q + s) =
          c p q r s := by
  have key : ∀ p < br, ∀ q < bc, ∀ r < (blk p 0).nRows, ∀ s < (blk 0 q).nCols,
      (fun i j => c (locate (fun a => (blk a 0).nRows) br i).1 (locate (fun a => (blk 0 a).nCols) bc j).1
        (locate (fun a => (blk a 0).nRows) br i).2 (locate (fun a => (blk 0 a).nCols) bc j).2)
        (psum (fun a => (blk a 0).nRows) p + r) (psum (fun a => (blk 0 a).nCols) q + s) =
          c p q r s := by
    intro p hp q hq r hr s hs
    simp only [locate_at (fun a => (blk a 0).nRows) br p r hp hr,
      locate_at (fun a => (blk 0 a).nCols) bc q s hq hs]
  refine ⟨fun i j => c (locate (fun a => (blk a 0).nRows) br i).1
    (locate (fun a => (blk 0 a).nCols) bc j).1 (locate (fun a => (blk a 0).nRows) br i).2
    (locate (fun a => (blk 0 a).nCols) bc j).2, ?_, key⟩
  simp only [WF] at hA
  intro i hi j hj
  rw [nRows_hier] at hi
  rw [nCols_hier] at hj
  obtain ⟨p, hp, r, hr, rfl⟩ := exists_block _ _ _ hi
  obtain ⟨q, hq, s, hs, rfl⟩ := exists_block _ _ _ hj
  rw [key p hp q hq r hr s hs, entry_block hp hq hr hs, slack_block hp hq hr hs]
  exact h p hp q hq r (by rw [(hA.2.2 p hp q hq).2.1]; exact hr) s
    (by rw [(hA.2.2 p hp q hq).2.2]; exact hs)

end Mat

namespace FlArith
variable {F : FlArith} {u : ℝ}
open Mat

theorem fillDenseFrom_ok (hF : F.Sound u) (A : Mat ℝ) (hA : A.WF) (B : Dense ℝ)
    (h0 : B.rows = A.nRows) (h1 : B.cols = A.nCols) :
    ∃ D, F.fillDenseFrom A B = .ok D ∧ D.rows = B.rows ∧ D.cols = B.cols ∧ Close u A D.val := by
  induction A generalizing B with
  | dense d =>
    simp only [nRows] at h0
    simp only [nCols] at h1
    refine ⟨⟨B.rows, B.cols, fun i j => d.val (0 + i) (0 + j)⟩, ?_, rfl, rfl, ?_⟩
    · simp [fillDenseFrom, h0, h1, assertM]
    · intro i _ j _; simp [entry, slack, Dense.zero]
  | lowRank l =>
    simp only [WF] at hA
    obtain ⟨D, hD, e1, e2, e3⟩ := fillDense_ok hF l hA B (by simpa [nRows] using h0)
      (by simpa [nCols] using h1)
    exact ⟨D, by simpa [fillDenseFrom] using hD, e1, e2, fun i _ j _ => e3 i j⟩
  | empty m n =>
    simp only [nRows] at h0
    simp only [nCols] at h1
    refine ⟨B.fill 0, ?_, rfl, rfl, ?_⟩
    · simp [fillDenseFrom, h0, h1, assertM]
    · intro i _ j _; simp [entry, slack, Dense.fill]
  | hier br bc blk ih =>
    have hA' := hA
    simp only [WF] at hA
    obtain ⟨hbr, hbc, hA⟩ := hA
    obtain ⟨b, hb, hs, -⟩ := splitLikeH_leaf (A := .dense B) (blk := blk) (br := br) (bc := bc)
      trivial trivial (by simpa [nRows] using h0) (by simpa [nCols] using h1)
    have key : ∀ i < br, ∀ j < bc, ∃ d : Dense ℝ,
        ((b i j).asDense >>= F.fillDenseFrom (blk i j)) = .ok d ∧ Close u (blk i j) d.val := by
      intro i hi j hj
      rw [hs i hi j hj]
      simp only [subBlock, asDense, except_bind_ok]
      obtain ⟨d, hd, -, -, hv⟩ := ih i j (hA i hi j hj).1
        (B.sub (psum (fun a => (blk a 0).nRows) i) (psum (fun a => (blk 0 a).nCols) j)
          (blk i 0).nRows (blk 0 j).nCols) (hA i hi j hj).2.1.symm (hA i hi j hj).2.2.symm
      exact ⟨d, hd, hv⟩
    obtain ⟨g, hg⟩ := collect2_exists (m := br) (n := bc) (f := fun i j =>
        (b i j).asDense >>= F.fillDenseFrom (blk i j))
      (fun i hi j hj => ⟨_, (key i hi j hj).choose_spec.1⟩)
    refine ⟨⟨B.rows, B.cols, joinVal br bc (fun i => (blk i 0).nRows)
      (fun j => (blk 0 j).nCols) g⟩, by simp only [fillDenseFrom, hb, except_bind_ok, hg],
      rfl, rfl, ?_⟩
    have hc : ∀ i < br, ∀ j < bc, Close u (blk i j) (g i j).val := by
      intro i hi j hj
      obtain ⟨d, hd, hv⟩ := key i hi j hj
      have := collect2_ok hg i hi j hj
      rw [hd] at this
      rw [← Except.ok.inj this]
      exact hv
    obtain ⟨a, ha, hv⟩ := Close.join hA' (c := fun i j => (g i j).val) hc
    intro i hi j hj
    have := ha i hi j hj
    rw [nRows_hier] at hi
    rw [nCols_hier] at hj
    obtain ⟨p, hp, r, hr, rfl⟩ := exists_block _ _ _ hi
    obtain ⟨q, hq, s, hs', rfl⟩ := exists_block _ _ _ hj
    rw [hv p hp q hq r hr s hs'] at this
    simp only [joinVal, locate_at (fun a => (blk a 0).nRows) br p r hp hr,
      locate_at (fun a => (blk 0 a).nCols) bc q s hq hs']
    exact this

theorem toDense_ok (hF : F.Sound u) (A : Mat ℝ) (hA : A.WF) :
    ∃ D, F.toDense A = .ok D ∧ D.rows = A.nRows ∧ D.cols = A.nCols ∧ Close u A D.val :=
  fillDenseFrom_ok hF A hA (Dense.zero A.nRows A.nCols) rfl rfl

/-! ### the norm -/

theorem adds_block {br bc : Nat} {blk : Nat → Nat → Mat ℝ} {i j : Nat} (hi : i < br) (hj : j < bc) :
    (blk i j).adds + br * bc ≤ (Mat.hier br bc blk).adds := by
  simp only [adds]
  have h1 : (blk i j).adds ≤ (range bc).sup (fun j => (blk i j).adds) :=
    Finset.le_sup (f := fun j => (blk i j).adds) (by simpa using hj)
  have h2 : (range bc).sup (fun j => (blk i j).adds) ≤
      (range br).sup (fun i => (range bc).sup (fun j => (blk i j).adds)) :=
    Finset.le_sup (f := fun i => (range bc).sup (fun j => (blk i j).adds)) (by simpa using hi)
  omega

theorem size_block {br bc : Nat} {blk : Nat → Nat → Mat ℝ} (hA : (Mat.hier br bc blk).WF)
    {i j : Nat} (hi : i < br) (hj : j < bc) :
    (blk i j).nRows * (blk i j).nCols ≤ (Mat.hier br bc blk).nRows * (Mat.hier br bc blk).nCols := by
  simp only [WF] at hA
  have h1 := psum_le (fun a => (blk a 0).nRows) hi
  have h2 := psum_le (fun a => (blk 0 a).nCols) hj
  rw [(hA.2.2 i hi j hj).2.1, (hA.2.2 i hi j hj).2.2]
  rw [nRows_hier, nCols_hier]
  exact Nat.mul_le_mul (by omega) (by omega)

theorem sumsq_nonneg (m n : Nat) (a : Nat → Nat → ℝ) :
    0 ≤ ∑ i ∈ range m, ∑ j ∈ range n, a i j * a i j :=
  Finset.sum_nonneg fun _ _ => Finset.sum_nonneg fun _ _ => mul_self_nonneg _

theorem norm_rounded (hF : F.Sound u) (A : Mat ℝ) (hA : A.WF) (hE : A.NoEmpty) :
    ∃ x a, F.norm A = .ok x ∧ Close u A a ∧
      Rounded u (A.nRows * A.nCols + 1 + A.adds) x
        (∑ i ∈ range A.nRows, ∑ j ∈ range A.nCols, a i j * a i j) := by
  induction A with
  | empty => exact hE.elim
  | dense d =>
    exact ⟨_, d.val, rfl, fun i _ j _ => by simp [entry, slack, Dense.zero],
      by simpa [adds, nRows, nCols] using normDense_rounded hF d⟩
  | lowRank l =>
    obtain ⟨D, hD, e0, e1, e2⟩ := toDense_ok hF _ hA
    refine ⟨_, D.val, by simp only [norm, hD]; rfl, e2, ?_⟩
    have := normDense_rounded hF D
    rw [e0, e1] at this
    simpa [adds] using this
  | hier br bc blk ih =>
    simp only [NoEmpty] at hE
    have hA' := hA
    simp only [WF] at hA'
    choose x a h1 h2 h3 using fun i hi j hj => ih i j (hA'.2.2 i hi j hj).1 (hE i hi j hj)
    obtain ⟨g, hg⟩ := collect2_exists (m := br) (n := bc) (f := fun i j => F.norm (blk i j))
      (fun i hi j hj => ⟨_, h1 i hi j hj⟩)
    obtain ⟨c, hc, hv⟩ := Close.join (u := u) hA
      (c := fun i j => if h : i < br ∧ j < bc then a i h.1 j h.2 else fun _ _ => 0)
      (fun i hi j hj => by simpa only [dif_pos (And.intro hi hj)] using h2 i hi j hj)
    refine ⟨_, c, by simp only [norm, hg]; rfl, hc, ?_⟩
    rw [sum_entry_blocks (fun i j => c i j * c i j) _ (fun p hp q hq r hr s hs => by
      simp only [hv p hp q hq r hr s hs]; rfl)]
    have := addLoop_rounded hF br bc
      ((Mat.hier br bc blk).nRows * (Mat.hier br bc blk).nCols + 1 +
        ((Mat.hier br bc blk).adds - br * bc)) g
      (fun p q => ∑ r ∈ range (blk p 0).nRows, ∑ s ∈ range (blk 0 q).nCols,
        (fun i j => if h : i < br ∧ j < bc then a i h.1 j h.2 else fun _ _ => 0) p q r s *
        (fun i j => if h : i < br ∧ j < bc then a i h.1 j h.2 else fun _ _ => 0) p q r s)
      (fun p hp q hq => by
        refine ⟨sumsq_nonneg _ _ _, ?_⟩
        have hgp := collect2_ok hg p hp q hq
        rw [h1 p hp q hq] at hgp
        rw [← Except.ok.inj hgp]
        simp only [dif_pos (And.intro hp hq)]
        have := h3 p hp q hq
        rw [(hA'.2.2 p hp q hq).2.1, (hA'.2.2 p hp q hq).2.2] at this
        refine this.mono hF.u0 hF.u1 ?_ (sumsq_nonneg _ _ _)
        have s1 := size_block hA hp hq
        rw [(hA'.2.2 p hp q hq).2.1, (hA'.2.2 p hp q hq).2.2] at s1
        have s2 := adds_block (blk := blk) hp hq
        omega)
    refine this.mono hF.u0 hF.u1 (le_of_eq ?_) ?_
    · have : br * bc ≤ (Mat.hier br bc blk).adds := by
        simp only [adds]; omega
      omega
    · exact Finset.sum_nonneg fun _ _ => Finset.sum_nonneg fun _ _ => sumsq_nonneg _ _ _

/-! ### the difference -/

theorem diffNormDense_rounded (hF : F.Sound u) {a b : Dense ℝ} {x y : ℝ}
    (h : F.diffNormDense a b = .ok (x, y)) :
    (a.rows = b.rows ∧ a.cols = b.cols) ∧
    Rounded u (a.rows * a.cols + 3) x (∑ i ∈ range a.rows, ∑ j ∈ range a.cols,
      (a.val i j - b.val i j) * (a.val i j - b.val i j)) ∧
    Rounded u (a.rows * a.cols + 3) y (∑ i ∈ range a.rows, ∑ j ∈ range a.cols,
      a.val i j * a.val i j) := by
  simp only [diffNormDense, subtract, except_bind_eq_ok, assertM_eq_ok, decide_eq_true_eq] at h
  obtain ⟨d, ⟨-, h1, -, h2, hd⟩, h⟩ := h
  cases hd
  have e := Prod.mk.inj (Except.ok.inj h)
  refine ⟨⟨h1, h2⟩, ?_, ?_⟩
  · rw [← e.1]
    have n1 := normDense_rounded hF ⟨a.rows, a.cols, fun i j => F.sub (a.val i j) (b.val i j)⟩
    refine Rounded.trans (K := a.rows * a.cols + 1) (L := 2) hF.u0 hF.u1 n1 ?_
    exact Rounded.sum2 fun i _ j _ => Rounded.sq hF.u1 (hF.sub _ _)
  · rw [← e.2]
    exact (normDense_rounded hF a).mono hF.u0 hF.u1 (by omega) (sumsq_nonneg _ _ _)

/-- What is claimed of the pair `{diff, mat_norm}`. -/
def DiffClaim (u : ℝ) (A B : Mat ℝ) (x y : ℝ) : Prop :=
  (A.nRows = B.nRows ∧ A.nCols = B.nCols) ∧ ∃ a b, Close u A a ∧ Close u B b ∧
    Rounded u (A.nRows * A.nCols + 3 + max A.adds B.adds) x
      (∑ i ∈ range A.nRows, ∑ j ∈ range A.nCols, (a i j - b i j) * (a i j - b i j)) ∧
    Rounded u (A.nRows * A.nCols + 3 + max A.adds B.adds) y
      (∑ i ∈ range A.nRows, ∑ j ∈ range A.nCols, a i j * a i j)

theorem diffClaim_of_dense (hF : F.Sound u) {A B : Mat ℝ} {a b : Dense ℝ} {x y : ℝ}
    (h : F.diffNormDense a b = .ok (x, y))
    (a0 : a.rows = A.nRows) (a1 : a.cols = A.nCols) (ae : Close u A a.val)
    (b0 : b.rows = B.nRows) (b1 : b.cols = B.nCols) (be : Close u B b.val) :
    DiffClaim u A B x y := by
  obtain ⟨⟨h1, h2⟩, h3, h4⟩ := diffNormDense_rounded hF h
  refine ⟨⟨by omega, by omega⟩, a.val, b.val, ae, be, ?_, ?_⟩
  · rw [a0, a1] at h3
    exact h3.mono hF.u0 hF.u1 (by omega) (sumsq_nonneg _ _ fun i j => a.val i j - b.val i j)
  · rw [a0, a1] at h4
    exact h4.mono hF.u0 hF.u1 (by omega) (sumsq_nonneg _ _ _)

theorem close_dense (d : Dense ℝ) : Close u (.dense d) d.val :=
  fun i _ j _ => by simp [entry, slack, Dense.zero]

theorem split_leaf {C M : Mat ℝ} (hC : C.WF) (hl : C.Leaf) {br bc : Nat} (hr : 1 ≤ br) (hc : 1 ≤ bc)
    (h : C.split br bc = .ok M) :
    ∃ b, M = .hier br bc b ∧ (Mat.hier br bc b).WF ∧ SameEntries (.hier br bc b) C ∧
      SameEntries ((Mat.hier br bc b).slack u) (C.slack u) ∧ (Mat.hier br bc b).adds = br * bc := by
  obtain ⟨b, rfl, hs⟩ := split_isSplit hC hr hc h
  obtain ⟨b', e, hs'⟩ := split_isSplit (WF_slack (u := u) C hC) hr hc (split_slack hC hl h)
  refine ⟨b, rfl, hs.wf (by omega) (by omega), hs.same (by omega) (by omega), ?_, ?_⟩
  · rw [e]; exact hs'.same (by omega) (by omega)
  · have leaf : ∀ i < br, ∀ j < bc, (b i j).adds = 0 := by
      cases C with
      | hier => exact hl.elim
      | empty => exact hl.elim
      | dense d =>
        simp only [split, splitOmm, splitDense] at h
        split at h
        · have h2 := Mat.hier.inj (Except.ok.inj h)
          intro i _ j _
          rw [← eq_of_heq (heq_of_eq h2.2.2)]
          rfl
        · cases h
      | lowRank l =>
        simp only [split, splitOmm, splitLowRank] at h
        split at h
        · have h2 := Mat.hier.inj (Except.ok.inj h)
          intro i _ j _
          rw [← eq_of_heq (heq_of_eq h2.2.2)]
          rfl
        · cases h
    have : ((range br).sup fun i => (range bc).sup fun j => (b i j).adds) = 0 := by
      rw [← Nat.bot_eq_zero, Finset.sup_eq_bot_iff]
      intro i hi
      rw [Finset.sup_eq_bot_iff]
      intro j hj
      exact leaf i (by simpa using hi) j (by simpa using hj)
    simp only [adds, this, Nat.add_zero]

theorem adds_ge (br bc : Nat) (blk : Nat → Nat → Mat ℝ) : br * bc ≤ (Mat.hier br bc blk).adds := by
  simp only [adds]; omega

theorem collectDiffNorm_rounded (hF : F.Sound u) (fuel : Nat) (A B : Mat ℝ) (hA : A.WF) (hB : B.WF)
    (x y : ℝ) (h : F.collectDiffNorm fuel A B = .ok (x, y)) : DiffClaim u A B x y := by
  induction fuel generalizing A B x y with
  | zero => simp [collectDiffNorm] at h
  | succ fuel ih =>
    have splitB : ∀ (br bc : Nat) (blk : Nat → Nat → Mat ℝ) (C : Mat ℝ),
        (Mat.hier br bc blk).WF → C.WF → C.Leaf →
        (do let BH ← C.split br bc; F.collectDiffNorm fuel (.hier br bc blk) BH) = .ok (x, y) →
        DiffClaim u (.hier br bc blk) C x y := by
      intro br bc blk C hH hC hl h
      rw [except_bind_eq_ok] at h
      obtain ⟨BH, h1, h2⟩ := h
      have hH' := hH
      simp only [WF] at hH'
      obtain ⟨b, rfl, hw, sm, ss, ad⟩ := split_leaf (u := u) hC hl (by omega) (by omega) h1
      obtain ⟨⟨e1, e2⟩, a, c, ca, cc, e3, e4⟩ := ih _ _ hH hw x y h2
      have := adds_ge br bc blk
      rw [ad, max_eq_left this] at e3 e4
      refine ⟨⟨by rw [e1, sm.1], by rw [e2, sm.2.1]⟩, a, c, ca, cc.of_same sm ss, ?_, ?_⟩
      · exact e3.mono hF.u0 hF.u1 (by omega) (sumsq_nonneg _ _ fun i j => a i j - c i j)
      · exact e4.mono hF.u0 hF.u1 (by omega) (sumsq_nonneg _ _ _)
    have splitA : ∀ (br bc : Nat) (blk : Nat → Nat → Mat ℝ) (C : Mat ℝ),
        (Mat.hier br bc blk).WF → C.WF → C.Leaf →
        (do let AH ← C.split br bc; F.collectDiffNorm fuel AH (.hier br bc blk)) = .ok (x, y) →
        DiffClaim u C (.hier br bc blk) x y := by
      intro br bc blk C hH hC hl h
      rw [except_bind_eq_ok] at h
      obtain ⟨AH, h1, h2⟩ := h
      have hH' := hH
      simp only [WF] at hH'
      obtain ⟨b, rfl, hw, sm, ss, ad⟩ := split_leaf (u := u) hC hl (by omega) (by omega) h1
      obtain ⟨⟨e1, e2⟩, a, c, ca, cc, e3, e4⟩ := ih _ _ hw hH x y h2
      have := adds_ge br bc blk
      rw [ad, max_eq_right this, sm.1, sm.2.1] at e3 e4
      refine ⟨⟨by rw [← e1, sm.1], by rw [← e2, sm.2.1]⟩, a, c, ca.of_same sm ss, cc, ?_, ?_⟩
      · exact e3.mono hF.u0 hF.u1 (by omega) (sumsq_nonneg _ _ fun i j => a i j - c i j)
      · exact e4.mono hF.u0 hF.u1 (by omega) (sumsq_nonneg _ _ _)
    cases A with
    | empty m n =>
      cases B with
      | hier br bc blk => simp [collectDiffNorm, split, splitOmm] at h
      | dense => simp [collectDiffNorm] at h
      | lowRank => simp [collectDiffNorm] at h
      | empty => simp [collectDiffNorm] at h
    | dense a =>
      cases B with
      | dense b =>
        simp only [collectDiffNorm] at h
        exact diffClaim_of_dense hF h rfl rfl (close_dense a) rfl rfl (close_dense b)
      | lowRank b =>
        obtain ⟨D, hD, e0, e1, e2⟩ := toDense_ok hF _ hB
        simp only [collectDiffNorm, hD, except_bind_ok] at h
        exact diffClaim_of_dense hF h rfl rfl (close_dense a) e0 e1 e2
      | hier br bc blk =>
        simp only [collectDiffNorm] at h
        exact splitA br bc blk _ hB hA trivial h
      | empty => simp [collectDiffNorm] at h
    | lowRank a =>
      obtain ⟨D, hD, e0, e1, e2⟩ := toDense_ok hF _ hA
      cases B with
      | dense b =>
        simp only [collectDiffNorm, hD, except_bind_ok] at h
        exact diffClaim_of_dense hF h e0 e1 e2 rfl rfl (close_dense b)
      | lowRank b =>
        obtain ⟨D', hD', e0', e1', e2'⟩ := toDense_ok hF _ hB
        simp only [collectDiffNorm, hD, hD', except_bind_ok] at h
        exact diffClaim_of_dense hF h e0 e1 e2 e0' e1' e2'
      | hier br bc blk =>
        simp only [collectDiffNorm] at h
        exact splitA br bc blk _ hB hA trivial h
      | empty => simp [collectDiffNorm] at h
    | hier br bc blk =>
      cases B with
      | dense b =>
        simp only [collectDiffNorm] at h
        exact splitB br bc blk _ hA hB trivial h
      | lowRank b =>
        simp only [collectDiffNorm] at h
        exact splitB br bc blk _ hA hB trivial h
      | empty => simp [collectDiffNorm, split, splitOmm] at h
      | hier br' bc' blk' =>
        simp only [collectDiffNorm] at h
        split at h
        · rename_i hb
          obtain ⟨rfl, rfl⟩ := hb
          rw [except_bind_eq_ok] at h
          obtain ⟨g, hg, h⟩ := h
          have e := Prod.mk.inj (Except.ok.inj h)
          have hA' := hA
          have hB' := hB
          simp only [WF] at hA' hB'
          have key : ∀ i < br, ∀ j < bc, DiffClaim u (blk i j) (blk' i j) (g i j).1 (g i j).2 :=
            fun i hi j hj => ih _ _ (hA'.2.2 i hi j hj).1 (hB'.2.2 i hi j hj).1 _ _
              (collect2_ok hg i hi j hj)
          have d0 : ∀ i < br, ∀ j < bc,
              (blk i j).nRows = (blk' i j).nRows ∧ (blk i j).nCols = (blk' i j).nCols :=
            fun i hi j hj => (key i hi j hj).1
          choose a b c1 c2 r1 r2 using fun i hi j hj => (key i hi j hj).2
          let a' : Nat → Nat → Nat → Nat → ℝ := fun i j =>
            if h : i < br ∧ j < bc then a i h.1 j h.2 else fun _ _ => 0
          let b' : Nat → Nat → Nat → Nat → ℝ := fun i j =>
            if h : i < br ∧ j < bc then b i h.1 j h.2 else fun _ _ => 0
          have ea : ∀ i (hi : i < br) j (hj : j < bc), a' i j = a i hi j hj :=
            fun i hi j hj => dif_pos (And.intro hi hj)
          have eb : ∀ i (hi : i < br) j (hj : j < bc), b' i j = b i hi j hj :=
            fun i hi j hj => dif_pos (And.intro hi hj)
          obtain ⟨p, hp, vp⟩ := Close.join (u := u) hA (c := a')
            (fun i hi j hj => by rw [ea i hi j hj]; exact c1 i hi j hj)
          obtain ⟨q, hq, vq⟩ := Close.join (u := u) hB (c := b')
            (fun i hi j hj => by rw [eb i hi j hj]; exact c2 i hi j hj)
          have vq' : ∀ i < br, ∀ j < bc, ∀ r < (blk i 0).nRows, ∀ s < (blk 0 j).nCols,
              q (psum (fun a => (blk a 0).nRows) i + r) (psum (fun a => (blk 0 a).nCols) j + s) =
                b' i j r s := by
            intro i hi j hj r hr s hs
            have e1 : psum (fun a => (blk a 0).nRows) i = psum (fun a => (blk' a 0).nRows) i :=
              psum_congr (fun a ha => (d0 a (by omega) 0 hA'.2.1).1)
            have e2 : psum (fun a => (blk 0 a).nCols) j = psum (fun a => (blk' 0 a).nCols) j :=
              psum_congr (fun a ha => (d0 0 hA'.1 a (by omega)).2)
            rw [e1, e2]
            exact vq i hi j hj r (by rw [← (d0 i hi 0 hA'.2.1).1]; exact hr) s
              (by rw [← (d0 0 hA'.1 j hj).2]; exact hs)
          have hK : ∀ i < br, ∀ j < bc,
              (blk i j).nRows * (blk i j).nCols + 3 + max (blk i j).adds (blk' i j).adds ≤
              (Mat.hier br bc blk).nRows * (Mat.hier br bc blk).nCols + 3 +
                (max (Mat.hier br bc blk).adds (Mat.hier br bc blk').adds - br * bc) := by
            intro i hi j hj
            have s1 := size_block hA hi hj
            have s2 := adds_block (blk := blk) hi hj
            have s3 := adds_block (blk := blk') hi hj
            omega
          have hge := adds_ge br bc blk
          refine ⟨⟨?_, ?_⟩, p, q, hp, hq, ?_, ?_⟩
          · rw [nRows_hier, nRows_hier]
            exact psum_congr (fun a ha => (d0 a ha 0 hA'.2.1).1)
          · rw [nCols_hier, nCols_hier]
            exact psum_congr (fun a ha => (d0 0 hA'.1 a ha).2)
          · rw [← e.1, sum_entry_blocks (fun i j => (p i j - q i j) * (p i j - q i j))
              (fun i j r s => (a' i j r s - b' i j r s) * (a' i j r s - b' i j r s))
              (fun i hi j hj r hr s hs => by rw [vp i hi j hj r hr s hs, vq' i hi j hj r hr s hs])]
            refine (addLoop_rounded hF br bc _ (fun i j => (g i j).1) _ (fun i hi j hj => ?_)).mono
              hF.u0 hF.u1 (K := (Mat.hier br bc blk).nRows * (Mat.hier br bc blk).nCols + 3 +
                (max (Mat.hier br bc blk).adds (Mat.hier br bc blk').adds - br * bc) + br * bc)
              (by omega) (Finset.sum_nonneg fun _ _ => Finset.sum_nonneg fun _ _ =>
                sumsq_nonneg _ _ fun r s => _ - _)
            refine ⟨sumsq_nonneg _ _ fun r s => _ - _, ?_⟩
            have := r1 i hi j hj
            rw [ea i hi j hj, eb i hi j hj, ← (hA'.2.2 i hi j hj).2.1, ← (hA'.2.2 i hi j hj).2.2]
            exact this.mono hF.u0 hF.u1 (hK i hi j hj) (sumsq_nonneg _ _ fun r s => _ - _)
          · rw [← e.2, sum_entry_blocks (fun i j => p i j * p i j)
              (fun i j r s => a' i j r s * a' i j r s)
              (fun i hi j hj r hr s hs => by rw [vp i hi j hj r hr s hs])]
            refine (addLoop_rounded hF br bc _ (fun i j => (g i j).2) _ (fun i hi j hj => ?_)).mono
              hF.u0 hF.u1 (K := (Mat.hier br bc blk).nRows * (Mat.hier br bc blk).nCols + 3 +
                (max (Mat.hier br bc blk).adds (Mat.hier br bc blk').adds - br * bc) + br * bc)
              (by omega) (Finset.sum_nonneg fun _ _ => Finset.sum_nonneg fun _ _ =>
                sumsq_nonneg _ _ _)
            refine ⟨sumsq_nonneg _ _ _, ?_⟩
            have := r2 i hi j hj
            rw [ea i hi j hj, ← (hA'.2.2 i hi j hj).2.1, ← (hA'.2.2 i hi j hj).2.2]
            exact this.mono hF.u0 hF.u1 (hK i hi j hj) (sumsq_nonneg _ _ _)
        · obtain ⟨D, hD, e0, e1, e2⟩ := toDense_ok hF _ hA
          obtain ⟨D', hD', e0', e1', e2'⟩ := toDense_ok hF _ hB
          simp only [hD, hD', except_bind_ok] at h
          exact diffClaim_of_dense hF h e0 e1 e2 e0' e1' e2'

end FlArith
end Verif
