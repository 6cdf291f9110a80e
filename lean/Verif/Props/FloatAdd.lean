import Verif.Model.FloatAdd
import Verif.Lemmas.FloatNorm
import Verif.Props.AddReturns
import Verif.Props.FloatHLu
import Verif.Lemmas.FloatQrOrth

/-!
C83: sums, differences and multiples of matrices in floating-point arithmetic.
-/

namespace Verif
open Finset

variable {F : FlBlas} {G : FlArith} {u : ℝ}

namespace Mat

theorem AddFits.dims {A B : Mat ℝ} (h : A.AddFits B) (hA : A.WF) : A.nRows = B.nRows ∧ A.nCols = B.nCols := by
  induction A generalizing B with
  | dense a =>
    cases B with
    | dense b => exact h
    | lowRank b => exact ⟨h.1, h.2.1⟩
    | _ => exact h.elim
  | lowRank a =>
    cases B with
    | lowRank b => exact ⟨h.1, h.2.1⟩
    | _ => exact h.elim
  | empty => cases B <;> exact h.elim
  | hier br bc blk ih =>
    cases B with
    | lowRank b => exact ⟨h.1, h.2.1⟩
    | hier br' bc' blk' =>
      obtain ⟨rfl, rfl, hb⟩ := h
      simp only [WF] at hA
      obtain ⟨p1, p2, hd⟩ := hA
      rw [nRows_hier, nRows_hier, nCols_hier, nCols_hier]
      exact ⟨psum_congr fun a ha => (ih a 0 (hb a ha 0 p2) (hd a ha 0 p2).1).1,
        psum_congr fun a ha => (ih 0 a (hb 0 p1 a ha) (hd 0 p1 a ha).1).2⟩
    | _ => exact h.elim

/-- Sums entry by entry: `E v a b m` for the new entry `v`, the old one `a`, the entry `b` that is
added and the absolute values `m` behind it. -/
theorem addFl (hF : F.Sound u) {E : ℝ → ℝ → ℝ → ℝ → Prop} {L : Nat} (hd : ∀ x y, E (G.add x y) x y |y|)
    (hl : ∀ k ≤ L, ∀ v a b m, FlNear u k v (a + b) (|a| + m) → E v a b m) {A B A' : Mat ℝ}
    (hA : A.WF) (hB : B.WF) (hc : A.AddFits B) (hL : B.lag ≤ L) (h : G.addAssign F A B = .ok A') :
    A'.WF ∧ A.SameShape A' ∧ ∀ i < A.nRows, ∀ j < A.nCols, E (A'.entry i j) (A.entry i j) (B.entry i j)
      (B.abs.entry i j) := by
  have lr : ∀ {A A' : Mat ℝ} {X : LowRank ℝ}, A.WF → X.WF → (Mat.lowRank X).lag ≤ L →
      F.addAssign A (.lowRank X) = .ok A' → A'.WF ∧ A.SameShape A' ∧ ∀ i < A.nRows, ∀ j < A.nCols,
        E (A'.entry i j) (A.entry i j) ((Mat.lowRank X).entry i j) ((Mat.lowRank X).abs.entry i j) := by
    intro A A' X hA hX hL h
    obtain ⟨-, -, h1, h2, h3⟩ := addAssign_fl hF hA hX h
    exact ⟨h1, h2, fun i hi j hj => hl _ hL _ _ _ _ (h3 i hi j hj)⟩
  induction A generalizing B A' with
  | dense a =>
    cases B with
    | dense b =>
      simp only [FlArith.addAssign, FlArith.addDense, except_bind_eq_ok] at h
      obtain ⟨d, ⟨-, -, h1⟩, h⟩ := h
      cases h1
      cases h
      exact ⟨trivial, ⟨rfl, rfl⟩, fun i _ j _ => hd _ _⟩
    | lowRank b =>
      simp only [FlArith.addAssign] at h
      exact lr hA hB hL h
    | _ => exact hc.elim
  | lowRank a =>
    cases B with
    | lowRank b =>
      simp only [FlArith.addAssign] at h
      exact lr hA hB hL h
    | _ => exact hc.elim
  | empty => cases B <;> exact hc.elim
  | hier br bc blk ih =>
    cases B with
    | lowRank b =>
      simp only [FlArith.addAssign] at h
      exact lr hA hB hL h
    | hier br' bc' blk' =>
      have hdim := hc
      obtain ⟨rfl, rfl, hb⟩ := hc
      simp only [FlArith.addAssign, except_bind_eq_ok] at h
      obtain ⟨g, hg, h⟩ := h
      cases h
      have hA' := hA
      have hB' := hB
      simp only [WF] at hA' hB'
      obtain ⟨p1, p2, hd'⟩ := hA'
      have one : ∀ i < br, ∀ j < bc, _ := fun i hi j hj => ih i j (hd' i hi j hj).1 (hB'.2.2 i hi j hj).1
        (hb i hi j hj) ((lag_block hi hj).trans hL) (by
          have := collect2_ok hg i hi j hj
          simp only [except_bind_eq_ok] at this
          obtain ⟨-, -, -, -, this⟩ := this
          exact this)
      refine blocks_fl hA (fun i j v => E v ((Mat.hier br bc blk).entry i j) ((Mat.hier br bc blk').entry i j)
        ((Mat.hier br bc blk').abs.entry i j)) fun i hi j hj => ⟨(one i hi j hj).1, (one i hi j hj).2.1,
        fun r hr s hs => ?_⟩
      have e0 : ∀ a < br, (blk a 0).nRows = (blk' a 0).nRows := fun a ha =>
        ((hb a ha 0 p2).dims (hd' a ha 0 p2).1).1
      have e1 : ∀ a < bc, (blk 0 a).nCols = (blk' 0 a).nCols := fun a ha =>
        ((hb 0 p1 a ha).dims (hd' 0 p1 a ha).1).2
      have f0 : psum (fun a => (blk a 0).nRows) i = psum (fun a => (blk' a 0).nRows) i :=
        psum_congr fun a ha => e0 a (by omega)
      have f1 : psum (fun a => (blk 0 a).nCols) j = psum (fun a => (blk' 0 a).nCols) j :=
        psum_congr fun a ha => e1 a (by omega)
      have hr' : r < (blk' i 0).nRows := by rw [← e0 i hi]; exact hr
      have hs' : s < (blk' 0 j).nCols := by rw [← e1 j hj]; exact hs
      rw [entry_block hi hj hr hs, f0, f1, entry_block hi hj hr' hs']
      have e := entry_block (blk := fun i j => (blk' i j).abs) (r := r) (s := s) hi hj
        (by simpa using hr') (by simpa using hs')
      simp only [nRows_abs, nCols_abs] at e
      simp only [Mat.abs] at e ⊢
      rw [e]
      exact (one i hi j hj).2.2 r (by rw [(hd' i hi j hj).2.1]; exact hr) s (by rw [(hd' i hi j hj).2.2]; exact hs)
    | _ => exact hc.elim

/-- The addition in floating-point arithmetic fails on the same operands as the exact one, with the same error. -/
theorem addFl_both (o : LrOps ℝ) {A B : Mat ℝ} (hA : A.HasBlocks) (hd : A.DenseLeaves) :
    Both (fun _ _ => True) (A.addAssign o B) (G.addAssign F A B) := by
  induction A generalizing B with
  | dense a =>
    cases B with
    | dense b =>
      simp only [Mat.addAssign, FlArith.addAssign, Dense.addAssign, FlArith.addDense]
      exact Both.map (P := fun _ _ => True) (Q := fun _ _ => True) (Both.bind_same _ (fun _ _ => Both.ok trivial))
        (fun _ _ _ => trivial)
    | lowRank b =>
      simp only [FlArith.addAssign]
      exact (fit_addAssign F o ⟨Shape.refl _, hA, hd⟩ ⟨rfl, rfl, .refl _, .refl _, .refl _⟩).mono (fun _ _ _ => trivial)
    | _ =>
      simp only [Mat.addAssign, FlArith.addAssign]
      exact Both.err _ _
  | lowRank a => exact hd.elim
  | empty => exact hd.elim
  | hier br bc blk ih =>
    cases B with
    | hier br' bc' blk' =>
      simp only [Mat.addAssign, FlArith.addAssign]
      exact (collect2_both (P := fun _ _ _ _ => True) (fun i hi j hj => Both.assert (fun _ => Both.assert (fun _ =>
        ih i j (hA.2.2 i hi j hj) (hd i hi j hj))))).map (fun _ _ _ => trivial)
    | lowRank b =>
      simp only [FlArith.addAssign]
      exact (fit_addAssign F o ⟨Shape.refl _, hA, hd⟩ ⟨rfl, rfl, .refl _, .refl _, .refl _⟩).mono (fun _ _ _ => trivial)
    | _ =>
      simp only [Mat.addAssign, FlArith.addAssign]
      exact Both.err _ _

end Mat

/-- C83.  `A += B` for a target with dense leaves and any matrix that can be added to it, every
operation rounding with unit roundoff `u`: it returns a matrix of the structure of `A`, each entry of
which differs from the sum by at most `(1+u)^k - 1` times the sum of absolute values, where `k` is 1, or
what the largest low-rank block of `B` needs. -/
theorem C83_add (hF : F.Sound u) (hG : G.Sound u) {A B : Mat ℝ} (hA : A.WF) (hd : A.DenseLeaves) (hB : B.WF)
    (hc : A.AddFits B) :
    ∃ A', G.addAssign F A B = .ok A' ∧ A'.WF ∧ A.SameShape A' ∧ ∀ i < A.nRows, ∀ j < A.nCols,
      |A'.entry i j - (A.entry i j + B.entry i j)| ≤
        ((1 + u) ^ max 1 B.lag - 1) * (|A.entry i j| + B.abs.entry i j) := by
  obtain ⟨x, hx, -⟩ := Mat.addAssign_total (o := Lapack.noOps ℝ) (sq := False) (Q := fun _ => False)
    ⟨fun _ _ h => h, fun _ _ _ _ _ _ _ _ h => h.elim, fun _ _ h => h.elim, fun _ _ h => h.elim,
      fun _ _ h => h.elim⟩ hA hd.square (hd.all _) hB (fun h => h.elim) hc
  rcases Mat.addFl_both (F := F) (G := G) (B := B) (Lapack.noOps ℝ) hA.hasBlocks hd with ⟨a, A', -, h, -⟩ | ⟨e, h, -⟩
  · refine ⟨A', h, Mat.addFl (E := fun v a b m => |v - (a + b)| ≤ ((1 + u) ^ max 1 B.lag - 1) * (|a| + m)) hF
      (L := B.lag) (fun x y => ?_) (fun k hk v a b m hn => ?_) hA hB hc le_rfl h⟩
    · have h1 : (1 + u) ^ 1 ≤ (1 + u) ^ max 1 B.lag := pow_le_pow_right₀ (by linarith [hG.u0]) (le_max_left _ _)
      have h2 := hG.add x y
      have h3 := abs_add_le x y
      have : u * |x + y| ≤ ((1 + u) ^ max 1 B.lag - 1) * (|x| + |y|) :=
        mul_le_mul (by linarith) h3 (abs_nonneg _) (by linarith [hG.u0])
      linarith
    · exact (hn.mono hF.u0 (hk.trans (le_max_right _ _))).1
  · rw [hx] at h
    cases h

/-- C83: without low-rank blocks each entry of the sum has a relative error of at most `u`. -/
theorem C83_add_relative (hF : F.Sound u) (hG : G.Sound u) {A B A' : Mat ℝ} (hA : A.WF) (hB : B.WF)
    (dB : B.DenseLeaves) (hc : A.AddFits B) (h : G.addAssign F A B = .ok A') :
    ∀ i < A.nRows, ∀ j < A.nCols,
      |A'.entry i j - (A.entry i j + B.entry i j)| ≤ u * |A.entry i j + B.entry i j| :=
  (Mat.addFl (E := fun v a b _ => |v - (a + b)| ≤ u * |a + b|) hF (L := 0) (fun x y => hG.add x y)
    (fun k hk v a b m hn => by
      obtain rfl : k = 0 := by omega
      have := hn.1
      simp only [pow_zero, sub_self, zero_mul] at this
      exact this.trans (mul_nonneg hF.u0 (abs_nonneg _))) hA hB hc (Mat.lag_leaves dB).le h).2.2

/-- C83: on a target with dense leaves the addition fails exactly when it fails in exact arithmetic, and
with the same error. -/
theorem C83_add_errors (o : LrOps ℝ) {A B : Mat ℝ} (hA : A.WF) (hd : A.DenseLeaves) (e : Err) :
    G.addAssign F A B = .error e ↔ A.addAssign o B = .error e := by
  rcases Mat.addFl_both (F := F) (G := G) (B := B) o hA.hasBlocks hd with ⟨a, b, h1, h2, -⟩ | ⟨e', h1, h2⟩
  · rw [h1, h2]
    simp
  · rw [h1, h2]

/-- C83: the difference of two dense matrices has entries with relative errors of at most `u`. -/
theorem C83_subtract (hG : G.Sound u) {A B : Dense ℝ} (h0 : A.rows = B.rows) (h1 : A.cols = B.cols) :
    ∃ C, G.subtract A B = .ok C ∧ C.rows = A.rows ∧ C.cols = A.cols ∧
      ∀ i < A.rows, ∀ j < A.cols, |C.val i j - (A.val i j - B.val i j)| ≤ u * |A.val i j - B.val i j| :=
  ⟨⟨A.rows, A.cols, fun i j => G.sub (A.val i j) (B.val i j)⟩, by simp [FlArith.subtract, assertM, h0, h1], rfl, rfl,
    fun i _ j _ => hG.sub _ _⟩

/-- C83: the difference of dense matrices of different dimensions fails in an assert, and in no other case. -/
theorem C83_subtract_errors {A B : Dense ℝ} (e : Err) :
    G.subtract A B = .error e ↔ e = .assertFail ∧ ¬ (A.rows = B.rows ∧ A.cols = B.cols) := by
  by_cases h0 : A.rows = B.rows <;> by_cases h1 : A.cols = B.cols <;>
    simp [FlArith.subtract, assertM, h0, h1, bind, Except.bind, eq_comm]

/-- C83: a multiple `A *= b` of a matrix of any structure without empty blocks: returns a matrix of the same
structure, and each entry differs from `b` times the old one by at most `u |b|` times its absolute values. -/
theorem C83_scale (hF : F.Sound u) (b : ℝ) {A : Mat ℝ} (hA : A.WF) (hE : A.NoEmpty) :
    ∃ A', F.scaleMat A b = .ok A' ∧ A'.WF ∧ A.SameShape A' ∧ ∀ i < A.nRows, ∀ j < A.nCols,
      |A'.entry i j - b * A.entry i j| ≤ u * |b| * A.abs.entry i j := by
  induction A with
  | dense d =>
    refine ⟨_, rfl, trivial, ⟨rfl, rfl⟩, fun i _ j _ => ?_⟩
    have := hF.mul (d.val i j) b
    rw [abs_mul, mul_comm (d.val i j) b] at this
    refine this.trans (le_of_eq ?_)
    show u * (|d.val i j| * |b|) = u * |b| * |d.val i j|
    ring
  | lowRank l =>
    refine ⟨_, rfl, ⟨hA.1, hA.2, hA.3, hA.4, hA.5⟩, ⟨rfl, rfl⟩, fun i _ j _ => ?_⟩
    show |(∑ c ∈ range l.S.cols, (∑ a ∈ range l.S.rows, l.U.val i a * F.mul (l.S.val a c) b) * l.V.val c j) -
      b * ∑ c ∈ range l.S.cols, (∑ a ∈ range l.S.rows, l.U.val i a * l.S.val a c) * l.V.val c j| ≤
      u * |b| * ∑ c ∈ range l.S.cols, (∑ a ∈ range l.S.rows, |l.U.val i a| * |l.S.val a c|) * |l.V.val c j|
    rw [Finset.mul_sum, ← Finset.sum_sub_distrib, Finset.mul_sum]
    refine (Finset.abs_sum_le_sum_abs _ _).trans (Finset.sum_le_sum fun c _ => ?_)
    have e : (∑ a ∈ range l.S.rows, l.U.val i a * F.mul (l.S.val a c) b) * l.V.val c j -
        b * ((∑ a ∈ range l.S.rows, l.U.val i a * l.S.val a c) * l.V.val c j) =
        (∑ a ∈ range l.S.rows, l.U.val i a * (F.mul (l.S.val a c) b - l.S.val a c * b)) * l.V.val c j := by
      rw [← mul_assoc, ← sub_mul, Finset.mul_sum, ← Finset.sum_sub_distrib]
      congr 1
      refine Finset.sum_congr rfl fun a _ => ?_
      ring
    rw [e, abs_mul, ← mul_assoc]
    refine mul_le_mul_of_nonneg_right ?_ (abs_nonneg _)
    refine (Finset.abs_sum_le_sum_abs _ _).trans ?_
    rw [Finset.mul_sum]
    refine Finset.sum_le_sum fun a _ => ?_
    rw [abs_mul]
    have := mul_le_mul_of_nonneg_left (hF.mul (l.S.val a c) b) (abs_nonneg (l.U.val i a))
    refine this.trans (le_of_eq ?_)
    rw [abs_mul]
    ring
  | empty => exact hE.elim
  | hier br bc blk ih =>
    have hA' := hA
    simp only [Mat.WF] at hA'
    obtain ⟨p1, p2, hd⟩ := hA'
    have one := fun i hi j hj => ih i j (hd i hi j hj).1 (hE i hi j hj)
    obtain ⟨g, hg⟩ := collect2_exists (m := br) (n := bc) (f := fun i j => F.scaleMat (blk i j) b)
      (fun i hi j hj => by
        obtain ⟨x, hx, -⟩ := one i hi j hj
        exact ⟨x, hx⟩)
    refine ⟨.hier br bc g, by simp only [FlBlas.scaleMat, hg, except_bind_ok], Mat.blocks_fl hA
      (fun i j v => |v - b * (Mat.hier br bc blk).entry i j| ≤ u * |b| * (Mat.hier br bc blk).abs.entry i j)
      fun i hi j hj => ?_⟩
    obtain ⟨x, hx, x1, x2, x3⟩ := one i hi j hj
    have := collect2_ok hg i hi j hj
    rw [hx] at this
    obtain rfl := Except.ok.inj this
    refine ⟨x1, x2, fun r hr s hs => ?_⟩
    have e := Mat.entry_block (blk := fun i j => (blk i j).abs) (r := r) (s := s) hi hj
      (by simpa using hr) (by simpa using hs)
    simp only [Mat.nRows_abs, Mat.nCols_abs] at e
    rw [Mat.entry_block hi hj hr hs]
    simp only [Mat.abs] at e ⊢
    rw [e]
    exact x3 r (by rw [(hd i hi j hj).2.1]; exact hr) s (by rw [(hd i hi j hj).2.2]; exact hs)

/-- Converting blocks of dense matrices copies numbers. -/
theorem FlArith.toDense_copies (G : FlArith) (m n : Nat) (g : Nat → Nat → Dense ℝ) :
    G.toDense (.hier m n (fun i j => .dense (g i j))) = (Mat.hier m n (fun i j => .dense (g i j))).toDense := by
  have e : ∀ d : Dense ℝ, G.fillDenseFrom (.dense d) = (Mat.dense d).fillDenseFrom := fun d => by
    funext B
    simp only [FlArith.fillDenseFrom, Mat.fillDenseFrom]
  simp only [FlArith.toDense, Mat.toDense]
  unfold FlArith.fillDenseFrom Mat.fillDenseFrom
  congr 1
  funext BH
  cases BH <;> simp only [e]

/-- C83, mode "naive", ranks that add up to less than the dimensions: low-rank matrices are added without
any rounding error, whatever the arithmetic, and the ranks are added. -/
theorem C83_naive_exact (trunc : Dense ℝ → Nat → Except Err (LowRank ℝ)) {A B : LowRank ℝ} (hA : A.WF)
    (sA : A.Square) (hB : B.WF) (sB : B.Square) (h0 : A.dim0 = B.dim0) (h1 : A.dim1 = B.dim1)
    (hr : A.rank + B.rank < min A.dim0 A.dim1) :
    ∃ C, G.naiveAdd trunc A B = .ok C ∧ C.WF ∧ C.dim0 = A.dim0 ∧ C.dim1 = A.dim1 ∧ C.rank = A.rank + B.rank ∧
      ∀ i < A.dim0, ∀ j < A.dim1,
        (Mat.lowRank C).entry i j = (Mat.lowRank A).entry i j + (Mat.lowRank B).entry i j := by
  let L : Lapack ℝ := ⟨fun _ _ => (fun _ _ => 0, fun _ _ => 0), fun _ _ => (fun _ _ => 0, fun _ _ => 0),
    fun _ => (fun _ _ => 0, fun _ => 0, fun _ _ => 0), fun _ _ => 0, fun _ _ => (0, fun _ _ => 0, fun _ _ => 0),
    fun _ _ _ _ _ => 0⟩
  obtain ⟨C, h, h2, -, h3, h4, h5, -, h6⟩ := LowRank.naiveAdd_merge L hA sA hB sB h0 h1 hr
  refine ⟨C, ?_, h2, h3, h4, h5, h6⟩
  rw [← h, FlArith.naiveAdd, LowRank.naiveAdd, if_neg (by omega), if_neg (by omega), G.toDense_copies, G.toDense_copies,
    G.toDense_copies]

/-- C83, mode "naive", larger ranks: the truncation to the rank of `A` is applied to a dense matrix whose entries
differ from the sum by one rounding and the errors of the two conversions to dense matrices. -/
theorem C83_naive_truncates (hG : G.Sound u) (trunc : Dense ℝ → Nat → Except Err (LowRank ℝ)) {A B : LowRank ℝ}
    (hA : A.WF) (hB : B.WF) (h0 : A.dim0 = B.dim0) (h1 : A.dim1 = B.dim1)
    (hr : min A.dim0 A.dim1 ≤ A.rank + B.rank) :
    ∃ D : Dense ℝ, D.rows = A.dim0 ∧ D.cols = A.dim1 ∧ G.naiveAdd trunc A B = trunc D A.rank ∧
      ∀ i < A.dim0, ∀ j < A.dim1,
        |D.val i j - ((Mat.lowRank A).entry i j + (Mat.lowRank B).entry i j)| ≤
          u * |(Mat.lowRank A).entry i j + (Mat.lowRank B).entry i j| +
          (1 + u) * (((Mat.lowRank A).slack u).entry i j + ((Mat.lowRank B).slack u).entry i j) := by
  obtain ⟨a, ha, a0, a1, ea⟩ := FlArith.toDense_ok hG (.lowRank A) hA
  obtain ⟨b, hb, b0, b1, eb⟩ := FlArith.toDense_ok hG (.lowRank B) hB
  refine ⟨⟨a.rows, a.cols, fun i j => G.add (a.val i j) (b.val i j)⟩, a0, a1, ?_, fun i hi j hj => ?_⟩
  · have : a.rows = 0 ∨ a.cols = 0 ∨ (a.rows ≤ b.rows ∧ a.cols ≤ b.cols) := by
      have e0 : a.rows = A.dim0 := a0
      have e1 : a.cols = A.dim1 := a1
      have e2 : b.rows = B.dim0 := b0
      have e3 : b.cols = B.dim1 := b1
      right; right; omega
    rw [FlArith.naiveAdd, if_pos hr, ha, except_bind_ok, hb, except_bind_ok, FlArith.addDense]
    simp [this, assertM]
  · have p := ea i hi j hj
    have q := eb i (by rw [h0] at hi; exact hi) j (by rw [h1] at hj; exact hj)
    have r := hG.add (a.val i j) (b.val i j)
    have u0 := hG.u0
    show |G.add (a.val i j) (b.val i j) - _| ≤ _
    generalize (Mat.lowRank A).entry i j = x at *
    generalize (Mat.lowRank B).entry i j = y at *
    generalize ((Mat.lowRank A).slack u).entry i j = s at *
    generalize ((Mat.lowRank B).slack u).entry i j = t at *
    generalize a.val i j = v at *
    generalize b.val i j = w at *
    have k : |(v + w) - (x + y)| ≤ s + t := by
      rw [show (v + w) - (x + y) = (v - x) + (w - y) by ring]
      exact (abs_add_le _ _).trans (by linarith)
    have k2 : |v + w| ≤ |x + y| + (s + t) := by
      have := abs_add_le ((v + w) - (x + y)) (x + y)
      rw [sub_add_cancel] at this
      linarith
    have k3 := mul_le_mul_of_nonneg_left k2 u0
    have := abs_add_le (G.add v w - (v + w)) ((v + w) - (x + y))
    rw [sub_add_sub_cancel] at this
    linarith

theorem frob_abs_le {m n : Nat} {X e : Nat → Nat → ℝ} (h : ∀ i < m, ∀ j < n, |X i j| ≤ e i j) :
    frob m n X ≤ frob m n e := by
  refine Real.sqrt_le_sqrt (Finset.sum_le_sum fun i hi => Finset.sum_le_sum fun j hj => ?_)
  have := h i (mem_range.1 hi) j (mem_range.1 hj)
  exact sq_le_sq.2 (this.trans (le_abs_self _))

/-- C83, mode "naive", larger ranks: let the truncation be optimal among the matrices of the given rank up to a factor
`1+η` and an error of `δ` times the norm.  Then the sum of two low-rank matrices is optimal among the matrices of the
rank of `A` in the same sense, up to the roundings `E` of the conversions and of the addition. -/
theorem C83_naive_optimal (hG : G.Sound u) {trunc : Dense ℝ → Nat → Except Err (LowRank ℝ)} {η δ : ℝ} (hη : 0 ≤ η)
    (hδ : 0 ≤ δ) {A B C M : LowRank ℝ} (hA : A.WF) (hB : B.WF) (h0 : A.dim0 = B.dim0) (h1 : A.dim1 = B.dim1)
    (hr : min A.dim0 A.dim1 ≤ A.rank + B.rank)
    (hT : ∀ (D : Dense ℝ) (r : Nat) (X Y : LowRank ℝ), trunc D r = .ok X → Y.WF → Y.rank = r → Y.dim0 = D.rows →
      Y.dim1 = D.cols → frob D.rows D.cols (fun i j => (Mat.lowRank X).entry i j - D.val i j) ≤
        (1 + η) * frob D.rows D.cols (fun i j => (Mat.lowRank Y).entry i j - D.val i j) +
          δ * frob D.rows D.cols D.val)
    (hM : M.WF) (m0 : M.rank = A.rank) (m1 : M.dim0 = A.dim0) (m2 : M.dim1 = A.dim1)
    (h : G.naiveAdd trunc A B = .ok C) :
    let S := fun i j => (Mat.lowRank A).entry i j + (Mat.lowRank B).entry i j
    let E := frob A.dim0 A.dim1 fun i j => u * |S i j| +
      (1 + u) * (((Mat.lowRank A).slack u).entry i j + ((Mat.lowRank B).slack u).entry i j)
    frob A.dim0 A.dim1 (fun i j => (Mat.lowRank C).entry i j - S i j) ≤
      (1 + η) * (frob A.dim0 A.dim1 (fun i j => (Mat.lowRank M).entry i j - S i j) + E) +
        δ * (frob A.dim0 A.dim1 S + E) + E := by
  intro S E
  obtain ⟨D, d0, d1, hD, e⟩ := C83_naive_truncates hG trunc hA hB h0 h1 hr
  rw [hD] at h
  have t := hT D A.rank C M h hM m0 (m1.trans d0.symm) (m2.trans d1.symm)
  rw [d0, d1] at t
  have e1 : frob A.dim0 A.dim1 (fun i j => D.val i j - S i j) ≤ E := frob_abs_le e
  have e2 : frob A.dim0 A.dim1 (fun i j => S i j - D.val i j) ≤ E :=
    frob_abs_le fun i hi j hj => by rw [abs_sub_comm]; exact e i hi j hj
  have a1 := frob_via (X := fun i j => (Mat.lowRank M).entry i j) (Y := S) (Z := D.val) le_rfl e2
  have a2 : frob A.dim0 A.dim1 D.val ≤ frob A.dim0 A.dim1 S + E := by
    have := frob_add A.dim0 A.dim1 S (fun i j => D.val i j - S i j)
    simp only [add_sub_cancel] at this
    exact this.trans (by linarith)
  have a3 := frob_via (X := fun i j => (Mat.lowRank C).entry i j) (Y := D.val) (Z := S) t e1
  have b1 := mul_le_mul_of_nonneg_left a1 (by linarith : 0 ≤ 1 + η)
  have b2 := mul_le_mul_of_nonneg_left a2 hδ
  linarith

/-- Two matrices of the same subdivision: dense blocks meet dense blocks of the same dimensions, low-rank blocks
meet low-rank blocks of the same dimensions, with ranks that add up to less than the dimensions. -/
def Mat.SmallRanks : Mat ℝ → Mat ℝ → Prop
  | .dense a, .dense b => a.rows = b.rows ∧ a.cols = b.cols
  | .lowRank a, .lowRank b => a.Square ∧ b.Square ∧ a.dim0 = b.dim0 ∧ a.dim1 = b.dim1 ∧
      a.rank + b.rank < min a.dim0 a.dim1
  | .hier br bc blk, .hier br' bc' blk' => br = br' ∧ bc = bc' ∧
      ∀ i < br, ∀ j < bc, (blk i j).SmallRanks (blk' i j)
  | _, _ => False

theorem Mat.SmallRanks.dims {A B : Mat ℝ} (h : A.SmallRanks B) (hA : A.WF) :
    A.nRows = B.nRows ∧ A.nCols = B.nCols := by
  induction A generalizing B with
  | dense a => cases B <;> first | exact h | exact h.elim
  | lowRank a => cases B <;> first | exact ⟨h.2.2.1, h.2.2.2.1⟩ | exact h.elim
  | empty => cases B <;> exact h.elim
  | hier br bc blk ih =>
    cases B with
    | hier br' bc' blk' =>
      obtain ⟨rfl, rfl, hb⟩ := h
      simp only [WF] at hA
      obtain ⟨p1, p2, hd⟩ := hA
      rw [nRows_hier, nRows_hier, nCols_hier, nCols_hier]
      exact ⟨psum_congr fun a ha => (ih a 0 (hb a ha 0 p2) (hd a ha 0 p2).1).1,
        psum_congr fun a ha => (ih 0 a (hb 0 p1 a ha) (hd 0 p1 a ha).1).2⟩
    | _ => exact h.elim

/-- C83, mode "naive": matrices of the same subdivision, low-rank blocks of small ranks included, are added
with a relative error of at most `u` in each entry. -/
theorem C83_naive_relative (hG : G.Sound u) (trunc : Dense ℝ → Nat → Except Err (LowRank ℝ)) {A B : Mat ℝ}
    (hA : A.WF) (hB : B.WF) (hc : A.SmallRanks B) :
    ∃ A', G.addNaive F trunc A B = .ok A' ∧ A'.WF ∧ A.SameShape A' ∧ ∀ i < A.nRows, ∀ j < A.nCols,
      |A'.entry i j - (A.entry i j + B.entry i j)| ≤ u * |A.entry i j + B.entry i j| := by
  induction A generalizing B with
  | dense a =>
    cases B with
    | dense b =>
      obtain ⟨h0, h1⟩ := hc
      refine ⟨.dense ⟨a.rows, a.cols, fun i j => G.add (a.val i j) (b.val i j)⟩, ?_, trivial, ⟨rfl, rfl⟩,
        fun i _ j _ => hG.add _ _⟩
      have : a.rows = 0 ∨ a.cols = 0 ∨ (a.rows ≤ b.rows ∧ a.cols ≤ b.cols) := by omega
      simp [FlArith.addNaive, FlArith.addDense, this, assertM]
    | _ => exact hc.elim
  | lowRank a =>
    cases B with
    | lowRank b =>
      obtain ⟨s0, s1, h0, h1, h2⟩ := hc
      obtain ⟨c, h, c1, c2, c3, -, c5⟩ := C83_naive_exact (G := G) trunc hA s0 hB s1 h0 h1 h2
      refine ⟨.lowRank c, by simp [FlArith.addNaive, h, h0, h1, assertM], c1, ⟨c2.symm, c3.symm⟩, fun i hi j hj => ?_⟩
      rw [c5 i hi j hj, sub_self, abs_zero]
      exact mul_nonneg hG.u0 (abs_nonneg _)
    | _ => exact hc.elim
  | empty => cases B <;> exact hc.elim
  | hier br bc blk ih =>
    cases B with
    | hier br' bc' blk' =>
      obtain ⟨rfl, rfl, hb⟩ := hc
      have hA' := hA
      have hB' := hB
      simp only [Mat.WF] at hA' hB'
      obtain ⟨p1, p2, hd⟩ := hA'
      have one := fun i hi j hj => ih i j (hd i hi j hj).1 (hB'.2.2 i hi j hj).1 (hb i hi j hj)
      have two : ∀ i < br, ∀ j < bc, (do
          assertM (decide (i < br))
          assertM (decide (j < bc))
          G.addNaive F trunc (blk i j) (blk' i j)) = G.addNaive F trunc (blk i j) (blk' i j) := by
        intro i hi j hj
        simp [hi, hj, assertM]
      obtain ⟨g, hg⟩ := collect2_exists (m := br) (n := bc) (f := fun i j => do
          assertM (decide (i < br))
          assertM (decide (j < bc))
          G.addNaive F trunc (blk i j) (blk' i j))
        (fun i hi j hj => by
          obtain ⟨x, hx, -⟩ := one i hi j hj
          exact ⟨x, by rw [two i hi j hj]; exact hx⟩)
      refine ⟨.hier br bc g, by simp only [FlArith.addNaive, hg, except_bind_ok], Mat.blocks_fl hA
        (fun i j v => |v - ((Mat.hier br bc blk).entry i j + (Mat.hier br bc blk').entry i j)| ≤
          u * |(Mat.hier br bc blk).entry i j + (Mat.hier br bc blk').entry i j|) fun i hi j hj => ?_⟩
      obtain ⟨x, hx, x1, x2, x3⟩ := one i hi j hj
      have := collect2_ok hg i hi j hj
      rw [two i hi j hj, hx] at this
      obtain rfl := Except.ok.inj this
      refine ⟨x1, x2, fun r hr s hs => ?_⟩
      have e0 : ∀ a < br, (blk a 0).nRows = (blk' a 0).nRows := fun a ha =>
        ((hb a ha 0 p2).dims (hd a ha 0 p2).1).1
      have e1 : ∀ a < bc, (blk 0 a).nCols = (blk' 0 a).nCols := fun a ha =>
        ((hb 0 p1 a ha).dims (hd 0 p1 a ha).1).2
      have f0 : psum (fun a => (blk a 0).nRows) i = psum (fun a => (blk' a 0).nRows) i :=
        psum_congr fun a ha => e0 a (by omega)
      have f1 : psum (fun a => (blk 0 a).nCols) j = psum (fun a => (blk' 0 a).nCols) j :=
        psum_congr fun a ha => e1 a (by omega)
      rw [Mat.entry_block hi hj hr hs, f0, f1, Mat.entry_block hi hj (by rw [← e0 i hi]; exact hr)
        (by rw [← e1 j hj]; exact hs)]
      exact x3 r (by rw [(hd i hi j hj).2.1]; exact hr) s (by rw [(hd i hi j hj).2.2]; exact hs)
    | _ => exact hc.elim

namespace Mat

/-- A low-rank matrix added to a matrix of any structure in mode "naive". -/
theorem addNaive_fl (hF : F.Sound u) (trunc : Dense ℝ → Nat → Except Err (LowRank ℝ)) {k : Nat} {A A' : Mat ℝ}
    {X : LowRank ℝ} (hA : A.WF) (hX : X.WF) (hXs : X.Square) (hk : X.S.rows = k)
    (hs0 : A.All fun a => a.Square ∧ a.rank + k < min a.dim0 a.dim1)
    (h : G.addNaive F trunc A (.lowRank X) = .ok A') :
    A.nRows = X.dim0 ∧ A.nCols = X.dim1 ∧ A'.WF ∧ A.SameShape A' ∧
    ∀ i < A.nRows, ∀ j < A.nCols,
      FlNear u (X.S.rows + X.S.cols + 4) (A'.entry i j) (A.entry i j + X.entry i j)
        (|A.entry i j| + X.abs.entry i j) := by
  induction A generalizing X A' with
  | dense a =>
    simp only [FlArith.addNaive] at h
    exact addAssign_fl hF hA hX (by simpa only [FlBlas.addAssign] using h)
  | lowRank a =>
    simp only [FlArith.addNaive, except_bind_eq_ok, assertM_eq_ok, decide_eq_true_eq] at h
    obtain ⟨-, h0, -, h1, c, hc, h⟩ := h
    cases h
    obtain ⟨c', hc', c1, c2, c3, -, c5⟩ := C83_naive_exact (G := G) trunc hA hs0.1 hX hXs h0 h1
      (by rw [← hX.srows, hk]; exact hs0.2)
    rw [hc] at hc'
    obtain rfl := Except.ok.inj hc'
    refine ⟨h0, h1, c1, ⟨c2.symm, c3.symm⟩, fun i hi j hj => ?_⟩
    rw [c5 i hi j hj]
    have m : |X.entry i j| ≤ X.abs.entry i j := abs_entry_le (.lowRank X) i j
    have e : |(Mat.lowRank a).entry i j + X.entry i j| ≤ |(Mat.lowRank a).entry i j| + X.abs.entry i j :=
      (abs_add_le _ _).trans (by linarith)
    refine ⟨?_, e⟩
    show |(Mat.lowRank a).entry i j + X.entry i j - ((Mat.lowRank a).entry i j + X.entry i j)| ≤ _
    rw [sub_self, abs_zero]
    have : 1 ≤ (1 + u) ^ (X.S.rows + X.S.cols + 4) := one_le_pow₀ (by linarith [hF.u0])
    exact mul_nonneg (by linarith) ((abs_nonneg _).trans e)
  | empty => simp [FlArith.addNaive] at h
  | hier br bc blk ih =>
    simp only [FlArith.addNaive, except_bind_eq_ok] at h
    obtain ⟨BH, hs, h⟩ := h
    have hA' := hA
    simp only [WF] at hA'
    obtain ⟨hbr, hbc, hd⟩ := hA'
    obtain ⟨b, rfl, bw, bS, bWF, same, same2⟩ := split_lr hX hbr hbc hs
    simp only [except_bind_eq_ok] at h
    obtain ⟨g, hg, h⟩ := h
    cases h
    have st : ∀ i < br, ∀ j < bc, G.addNaive F trunc (blk i j) (.lowRank (b i j)) = .ok (g i j) := by
      intro i hi j hj
      have := collect2_ok hg i hi j hj
      simp only [except_bind_eq_ok] at this
      obtain ⟨-, -, -, -, this⟩ := this
      exact this
    have one := fun i hi j hj => ih i j (hd i hi j hj).1 (bw i hi j hj)
      (by
        have h1 := (bw i hi j hj).srows
        have h2 := hX.srows
        have h3 : X.S.cols = X.rank := hXs
        show (b i j).S.cols = (b i j).rank
        rw [(bS i hi j hj).2, ← h1, (bS i hi j hj).1, h2, h3])
      ((bS i hi j hj).1.trans hk) (hs0 i hi j hj) (st i hi j hj)
    have d1 : ∀ a < br, (blk a 0).nRows = (b a 0).dim0 := fun a ha => (one a ha 0 hbc).1
    have d2 : ∀ a < bc, (blk 0 a).nCols = (b 0 a).dim1 := fun a ha => (one 0 hbr a ha).2.1
    have dr : (Mat.hier br bc blk).nRows = X.dim0 := by
      rw [show X.dim0 = (Mat.lowRank X).nRows from rfl, ← same.1, nRows_hier, nRows_hier]
      exact psum_congr fun a ha => d1 a ha
    have dc : (Mat.hier br bc blk).nCols = X.dim1 := by
      rw [show X.dim1 = (Mat.lowRank X).nCols from rfl, ← same.2.1, nCols_hier, nCols_hier]
      exact psum_congr fun a ha => d2 a ha
    refine ⟨dr, dc, blocks_fl hA (fun i j v => FlNear u (X.S.rows + X.S.cols + 4) v
      ((Mat.hier br bc blk).entry i j + X.entry i j)
      (|(Mat.hier br bc blk).entry i j| + X.abs.entry i j)) fun i hi j hj =>
      ⟨(one i hi j hj).2.2.1, (one i hi j hj).2.2.2.1, fun r hr s hs => ?_⟩⟩
    have key := (one i hi j hj).2.2.2.2 r (by rw [(hd i hi j hj).2.1]; exact hr) s
      (by rw [(hd i hi j hj).2.2]; exact hs)
    rw [(bS i hi j hj).1, (bS i hi j hj).2] at key
    rw [entry_block hi hj hr hs]
    have eX : ∀ (Y : LowRank ℝ) (c : Nat → Nat → LowRank ℝ),
        SameEntries (.hier br bc fun i j => .lowRank (c i j)) (.lowRank Y) →
        (∀ a, (c a 0).dim0 = (b a 0).dim0) → (∀ a, (c 0 a).dim1 = (b 0 a).dim1) →
        Y.entry (psum (fun a => (blk a 0).nRows) i + r) (psum (fun b => (blk 0 b).nCols) j + s) =
        (c i j).entry r s := by
      intro Y c S c1 c2
      rw [psum_congr (fun a ha => d1 a (by omega)), psum_congr (fun a ha => d2 a (by omega))]
      have hr' : r < (c i 0).dim0 := by rw [c1, ← d1 i hi]; exact hr
      have hs' : s < (c 0 j).dim1 := by rw [c2, ← d2 j hj]; exact hs
      have e := entry_block (blk := fun i j => Mat.lowRank (c i j)) hi hj hr' hs'
      simp only [nRows, nCols, c1, c2] at e
      refine Eq.trans ?_ e
      refine (S.2.2 _ ?_ _ ?_).symm
      · rw [nRows_hier]
        simp only [nRows, c1] at hr' ⊢
        have := psum_le (fun a => (b a 0).dim0) hi
        beta_reduce at this ⊢
        omega
      · rw [nCols_hier]
        simp only [nCols, c2] at hs' ⊢
        have := psum_le (fun a => (b 0 a).dim1) hj
        beta_reduce at this ⊢
        omega
    rw [eX X b same (fun _ => rfl) (fun _ => rfl), eX X.abs (fun i j => (b i j).abs) same2
      (fun _ => rfl) (fun _ => rfl)]
    exact key

end Mat

/-- This addition returns. -/
theorem Mat.addNaive_total (hF : F.Sound u) (hG : G.Sound u) (trunc : Dense ℝ → Nat → Except Err (LowRank ℝ)) {k : Nat}
    {A : Mat ℝ} {X : LowRank ℝ} (hA : A.WF) (hE : A.NoEmpty) (he : A.Even) (hX : X.WF) (hXs : X.Square)
    (hk : X.rank = k) (hs0 : A.All fun a => a.Square ∧ a.rank + k < min a.dim0 a.dim1)
    (h0 : A.nRows = X.dim0) (h1 : A.nCols = X.dim1) :
    ∃ A', G.addNaive F trunc A (.lowRank X) = .ok A' := by
  induction A generalizing X with
  | dense d =>
    obtain ⟨A', h, -⟩ := C83_add hF hG (A := .dense d) (B := .lowRank X) hA trivial hX ⟨h0, h1, trivial, trivial⟩
    exact ⟨A', by simpa only [FlArith.addNaive, FlArith.addAssign, FlBlas.addAssign] using h⟩
  | lowRank l =>
    have e0 : l.dim0 = X.dim0 := h0
    have e1 : l.dim1 = X.dim1 := h1
    obtain ⟨c, hc, -⟩ := C83_naive_exact (G := G) trunc hA hs0.1 hX hXs e0 e1 (by rw [hk]; exact hs0.2)
    exact ⟨.lowRank c, by simp [FlArith.addNaive, e0, e1, assertM, hc]⟩
  | empty => exact hE.elim
  | hier br bc blk ih =>
    have hA' := hA
    simp only [WF] at hA'
    have he' := he
    simp only [Even] at he'
    obtain ⟨p1, p2, p3⟩ := Even.parts he hA'.1 hA'.2.1
    obtain ⟨b, hb, S, sub⟩ := split_leaf_total (A := .lowRank X) hX trivial hA'.1 hA'.2.1
      (by show ESplit X.dim0 br; rw [← h0]; exact p1) (by show ESplit X.dim1 bc; rw [← h1]; exact p2)
    have lrb : ∀ i < br, ∀ j < bc, ∃ x, b i j = .lowRank x ∧ x.Square ∧ x.rank = k := by
      intro i hi j hj
      obtain ⟨r, c, m, n, e⟩ := sub i hi j hj
      refine ⟨_, e, ?_, ?_⟩
      · have := hXs
        simp only [LowRank.Square, LowRank.ofFactors] at this ⊢
        exact this.trans hX.srows.symm
      · simp only [LowRank.ofFactors]
        exact hX.srows.trans hk
    have key : ∀ i < br, ∀ j < bc, ∃ x, G.addNaive F trunc (blk i j) (b i j) = .ok x := by
      intro i hi j hj
      obtain ⟨x, hx, xs, xk⟩ := lrb i hi j hj
      have d := S.dims i hi j hj
      rw [hx] at d ⊢
      refine ih i j (hA'.2.2 i hi j hj).1 (hE i hi j hj) (he' i hi j hj).1 d.1 xs xk (hs0 i hi j hj) ?_ ?_
      · rw [(p3 i hi j hj).1, h0]; exact d.2.1.symm
      · rw [(p3 i hi j hj).2, h1]; exact d.2.2.symm
    obtain ⟨g, hg⟩ := collect2_exists (m := br) (n := bc) (f := fun i j => do
        assertM (decide (i < br))
        assertM (decide (j < bc))
        G.addNaive F trunc (blk i j) (b i j)) (fun i hi j hj => by
        obtain ⟨x, hx⟩ := key i hi j hj
        exact ⟨x, by simp [assertM, hi, hj, hx]⟩)
    exact ⟨.hier br bc g, by simp only [FlArith.addNaive, hb, hg, except_bind_ok]⟩

/-- C83, mode "naive": a low-rank matrix added to a matrix of any structure, subdivided as the library does, whose
low-rank blocks, if any, have ranks that stay below the dimensions.  This returns, the structure is kept, and each
entry has the error bound of `C83_add`. -/
theorem C83_naive_lowrank (hF : F.Sound u) (hG : G.Sound u) (trunc : Dense ℝ → Nat → Except Err (LowRank ℝ))
    {A : Mat ℝ} {B : LowRank ℝ} (hA : A.WF) (hB : B.WF) (sB : B.Square) (hc : A.AddFits (.lowRank B))
    (hs : A.All fun a => a.Square ∧ a.rank + B.rank < min a.dim0 a.dim1) :
    ∃ A', G.addNaive F trunc A (.lowRank B) = .ok A' ∧ A'.WF ∧ A.SameShape A' ∧ ∀ i < A.nRows, ∀ j < A.nCols,
      |A'.entry i j - (A.entry i j + (Mat.lowRank B).entry i j)| ≤
        ((1 + u) ^ (Mat.lowRank B).lag - 1) * (|A.entry i j| + (Mat.lowRank B).abs.entry i j) := by
  have hc' : A.nRows = B.dim0 ∧ A.nCols = B.dim1 ∧ A.Even ∧ A.NoEmpty := by
    cases A <;> first | exact hc | exact hc.elim
  obtain ⟨A', h⟩ := Mat.addNaive_total hF hG trunc hA hc'.2.2.2 hc'.2.2.1 hB sB rfl hs hc'.1 hc'.2.1
  obtain ⟨-, -, h1, h2, h3⟩ := Mat.addNaive_fl hF trunc hA hB sB hB.srows hs h
  exact ⟨A', h, h1, h2, fun i hi j hj => (h3 i hi j hj).1⟩

section Examples

/-- Two dense blocks of different sizes, and a low-rank matrix that is added to both. -/
noncomputable def addA : Mat ℝ := .hier 2 1 (fun i _ => .dense ⟨2 - i, 3, fun a b => (a : ℝ) + 5 * b⟩)

noncomputable def addB : Mat ℝ :=
  .lowRank ⟨3, 3, 1, 0, ⟨3, 1, fun i _ => i⟩, ⟨1, 1, fun _ _ => 2⟩, ⟨1, 3, fun _ j => j⟩⟩

theorem addA_wf : addA.WF := by
  refine ⟨by omega, by omega, fun i hi j hj => ?_⟩
  obtain rfl : j = 0 := by omega
  exact ⟨trivial, rfl, rfl⟩

/-- C83 in double precision, a low-rank matrix added to dense blocks. -/
example : ∃ A', (FlArith.ofRounding nearest53).addAssign (FlBlas.ofRounding nearest53) addA addB = .ok A' ∧
    |A'.entry 2 1 - (addA.entry 2 1 + addB.entry 2 1)| ≤
      ((1 + 2 ^ (-53 : ℤ)) ^ 6 - 1) * (|addA.entry 2 1| + addB.abs.entry 2 1) := by
  obtain ⟨A', h, -, -, he⟩ := C83_add (C75_rounding (by positivity) nearest53_error)
    (FlArith.ofRounding_sound (by positivity) (by norm_num) nearest53_error) addA_wf (fun _ _ _ _ => trivial)
    (B := addB) ⟨rfl, rfl, rfl, rfl, rfl⟩ ⟨by decide, by decide, by
      intro i hi j hj
      obtain rfl : j = 0 := by omega
      interval_cases i <;> exact ⟨trivial, by decide, by decide⟩, fun _ _ _ _ => trivial⟩
  exact ⟨A', h, he 2 (by decide) 1 (by decide)⟩

/-- C83, the same blocks added to themselves: a relative error of one rounding. -/
example : ∃ A', (FlArith.ofRounding nearest53).addAssign (FlBlas.ofRounding nearest53) addA addA = .ok A' ∧
    |A'.entry 2 1 - (addA.entry 2 1 + addA.entry 2 1)| ≤ 2 ^ (-53 : ℤ) * |addA.entry 2 1 + addA.entry 2 1| := by
  have hF : (FlBlas.ofRounding nearest53).Sound _ := C75_rounding (by positivity) nearest53_error
  have hG : (FlArith.ofRounding nearest53).Sound _ :=
    FlArith.ofRounding_sound (by positivity) (by norm_num) nearest53_error
  have hc : addA.AddFits addA := ⟨rfl, rfl, fun _ _ _ _ => ⟨rfl, rfl⟩⟩
  obtain ⟨A', h, -⟩ := C83_add hF hG addA_wf (fun _ _ _ _ => trivial) addA_wf hc
  exact ⟨A', h, C83_add_relative hF hG addA_wf addA_wf (fun _ _ _ _ => trivial) hc h 2 (by decide) 1 (by decide)⟩

/-- C83: a low-rank matrix times 3 in double precision. -/
example : ∃ A', (FlBlas.ofRounding nearest53).scaleMat addB 3 = .ok A' ∧
    |A'.entry 2 1 - 3 * addB.entry 2 1| ≤ 2 ^ (-53 : ℤ) * |(3 : ℝ)| * addB.abs.entry 2 1 := by
  obtain ⟨A', h, -, -, he⟩ := C83_scale (C75_rounding (by positivity) nearest53_error) 3 (A := addB)
    ⟨rfl, rfl, rfl, rfl, rfl⟩ trivial
  exact ⟨A', h, he 2 (by decide) 1 (by decide)⟩

/-- C83: an addition that is not implemented, a dense matrix to a subdivided one, aborts in both arithmetics. -/
example (o : LrOps ℝ) (d : Dense ℝ) : G.addAssign F addA (.dense d) = .error .abort :=
  (C83_add_errors o addA_wf (fun _ _ _ _ => trivial) _).2 (by simp [addA, Mat.addAssign])

/-- C83: a difference of two dense matrices in double precision. -/
example : ∃ C, (FlArith.ofRounding nearest53).subtract (⟨2, 2, fun i j => (i : ℝ) + 7 * j⟩)
    (⟨2, 2, fun i _ => (i : ℝ) / 3⟩) = .ok C ∧
    |C.val 1 1 - ((1 + 7) - 1 / 3)| ≤ 2 ^ (-53 : ℤ) * |((1 + 7) - 1 / 3 : ℝ)| := by
  obtain ⟨C, h, -, -, he⟩ := C83_subtract (A := ⟨2, 2, fun i j => (i : ℝ) + 7 * j⟩) (B := ⟨2, 2, fun i _ => (i : ℝ) / 3⟩)
    (FlArith.ofRounding_sound (by positivity) (by norm_num) nearest53_error) rfl rfl
  refine ⟨C, h, ?_⟩
  have := he 1 (by decide) 1 (by decide)
  simpa using this

/-- Two matrices of rank one. -/
noncomputable def addL (c : ℝ) : LowRank ℝ :=
  ⟨3, 3, 1, 0, ⟨3, 1, fun i _ => c * i + 1⟩, ⟨1, 1, fun _ _ => 2⟩, ⟨1, 3, fun _ j => j + c⟩⟩

/-- C83: added in mode "naive", exactly (order 3, ranks 1 and 1). -/
example (G : FlArith) (trunc : Dense ℝ → Nat → Except Err (LowRank ℝ)) (c d : ℝ) :
    ∃ C, G.naiveAdd trunc (addL c) (addL d) = .ok C ∧ C.rank = 2 ∧
      (Mat.lowRank C).entry 2 1 = (Mat.lowRank (addL c)).entry 2 1 + (Mat.lowRank (addL d)).entry 2 1 := by
  obtain ⟨C, h, -, -, -, h1, h2⟩ := C83_naive_exact (G := G) trunc (A := addL c) (B := addL d)
    ⟨rfl, rfl, rfl, rfl, rfl⟩ rfl ⟨rfl, rfl, rfl, rfl, rfl⟩ rfl rfl rfl (by simp [addL])
  exact ⟨C, h, h1, h2 2 (by simp [addL]) 1 (by simp [addL])⟩

/-- C83: the sum of two matrices of order 2 and rank 1 is truncated. -/
example (trunc : Dense ℝ → Nat → Except Err (LowRank ℝ)) (A : LowRank ℝ)
    (hA : A = ⟨2, 2, 1, 0, ⟨2, 1, fun i _ => i⟩, ⟨1, 1, fun _ _ => 2⟩, ⟨1, 2, fun _ j => j⟩⟩) :
    ∃ D : Dense ℝ, D.rows = 2 ∧ (FlArith.ofRounding nearest53).naiveAdd trunc A A = trunc D 1 := by
  subst hA
  obtain ⟨D, h0, -, h, -⟩ := C83_naive_truncates
    (FlArith.ofRounding_sound (by positivity) (by norm_num) nearest53_error) trunc
    (A := ⟨2, 2, 1, 0, ⟨2, 1, fun i _ => i⟩, ⟨1, 1, fun _ _ => 2⟩, ⟨1, 2, fun _ j => j⟩⟩)
    (B := ⟨2, 2, 1, 0, ⟨2, 1, fun i _ => i⟩, ⟨1, 1, fun _ _ => 2⟩, ⟨1, 2, fun _ j => j⟩⟩)
    ⟨rfl, rfl, rfl, rfl, rfl⟩ ⟨rfl, rfl, rfl, rfl, rfl⟩ rfl rfl (by decide)
  exact ⟨D, h0, h⟩

/-- C83: block matrices with dense diagonal and low-rank off-diagonal blocks of order 3. -/
noncomputable def addM (c : ℝ) : Mat ℝ :=
  .hier 2 2 (fun i j => if i = j then .dense ⟨3, 3, fun a b => c * a + b⟩ else .lowRank (addL c))

theorem addM_wf (c : ℝ) : (addM c).WF := by
  refine ⟨by omega, by omega, fun i hi j hj => ?_⟩
  interval_cases i <;> interval_cases j <;>
    first | exact ⟨trivial, rfl, rfl⟩ | exact ⟨⟨rfl, rfl, rfl, rfl, rfl⟩, rfl, rfl⟩

example (trunc : Dense ℝ → Nat → Except Err (LowRank ℝ)) (c d : ℝ) :
    ∃ A', (FlArith.ofRounding nearest53).addNaive (FlBlas.ofRounding nearest53) trunc (addM c) (addM d) = .ok A' ∧
      ∀ i < (addM c).nRows, ∀ j < (addM c).nCols, |A'.entry i j - ((addM c).entry i j + (addM d).entry i j)| ≤
        2 ^ (-53 : ℤ) * |(addM c).entry i j + (addM d).entry i j| := by
  have hc : (addM c).SmallRanks (addM d) := by
    refine ⟨rfl, rfl, fun i hi j hj => ?_⟩
    interval_cases i <;> interval_cases j <;>
      first | exact ⟨rfl, rfl⟩ | exact ⟨rfl, rfl, rfl, rfl, by simp [addL]⟩
  obtain ⟨A', h, -, -, h1⟩ := C83_naive_relative (F := FlBlas.ofRounding nearest53)
    (FlArith.ofRounding_sound (by positivity) (by norm_num) nearest53_error) trunc (addM_wf c) (addM_wf d) hc
  exact ⟨A', h, h1⟩

/-- C83: a matrix of rank one and order 6 added to such a block matrix. -/
example (trunc : Dense ℝ → Nat → Except Err (LowRank ℝ)) (B : LowRank ℝ)
    (hB : B = ⟨6, 6, 1, 0, ⟨6, 1, fun i _ => i⟩, ⟨1, 1, fun _ _ => 2⟩, ⟨1, 6, fun _ j => j⟩⟩) :
    ∃ A', (FlArith.ofRounding nearest53).addNaive (FlBlas.ofRounding nearest53) trunc (addM 2) (.lowRank B) = .ok A' ∧
      ∀ i < (addM 2).nRows, ∀ j < (addM 2).nCols,
        |A'.entry i j - ((addM 2).entry i j + (Mat.lowRank B).entry i j)| ≤
        ((1 + 2 ^ (-53 : ℤ)) ^ (Mat.lowRank B).lag - 1) * (|(addM 2).entry i j| + (Mat.lowRank B).abs.entry i j) := by
  subst hB
  obtain ⟨A', h, -, -, h1⟩ := C83_naive_lowrank (C75_rounding (by positivity) nearest53_error)
    (FlArith.ofRounding_sound (by positivity) (by norm_num) nearest53_error) trunc (addM_wf 2)
    (B := ⟨6, 6, 1, 0, ⟨6, 1, fun i _ => i⟩, ⟨1, 1, fun _ _ => 2⟩, ⟨1, 6, fun _ j => j⟩⟩)
    ⟨rfl, rfl, rfl, rfl, rfl⟩ rfl
    ⟨by decide, by decide, by
      intro i hi j hj
      interval_cases i <;> interval_cases j <;> exact ⟨trivial, by decide, by decide⟩, by
      intro i hi j hj
      interval_cases i <;> interval_cases j <;> trivial⟩
    (by
      intro i hi j hj
      interval_cases i <;> interval_cases j <;> trivial)
  exact ⟨A', h, h1⟩

/-- C83: a difference of matrices with different numbers of columns. -/
example : G.subtract ⟨2, 2, fun _ _ => 1⟩ ⟨2, 3, fun _ _ => 1⟩ = .error .assertFail :=
  (C83_subtract_errors _).2 ⟨rfl, by simp⟩

/-- C83: the crudest truncation, which drops everything, is optimal up to the norm (`η = 0`, `δ = 1`). -/
example (C : LowRank ℝ) {A : LowRank ℝ}
    (hA : A = ⟨2, 2, 1, 0, ⟨2, 1, fun i _ => i⟩, ⟨1, 1, fun _ _ => 2⟩, ⟨1, 2, fun _ j => j⟩⟩)
    (h : (FlArith.ofRounding nearest53).naiveAdd (fun D r => .ok ⟨D.rows, D.cols, r, 0, Dense.zero D.rows r,
      Dense.zero r r, Dense.zero r D.cols⟩) A A = .ok C) :
    let S := fun i j => (Mat.lowRank A).entry i j + (Mat.lowRank A).entry i j
    let E := frob 2 2 fun i j => 2 ^ (-53 : ℤ) * |S i j| +
      (1 + 2 ^ (-53 : ℤ)) * (((Mat.lowRank A).slack (2 ^ (-53 : ℤ))).entry i j +
        ((Mat.lowRank A).slack (2 ^ (-53 : ℤ))).entry i j)
    frob 2 2 (fun i j => (Mat.lowRank C).entry i j - S i j) ≤
      (1 + 0) * (frob 2 2 (fun i j => (Mat.lowRank A).entry i j - S i j) + E) + 1 * (frob 2 2 S + E) + E := by
  subst hA
  refine C83_naive_optimal (FlArith.ofRounding_sound (by positivity) (by norm_num) nearest53_error) le_rfl zero_le_one
    ⟨rfl, rfl, rfl, rfl, rfl⟩ ⟨rfl, rfl, rfl, rfl, rfl⟩ rfl rfl (by decide) ?_ ⟨rfl, rfl, rfl, rfl, rfl⟩ rfl rfl rfl h
  intro D r X Y hX _ _ _ _
  cases hX
  have e : ∀ i j, (Mat.lowRank (⟨D.rows, D.cols, r, 0, Dense.zero D.rows r, Dense.zero r r,
      Dense.zero r D.cols⟩ : LowRank ℝ)).entry i j = 0 := fun i j => by
    simp [Mat.entry, LowRank.entry, Dense.zero]
  simp only [e, zero_sub, frob_neg]
  have := frob_nonneg D.rows D.cols (fun i j => (Mat.lowRank Y).entry i j - D.val i j)
  linarith

end Examples

end Verif
