import Verif.Spec.FloatTri
import Verif.Lemmas.FloatGemmRec
import Verif.Lemmas.ErrTri

/-
Rounding errors of triangular solves.
-/

set_option linter.unusedSectionVars false
set_option linter.unusedVariables false
set_option linter.unusedSimpArgs false

namespace Verif
open Finset

/-- A solve for a right-hand side that carries errors itself. -/
theorem near_solve {u : ℝ} (u0 : 0 ≤ u) {s sA b bA y m : ℝ} {K1 K2 : Nat}
    (hs : |s - b| ≤ ((1 + u) ^ K2 - 1) * (sA + bA)) (hb : FlNear u K1 b y m)
    (hA : bA ≤ (1 + u) ^ K1 * m) (s0 : 0 ≤ sA) :
    |s - y| ≤ ((1 + u) ^ (K1 + K2) - 1) * (sA + m) := by
  have h2 : (1 : ℝ) ≤ (1 + u) ^ K2 := one_le_pow₀ (by linarith)
  have h1 : (1 : ℝ) ≤ (1 + u) ^ K1 := one_le_pow₀ (by linarith)
  have m0 := hb.m0
  have e : s - y = (s - b) + (b - y) := by ring
  rw [e]
  refine (abs_add_le _ _).trans ((add_le_add hs hb.1).trans ?_)
  have t1 := mul_le_mul_of_nonneg_left hA (by linarith : 0 ≤ (1 + u) ^ K2 - 1)
  have t2 : (1 + u) ^ K2 * sA ≤ (1 + u) ^ K1 * ((1 + u) ^ K2 * sA) :=
    le_mul_of_one_le_left (by positivity) h1
  rw [pow_add]
  linarith

namespace Mat

theorem SolveTarget.cases {B : Mat ℝ} (h : B.SolveTarget) : B.DenseLeaves ∨ ∃ l, B = .lowRank l := by
  cases B with
  | lowRank l => exact Or.inr ⟨l, rfl⟩
  | dense => exact Or.inl h
  | empty => exact Or.inl h
  | hier => exact Or.inl h

theorem SolveTarget.leaves {B : Mat ℝ} (h : B.DenseLeaves) : B.SolveTarget := by
  cases B with
  | lowRank l => trivial
  | dense => exact h
  | empty => exact h
  | hier => exact h

theorem sideProd_nonneg {side : Side} {n : Nat} {T : Nat → Nat → ℝ} {X : Mat ℝ} {i j : Nat}
    (hT : ∀ a b, 0 ≤ T a b) (hX : ∀ a b, 0 ≤ X.entry a b) : 0 ≤ sideProd side n T X i j := by
  cases side
  · exact Finset.sum_nonneg fun l _ => mul_nonneg (hT _ _) (hX _ _)
  · exact Finset.sum_nonneg fun l _ => mul_nonneg (hX _ _) (hT _ _)

theorem abs_entry_nonneg (A : Mat ℝ) (i j : Nat) : 0 ≤ A.abs.entry i j :=
  (abs_nonneg _).trans (abs_entry_le A i j)

theorem triEntry_abs_nonneg (uplo : Uplo) (unit : Bool) (A : Mat ℝ) (i j : Nat) :
    0 ≤ triEntry uplo unit A.abs i j := by
  have h0 := fun i j => abs_entry_nonneg A i j
  unfold triEntry
  split
  · split
    · exact zero_le_one
    · exact h0 _ _
  · cases uplo
    · show 0 ≤ if i < j then A.abs.entry i j else 0
      split
      · exact h0 _ _
      · exact le_rfl
    · show 0 ≤ if j < i then A.abs.entry i j else 0
      split
      · exact h0 _ _
      · exact le_rfl

theorem DiagSquare.abs {A : Mat ℝ} (h : A.DiagSquare) : A.abs.DiagSquare := by
  induction A with
  | dense d => exact h
  | lowRank l => exact h.elim
  | empty => exact h.elim
  | hier p q A ih => exact ⟨h.1, fun i hi => ih i i (h.2 i hi)⟩

/-- A dense block, or one without empty leaves. -/
def WideLeaf (t : Bool) (X : Mat ℝ) : Prop := X.Wide t ∨ ∃ d, X = .dense d

/-- If subdivided, then into blocks as above. -/
def WideBlocks (t : Bool) : Mat ℝ → Prop
  | .hier r s B => ∀ i < r, ∀ j < s, (B i j).WideLeaf t
  | _ => True

theorem WideLeaf.innr_right {A X : Mat ℝ} (h : X.WideLeaf true) (hA : A.Wide false) :
    Innr false false A X := by
  rcases h with h | ⟨d, rfl⟩
  · exact Wide.innr hA h
  · exact Innr_leaf_right trivial hA

theorem WideLeaf.innr_left {A X : Mat ℝ} (h : X.WideLeaf false) (hA : A.Wide true) :
    Innr false false X A := by
  rcases h with h | ⟨d, rfl⟩
  · exact Wide.innr h hA
  · exact Innr_leaf_left trivial hA

theorem WideLeaf.shape {t : Bool} {A B : Mat ℝ} (h : A.WideLeaf t) (hs : A.SameShape B) : B.WideLeaf t := by
  rcases h with h | ⟨d, rfl⟩
  · exact Or.inl (h.shape hs)
  · cases B with
    | dense e => exact Or.inr ⟨e, rfl⟩
    | _ => exact hs.elim

theorem WideLeaf.blocks {t : Bool} {A : Mat ℝ} (h : A.WideLeaf t) : A.WideBlocks t := by
  rcases h with h | ⟨d, rfl⟩
  · cases A with
    | hier r s B => exact fun i hi j hj => Or.inl (h i hi j hj)
    | dense => trivial
    | lowRank => trivial
    | empty => trivial
  · trivial

/-- A solve in floating-point arithmetic. -/
structure TrsmFl (u : ℝ) (L : Nat) (uplo : Uplo) (side : Side) (A B X : Mat ℝ) : Prop where
  wf : X.WF
  shape : B.SameShape X
  lag : X.lag ≤ B.lag
  ent : ∀ i < B.nRows, ∀ j < B.nCols,
    |sideProd side A.nRows (triEntry uplo (decide (uplo = .lower)) A) X i j - B.entry i j| ≤
      ((1 + u) ^ (A.nRows * L) - 1) *
      (sideProd side A.nRows (triEntry uplo (decide (uplo = .lower)) A.abs) X.abs i j + B.abs.entry i j)

variable {u : ℝ}

/-- The updates of one block before it is solved. -/
theorem trsm_line_fl (u0 : 0 ≤ u) {g : GemmT ℝ} (hg : GemmFl u g) {L : Nat}
    {uplo : Uplo} {side : Side}
    {p q r s : Nat} {A X : Nat → Nat → Mat ℝ} (hA : (Mat.hier p q A).WF)
    (hAw : (Mat.hier p q A).Wide (side.pick false true)) (hL : (Mat.hier p q A).lag + 3 ≤ L)
    {i j : Nat} (hi : i < r)
    (hj : j < s) {c b : Mat ℝ} (hc : c.WF) (hcs : c.DenseLeaves)
    (hd : side.pick i j < p ∧ side.pick i j < q)
    (hX : ∀ u < Dense.solveOrder (backwards uplo side) (side.pick r s) (side.pick i j),
      (side.pick (X (Dense.solveOrder (backwards uplo side) (side.pick r s) u) j)
        (X i (Dense.solveOrder (backwards uplo side) (side.pick r s) u))).WF)
    (hXd : ∀ u < Dense.solveOrder (backwards uplo side) (side.pick r s) (side.pick i j),
      (side.pick (X (Dense.solveOrder (backwards uplo side) (side.pick r s) u) j)
        (X i (Dense.solveOrder (backwards uplo side) (side.pick r s) u))).DenseLeaves)
    (hXw : ∀ u < Dense.solveOrder (backwards uplo side) (side.pick r s) (side.pick i j),
      (side.pick (X (Dense.solveOrder (backwards uplo side) (side.pick r s) u) j)
        (X i (Dense.solveOrder (backwards uplo side) (side.pick r s) u))).WideLeaf (side.pick true false))
    (h : loop (Dense.solveOrder (backwards uplo side) (side.pick r s) (side.pick i j)) (fun u b => do
          let a ← side.pick
            (blockAt p q A i (Dense.solveOrder (backwards uplo side) (side.pick r s) u))
            (blockAt p q A (Dense.solveOrder (backwards uplo side) (side.pick r s) u) j)
          side.pick
            (g a (X (Dense.solveOrder (backwards uplo side) (side.pick r s) u) j) b (-1) 1 false false)
            (g (X i (Dense.solveOrder (backwards uplo side) (side.pick r s) u)) a b (-1) 1 false false))
          c = .ok b) (hpr : side.pick r s ≤ p) (hqr : side.pick r s ≤ q) :
    (∀ k < side.pick r s, strictB uplo side (side.pick i j) k = true →
      side.pick (GemmDims false false (A i k) (X k j) c) (GemmDims false false (X i k) (A k j) c)) ∧
    b.WF ∧ c.SameShape b ∧
    ∀ x < c.nRows, ∀ y < c.nCols,
      FlNear u ((∑ k ∈ range (side.pick r s), if strictB uplo side (side.pick i j) k then
          ((side.pick (A i k) (X i k)).nCols) else 0) * L) (b.entry x y)
        (c.entry x y - offProd uplo side (side.pick r s) A X i j x y)
        (|c.entry x y| + offProd uplo side (side.pick r s) (fun i j => (A i j).abs)
          (fun i j => (X i j).abs) i j x y) := by
  have hn : side.pick i j < side.pick r s := by cases side <;> simpa [Side.pick]
  generalize hσ : Dense.solveOrder (backwards uplo side) (side.pick r s) = σ at *
  have hlt : ∀ u < σ (side.pick i j), σ u < side.pick r s := by
    intro u hu
    rw [← hσ] at hu ⊢
    have := solveOrder_lt (b := backwards uplo side) hn
    exact solveOrder_lt (by omega)
  have hA0 := hA
  simp only [WF] at hA
  obtain ⟨-, -, hAd⟩ := hA
  have LL := loop_fl u0 hg (a := fun u => side.pick (A i (σ u)) (X i (σ u)))
    (b := fun u => side.pick (X (σ u) j) (A (σ u) j)) (β := fun _ => 1) (α := -1) (ta := false)
    (tb := false) (L := L) (K0 := 0) (y := fun x y => c.entry x y) (w := fun x y => |c.entry x y|) hc hcs
    (fun u hu => by
      have := hlt u hu
      cases side
      · exact (hAd i hd.1 _ (by omega)).1
      · exact hX u hu)
    (fun u hu => by
      have := hlt u hu
      cases side
      · exact hX u hu
      · exact (hAd _ (by omega) j hd.2).1)
    (fun u _ => TransSafe_ff _ _) (fun u hu => by
      have := hlt u hu
      cases side
      · exact (hXw u hu).innr_right (hAw i hd.1 _ (by omega))
      · exact (hXw u hu).innr_left (hAw _ (by omega) j hd.2))
    (fun u hu => by
      have := hlt u hu
      have l0 := lag_leaves (hXd u hu)
      cases side
      · have := lag_block (blk := A) hd.1 (show σ u < q by omega)
        simp only [Side.pick_left] at l0 this ⊢
        omega
      · have := lag_block (blk := A) (show σ u < p by omega) hd.2
        simp only [Side.pick_right] at l0 this ⊢
        omega)
    (fun u _ x x' hx => by
      simp only [except_bind_eq_ok] at hx
      obtain ⟨a, ha, hx⟩ := hx
      cases side
      · obtain ⟨-, -, rfl⟩ := blockAt_ok ha
        exact hx
      · obtain ⟨-, -, rfl⟩ := blockAt_ok ha
        exact hx) (fun _ _ => rfl) (fun x _ y _ => FlNear.const u _) h
  refine ⟨?_, LL.2.1, LL.2.2.1, ?_⟩
  · intro k hk hst
    have hst' : strictB uplo side (Dense.solveOrder (backwards uplo side) (side.pick r s)
        (σ (side.pick i j))) k = true := by
      rw [← hσ, solveOrder_invol hn]; exact hst
    obtain ⟨u, hu, rfl⟩ := solveOrder_exists (by rw [← hσ]; exact solveOrder_lt hn) hk hst'
    have := LL.1 u hu
    rw [hσ]
    cases side <;> exact this
  intro x hx y hy
  have E := LL.2.2.2 x hx y hy
  have e : (if σ (side.pick i j) = 0 then (1 : ℝ) else 1) = 1 := by
    split <;> rfl
  simp only [abs_neg, abs_one, e, one_mul, neg_mul, zero_add] at E
  have hσlt : σ (side.pick i j) < side.pick r s := by rw [← hσ]; exact solveOrder_lt hn
  have t1 := sum_solveOrder uplo side (n := side.pick r s) (t := σ (side.pick i j)) hσlt
    (fun k => prodEntry false false (side.pick (A i k) (X i k)) (side.pick (X k j) (A k j)) x y)
  have t1' := sum_solveOrder uplo side (n := side.pick r s) (t := σ (side.pick i j)) hσlt
    (fun k => prodEntry false false (side.pick (A i k) (X i k)).abs (side.pick (X k j) (A k j)).abs x y)
  have t2 := sum_solveOrder uplo side (n := side.pick r s) (t := σ (side.pick i j)) hσlt
    (fun k => ((side.pick (A i k) (X i k)).nCols : ℤ))
  rw [hσ] at t1 t1' t2
  rw [← hσ, solveOrder_invol hn, hσ] at t1 t1' t2
  rw [t1, t1'] at E
  have t3 : (∑ x ∈ range (σ (side.pick i j)), ((side.pick (A i (σ x)) (X i (σ x))).opCols false)) =
      ∑ k ∈ range (side.pick r s), if strictB uplo side (side.pick i j) k then
          ((side.pick (A i k) (X i k)).nCols) else 0 := by
    have : (∑ x ∈ range (σ (side.pick i j)), ((side.pick (A i (σ x)) (X i (σ x))).nCols)) =
      ∑ k ∈ range (side.pick r s), if strictB uplo side (side.pick i j) k then
          ((side.pick (A i k) (X i k)).nCols) else 0 := by exact_mod_cast t2
    exact this
  rw [t3] at E
  have t4 : offProd uplo side (side.pick r s) A X i j x y = ∑ k ∈ range (side.pick r s),
      if strictB uplo side (side.pick i j) k then
        prodEntry false false (side.pick (A i k) (X i k)) (side.pick (X k j) (A k j)) x y else 0 := by
    refine Finset.sum_congr rfl (fun k _ => ?_)
    cases side <;> rfl
  have t5 : offProd uplo side (side.pick r s) (fun i j => (A i j).abs) (fun i j => (X i j).abs) i j x y =
      ∑ k ∈ range (side.pick r s), if strictB uplo side (side.pick i j) k then
        prodEntry false false (side.pick (A i k) (X i k)).abs (side.pick (X k j) (A k j)).abs x y else 0 := by
    refine Finset.sum_congr rfl (fun k _ => ?_)
    cases side <;> rfl
  rw [t4, t5, add_comm |c.entry x y|, show ∀ a b : ℝ, a - b = -b + a from fun a b => by ring]
  exact E

/-- Shapes along a substitution loop, given that the solver keeps the shape. -/
theorem trsmHH_flshape (u0 : 0 ≤ u) {g : GemmT ℝ} (hg : GemmFl u g) {L : Nat}
    {t : Mat ℝ → Mat ℝ → Except Err (Mat ℝ)} {uplo : Uplo} {side : Side}
    (ht : ∀ A B B', A.WF → B.WF → B.DenseLeaves → A.Wide (side.pick false true) →
      B.WideBlocks (side.pick true false) → A.lag + 3 ≤ L → t A B = .ok B' → B'.WF ∧ B.SameShape B')
    {p q r s : Nat} {A B : Nat → Nat → Mat ℝ} {B' : Mat ℝ}
    (hA : (Mat.hier p q A).WF) (hB : (Mat.hier r s B).WF) (hBs : (Mat.hier r s B).DenseLeaves)
    (hAw : (Mat.hier p q A).Wide (side.pick false true))
    (hBw : (Mat.hier r s B).WideBlocks (side.pick true false)) (hL : (Mat.hier p q A).lag + 3 ≤ L)
    (h : trsmHH g t uplo side p q A r s B = .ok B') :
    ∃ X, B' = .hier r s X ∧
      (∀ i < r, ∀ j < s, (X i j).WF ∧ (B i j).SameShape (X i j)) ∧
      side.pick r s ≤ p ∧ side.pick r s ≤ q ∧
      ∀ i < r, ∀ j < s, ∃ b,
        (∀ k < side.pick r s, strictB uplo side (side.pick i j) k = true →
          side.pick (GemmDims false false (A i k) (X k j) (B i j))
            (GemmDims false false (X i k) (A k j) (B i j))) ∧
        b.WF ∧ (B i j).SameShape b ∧
        (∀ x < (B i j).nRows, ∀ y < (B i j).nCols,
          FlNear u ((∑ k ∈ range (side.pick r s), if strictB uplo side (side.pick i j) k then
            ((side.pick (A i k) (X i k)).nCols) else 0) * L) (b.entry x y)
          ((B i j).entry x y - offProd uplo side (side.pick r s) A X i j x y)
          (|(B i j).entry x y| + offProd uplo side (side.pick r s) (fun i j => (A i j).abs)
            (fun i j => (X i j).abs) i j x y)) ∧
        t (A (side.pick i j) (side.pick i j)) b = .ok (X i j) := by
  obtain ⟨X, rfl, H⟩ := trsmHH_spec h
  have hB' := hB
  have hA' := hA
  simp only [WF] at hB' hA'
  obtain ⟨hr0, hs0, hBd⟩ := hB'
  have bounds : side.pick r s ≤ p ∧ side.pick r s ≤ q := by
    cases side
    · have := H (r - 1) (by omega) 0 (by omega)
      simp only [Side.pick_left] at this ⊢
      omega
    · have := H 0 (by omega) (s - 1) (by omega)
      simp only [Side.pick_right] at this ⊢
      omega
  have key : ∀ m, ∀ i < r, ∀ j < s,
      Dense.solveOrder (backwards uplo side) (side.pick r s) (side.pick i j) = m →
      (X i j).WF ∧ (B i j).SameShape (X i j) := by
    intro m
    induction m using Nat.strong_induction_on with
    | _ m ih =>
      intro i hi j hj hm
      obtain ⟨h1, h2, b, hb, hb'⟩ := H i hi j hj
      have hn : side.pick i j < side.pick r s := by cases side <;> simpa [Side.pick]
      have hlt := solveOrder_lt (b := backwards uplo side) hn
      have prev : ∀ u < Dense.solveOrder (backwards uplo side) (side.pick r s) (side.pick i j),
          (side.pick (X (Dense.solveOrder (backwards uplo side) (side.pick r s) u) j)
            (X i (Dense.solveOrder (backwards uplo side) (side.pick r s) u))).WF ∧
          (side.pick (X (Dense.solveOrder (backwards uplo side) (side.pick r s) u) j)
            (X i (Dense.solveOrder (backwards uplo side) (side.pick r s) u))).DenseLeaves ∧
          (side.pick (X (Dense.solveOrder (backwards uplo side) (side.pick r s) u) j)
            (X i (Dense.solveOrder (backwards uplo side) (side.pick r s) u))).WideLeaf
              (side.pick true false) := fun u hu => by
        have hu' : u < side.pick r s := by omega
        have hl := solveOrder_lt (b := backwards uplo side) hu'
        have hv := solveOrder_invol (b := backwards uplo side) hu'
        cases side
        · have := ih u (by omega) _ hl j hj hv
          exact ⟨this.1, (hBs _ hl j hj).shape this.2, (hBw _ hl j hj).shape this.2⟩
        · have := ih u (by omega) i hi _ hl hv
          exact ⟨this.1, (hBs i hi _ hl).shape this.2, (hBw i hi _ hl).shape this.2⟩
      have Ln := trsm_line_fl u0 hg hA hAw hL hi hj (hBd i hi j hj).1 (hBs i hi j hj) ⟨h1, h2⟩
        (fun u hu => (prev u hu).1) (fun u hu => (prev u hu).2.1) (fun u hu => (prev u hu).2.2)
        hb bounds.1 bounds.2
      have lg := lag_block (blk := A) h1 h2
      have S := ht _ _ _ (hA'.2.2 _ h1 _ h2).1 Ln.2.1 ((hBs i hi j hj).shape Ln.2.2.1) (hAw _ h1 _ h2)
        ((hBw i hi j hj).shape Ln.2.2.1).blocks (by omega) hb'
      exact ⟨S.1, Ln.2.2.1.trans S.2⟩
  refine ⟨X, rfl, fun i hi j hj => key _ i hi j hj rfl, bounds.1, bounds.2, fun i hi j hj => ?_⟩
  obtain ⟨h1, h2, b, hb, hb'⟩ := H i hi j hj
  have hn : side.pick i j < side.pick r s := by cases side <;> simpa [Side.pick]
  have hlt := solveOrder_lt (b := backwards uplo side) hn
  have prev : ∀ u < Dense.solveOrder (backwards uplo side) (side.pick r s) (side.pick i j),
      (side.pick (X (Dense.solveOrder (backwards uplo side) (side.pick r s) u) j)
        (X i (Dense.solveOrder (backwards uplo side) (side.pick r s) u))).WF ∧
      (side.pick (X (Dense.solveOrder (backwards uplo side) (side.pick r s) u) j)
        (X i (Dense.solveOrder (backwards uplo side) (side.pick r s) u))).DenseLeaves ∧
      (side.pick (X (Dense.solveOrder (backwards uplo side) (side.pick r s) u) j)
        (X i (Dense.solveOrder (backwards uplo side) (side.pick r s) u))).WideLeaf
          (side.pick true false) := fun u hu => by
    have hu' : u < side.pick r s := by omega
    have hl := solveOrder_lt (b := backwards uplo side) hu'
    cases side
    · have := key _ _ hl j hj rfl
      exact ⟨this.1, (hBs _ hl j hj).shape this.2, (hBw _ hl j hj).shape this.2⟩
    · have := key _ i hi _ hl rfl
      exact ⟨this.1, (hBs i hi _ hl).shape this.2, (hBw i hi _ hl).shape this.2⟩
  have Ln := trsm_line_fl u0 hg hA hAw hL hi hj (hBd i hi j hj).1 (hBs i hi j hj) ⟨h1, h2⟩
    (fun u hu => (prev u hu).1) (fun u hu => (prev u hu).2.1) (fun u hu => (prev u hu).2.2)
    hb bounds.1 bounds.2
  exact ⟨b, Ln.1, Ln.2.1, Ln.2.2.1, Ln.2.2.2, hb'⟩

theorem trsmDense_dims {F : FlLapack} {uplo : Uplo} {side : Side} {a b d : Dense ℝ}
    (h : F.trsmDense uplo side a b = .ok d) : d.rows = b.rows ∧ d.cols = b.cols := by
  simp only [FlLapack.trsmDense] at h
  split at h
  · cases h; exact ⟨rfl, rfl⟩
  · split at h
    · cases h; exact ⟨rfl, rfl⟩
    · cases h

theorem trsmWith_flshape (u0 : 0 ≤ u) {F : FlLapack} {g : GemmT ℝ} (hg : GemmFl u g) {L : Nat}
    {side : Side} {uplo : Uplo} (fuel : Nat) : ∀ A B B', A.WF → B.WF → B.DenseLeaves →
      A.Wide (side.pick false true) → B.WideBlocks (side.pick true false) → A.lag + 3 ≤ L →
      F.trsmWith g uplo side fuel A B = .ok B' → B'.WF ∧ B.SameShape B' := by
  induction fuel with
  | zero => intro A B B' _ _ _ _ _ _ h; cases h
  | succ fuel ih =>
    intro A B B' hA hB hBs hAw hBw hL h
    simp only [FlLapack.trsmWith] at h
    cases B with
    | lowRank b => exact hBs.elim
    | empty => exact hBs.elim
    | dense b =>
      cases A with
      | lowRank a => cases h
      | empty => cases h
      | dense a =>
        simp only [FlLapack.trsmOmm, except_bind_eq_ok] at h
        obtain ⟨d, hd, h⟩ := h
        cases h
        have := trsmDense_dims hd
        exact ⟨trivial, this.1.symm, this.2.symm⟩
      | hier p q A =>
        have hA0 := hA
        simp only [WF] at hA0
        simp only [FlLapack.trsmOmm, trsmOmm, except_bind_eq_ok] at h
        obtain ⟨BH, hBH, BH', hBH', h⟩ := h
        have h1 : 1 ≤ side.pick p 1 := by cases side <;> simp [Side.pick] ; omega
        have h2 : 1 ≤ side.pick 1 q := by cases side <;> simp [Side.pick] ; omega
        obtain ⟨bl, rfl, w, -, dl⟩ := split_dense_leaves h1 h2 hBH
        have I := ih _ _ _ hA w (dense_leaves dl) hAw (fun i hi j hj => Or.inr (dl i hi j hj)) hL hBH'
        obtain ⟨d, rfl, e1, e2, -⟩ := joinDense_entries h1 h2 hBH I.2 h
        exact ⟨trivial, e1.symm, e2.symm⟩
    | hier r s B =>
      cases A with
      | lowRank a => cases h
      | empty => cases h
      | dense a => cases h
      | hier p q A =>
        obtain ⟨X, rfl, key, -⟩ := trsmHH_flshape u0 hg ih hA hB hBs hAw hBw hL h
        have hB' := hB
        simp only [WF] at hB'
        have G := hier_grid (blk := X) (h := fun a => (B a 0).nRows) (w := fun b => (B 0 b).nCols)
          hB'.1 hB'.2.1 (fun i hi j hj => ⟨(key i hi j hj).1, by
            rw [((key i hi j hj).2.dims (hB'.2.2 i hi j hj).1).1, (hB'.2.2 i hi j hj).2.1], by
            rw [((key i hi j hj).2.dims (hB'.2.2 i hi j hj).1).2, (hB'.2.2 i hi j hj).2.2]⟩)
        exact ⟨G.1, rfl, rfl, fun i hi j hj => (key i hi j hj).2⟩

theorem trsmDense_fl (u0 : 0 ≤ u) {F : FlLapack} (hF : F.Sound u) {L : Nat} (hL : 3 ≤ L)
    {uplo : Uplo} {side : Side} {a b d : Dense ℝ} (hn : a.rows = side.pick b.rows b.cols)
    (h : F.trsmDense uplo side a b = .ok d) :
    TrsmFl u L uplo side (.dense a) (.dense b) (.dense d) := by
  have dm := trsmDense_dims h
  refine ⟨trivial, ⟨dm.1.symm, dm.2.symm⟩, le_rfl, fun i hi j hj => ?_⟩
  simp only [FlLapack.trsmDense] at h
  have hi' : i < b.rows := hi
  have hj' : j < b.cols := hj
  rw [if_neg (by omega)] at h
  split at h
  · rename_i hc
    cases h
    have tri0 : ∀ i j, (uplo = .upper ∧ j < i ∨ uplo = .lower ∧ i < j) →
        a.tri uplo (decide (uplo = .lower)) i j = 0 := by
      intro i j hh
      rcases hh with ⟨rfl, hh⟩ | ⟨rfl, hh⟩
      · simp only [Dense.tri]
        rw [if_neg (by omega), if_neg (by omega)]
      · simp only [Dense.tri]
        rw [if_neg (by omega), if_neg (by omega)]
    have dg : ∀ i < side.pick b.rows b.cols, a.tri uplo (decide (uplo = .lower)) i i ≠ 0 := fun i hi =>
      of_decide_eq_true (List.all_eq_true.1 hc.2.2 i (List.mem_range.2 hi))
    have eqT : ∀ i j, triEntry uplo (decide (uplo = .lower)) (.dense a) i j =
        a.tri uplo (decide (uplo = .lower)) i j := by
      intro i j
      cases uplo <;> rfl
    have eqA : ∀ i j, triEntry uplo (decide (uplo = .lower)) (Mat.dense a.abs) i j =
        |a.tri uplo (decide (uplo = .lower)) i j| := by
      intro i j
      rw [← eqT]
      unfold triEntry
      split
      · split
        · exact abs_one.symm
        · rfl
      · cases uplo
        · show (if i < j then |a.val i j| else 0) = |if i < j then a.val i j else 0|
          split
          · rfl
          · exact abs_zero.symm
        · show (if j < i then |a.val i j| else 0) = |if j < i then a.val i j else 0|
          split
          · rfl
          · exact abs_zero.symm
    have pw : ∀ n, 0 < n → ((1 + u) ^ (n + 2) - 1 : ℝ) ≤ (1 + u) ^ (n * L) - 1 := by
      intro n h0
      have : n * 3 ≤ n * L := Nat.mul_le_mul_left _ hL
      exact sub_le_sub_right (pow_le_pow_right₀ (by linarith) (by omega)) _
    cases side with
    | left =>
      have hn : a.rows = b.rows := hn
      show |∑ l ∈ range a.rows, triEntry uplo (decide (uplo = .lower)) (.dense a) i l * F.dtrsm uplo .left (a.tri uplo (decide (uplo = .lower))) b l j - b.val i j| ≤
        ((1 + u) ^ (a.rows * L) - 1) *
        (∑ l ∈ range a.rows, triEntry uplo (decide (uplo = .lower)) (.dense a.abs) i l *
          |F.dtrsm uplo .left (a.tri uplo (decide (uplo = .lower))) b l j| + |b.val i j|)
      rw [hn]
      simp only [eqT, eqA]
      refine (hF.dtrsm_left uplo _ b tri0 dg i hi' j hj').trans ?_
      exact mul_le_mul_of_nonneg_right (pw _ (Nat.lt_of_le_of_lt (Nat.zero_le _) hi'))
        (add_nonneg (Finset.sum_nonneg fun l _ => mul_nonneg (abs_nonneg _) (abs_nonneg _)) (abs_nonneg _))
    | right =>
      have hn : a.rows = b.cols := hn
      show |∑ l ∈ range a.rows, F.dtrsm uplo .right (a.tri uplo (decide (uplo = .lower))) b i l * triEntry uplo (decide (uplo = .lower)) (.dense a) l j - b.val i j| ≤
        ((1 + u) ^ (a.rows * L) - 1) *
        (∑ l ∈ range a.rows, |F.dtrsm uplo .right (a.tri uplo (decide (uplo = .lower))) b i l| *
          triEntry uplo (decide (uplo = .lower)) (.dense a.abs) l j + |b.val i j|)
      rw [hn]
      simp only [eqT, eqA]
      refine (hF.dtrsm_right uplo _ b tri0 dg i hi' j hj').trans ?_
      exact mul_le_mul_of_nonneg_right (pw _ (Nat.lt_of_le_of_lt (Nat.zero_le _) hj'))
        (add_nonneg (Finset.sum_nonneg fun l _ => mul_nonneg (abs_nonneg _) (abs_nonneg _)) (abs_nonneg _))
  · cases h

theorem trsmWith_fl_leaves (u0 : 0 ≤ u) {F : FlLapack} (hF : F.Sound u) {g : GemmT ℝ}
    (hg : GemmFl u g) {L : Nat} {side : Side} {uplo : Uplo} (fuel : Nat) : ∀ A B B', A.WF → B.WF →
      B.DenseLeaves → A.DiagSquare → TriFits side A B → A.nRows = side.pick B.nRows B.nCols →
      A.Wide (side.pick false true) → B.WideBlocks (side.pick true false) → A.lag + 3 ≤ L →
      F.trsmWith g uplo side fuel A B = .ok B' → TrsmFl u L uplo side A B B' := by
  induction fuel with
  | zero => intro A B B' _ _ _ _ _ _ _ _ _ h; cases h
  | succ fuel ih =>
    intro A B B' hA hB hBs hD hT hn hAw hBw hL h
    have S := trsmWith_flshape u0 hg (fuel + 1) A B B' hA hB hBs hAw hBw hL h
    have lg0 : B'.lag ≤ B.lag := by rw [lag_leaves (hBs.shape S.2)]; exact Nat.zero_le _
    simp only [FlLapack.trsmWith] at h
    cases B with
    | lowRank b => exact hBs.elim
    | empty => exact hBs.elim
    | dense b =>
      cases A with
      | lowRank a => cases h
      | empty => cases h
      | dense a =>
        simp only [FlLapack.trsmOmm, except_bind_eq_ok] at h
        obtain ⟨d, hd, h⟩ := h
        cases h
        exact trsmDense_fl u0 hF (by omega) hn hd
      | hier p q A =>
        have hA0 := hA
        simp only [WF] at hA0
        simp only [FlLapack.trsmOmm, trsmOmm, except_bind_eq_ok] at h
        obtain ⟨BH, hBH, BH', hBH', h⟩ := h
        have hpq : p = q := hD.1
        have h1 : 1 ≤ side.pick p 1 := by cases side <;> simp [Side.pick] ; omega
        have h2 : 1 ≤ side.pick 1 q := by cases side <;> simp [Side.pick] ; omega
        obtain ⟨bl, rfl, w, same, dl⟩ := split_dense_leaves h1 h2 hBH
        have I := ih _ _ _ hA w (dense_leaves dl) hD ⟨by
            cases side <;> simp only [Side.pick]
            exact hpq,
          fun i hi j hj => by
            obtain ⟨d, hd⟩ := dl i hi j hj
            rw [hd]
            exact TriFits_dense _ _ _⟩ (by rw [hn, same.1, same.2.1]) hAw
            (fun i hi j hj => Or.inr (dl i hi j hj)) hL hBH'
        obtain ⟨d, rfl, e1, e2, e3⟩ := joinDense_entries h1 h2 hBH I.shape h
        refine ⟨S.1, S.2, lg0, fun i hi j hj => ?_⟩
        have hi' : i < (Mat.hier (side.pick p 1) (side.pick 1 q) bl).nRows := by rw [same.1]; exact hi
        have hj' : j < (Mat.hier (side.pick p 1) (side.pick 1 q) bl).nCols := by rw [same.2.1]; exact hj
        have E := I.ent i hi' j hj'
        have hXd := (dense_leaves dl).shape I.shape
        have dmX := I.shape.dims w
        rw [abs_entry w (dense_leaves dl) hi' hj', same.2.2 i hi' j hj'] at E
        have c1 : sideProd side (Mat.hier p q A).nRows
            (triEntry uplo (decide (uplo = .lower)) (.hier p q A)) (.dense d) i j =
            sideProd side (Mat.hier p q A).nRows
            (triEntry uplo (decide (uplo = .lower)) (.hier p q A)) BH' i j := by
          refine sideProd_congr (fun l _ => by cases side <;> rfl) (fun l hl => ?_)
          rw [hn] at hl
          cases side
          · exact e3 l hl j hj
          · exact e3 i hi l hl
        have c2 : sideProd side (Mat.hier p q A).nRows
            (triEntry uplo (decide (uplo = .lower)) (Mat.hier p q A).abs) (Mat.dense d).abs i j =
            sideProd side (Mat.hier p q A).nRows
            (triEntry uplo (decide (uplo = .lower)) (Mat.hier p q A).abs) BH'.abs i j := by
          refine sideProd_congr (fun l _ => by cases side <;> rfl) (fun l hl => ?_)
          rw [hn] at hl
          cases side
          · have := e3 l hl j hj
            show |d.val l j| = _
            rw [this, abs_entry I.wf hXd (by rw [dmX.1, same.1]; exact hl) (by rw [dmX.2]; exact hj')]
          · have := e3 i hi l hl
            show |d.val i l| = _
            rw [this, abs_entry I.wf hXd (by rw [dmX.1]; exact hi') (by rw [dmX.2, same.2.1]; exact hl)]
        rw [c1, c2]
        exact E
    | hier r s B =>
      cases A with
      | lowRank a => cases h
      | empty => cases h
      | dense a => cases h
      | hier p q A =>
        have hA0 := hA
        have hB' := hB
        simp only [WF] at hA0 hB'
        obtain ⟨X, rfl, key, b1, b2, Ln⟩ := trsmHH_flshape u0 hg (trsmWith_flshape u0 hg fuel) hA hB hBs
          hAw hBw hL h
        have hp : p = side.pick r s := hT.1
        have dlt : ∀ i < r, ∀ j < s, side.pick i j < p := fun i hi j hj => by
          rw [hp]; cases side <;> simpa [Side.pick]
        have hpq : p = q := hD.1
        have XB := S.2.dims hB
        have hh := tri_heights (uplo := uplo) hD hA S.1 hp (by rw [XB.1, XB.2]; exact hn)
          (fun i hi j hj k hk hs => by
            obtain ⟨b, gd, -⟩ := Ln i hi j hj
            have dm := (key i hi j hj).2.dims (hB'.2.2 i hi j hj).1
            have := gd k (by rw [← hp]; exact hk) hs
            cases side
            · exact ⟨this.rows.trans dm.1.symm, this.inner, this.cols.trans dm.2.symm⟩
            · exact ⟨this.rows.trans dm.1.symm, this.inner, this.cols.trans dm.2.symm⟩)
        have hXw := S.1
        have hXW := hXw
        simp only [WF] at hXw
        have hw := hD.widths hA
        refine ⟨S.1, S.2, lg0, ?_⟩
        intro i0 hi0 j0 hj0
        rw [nRows_hier] at hi0
        rw [nCols_hier] at hj0
        obtain ⟨i, hi, x, hx, rfl⟩ := exists_block _ _ _ hi0
        obtain ⟨j, hj, y, hy, rfl⟩ := exists_block _ _ _ hj0
        have hx' : x < (B i j).nRows := by rw [(hB'.2.2 i hi j hj).2.1]; exact hx
        have hy' : y < (B i j).nCols := by rw [(hB'.2.2 i hi j hj).2.2]; exact hy
        obtain ⟨b, gd, bw, sh, Le, hbt⟩ := Ln i hi j hj
        have Le := Le x hx' y hy'
        have hd := dlt i hi j hj
        have dmb := sh.dims (hB'.2.2 i hi j hj).1
        have dmx := (key i hi j hj).2.dims (hB'.2.2 i hi j hj).1
        have lg := lag_block (blk := A) hd (show side.pick i j < q by omega)
        have bs := (hBs i hi j hj).shape sh
        have I := ih _ _ _ (hA0.2.2 _ hd _ (by omega)).1 bw bs (hD.2 _ hd) ((hT.2 i hi j hj).shape sh) (by
          have e1 := hh _ hd
          rw [(hA0.2.2 _ hd _ (by omega)).2.1, e1, dmb.1, dmb.2, ← dmx.1, ← dmx.2]
          cases side
          · exact ((hXw.2.2 i hi j hj).2.1).symm
          · exact ((hXw.2.2 i hi j hj).2.2).symm) (hAw _ hd _ (by omega))
          ((hBw i hi j hj).shape sh).blocks (by omega) hbt
        have I := I.ent x (by rw [dmb.1]; exact hx') y (by rw [dmb.2]; exact hy')
        rw [abs_entry bw bs (by rw [dmb.1]; exact hx') (by rw [dmb.2]; exact hy')] at I
        -- assemble
        have e1 : ∀ k < r, (B k 0).nRows = (X k 0).nRows := fun k hk =>
          (((key k hk 0 hB'.2.1).2.dims (hB'.2.2 k hk 0 hB'.2.1).1).1).symm
        have e2 : ∀ k < s, (B 0 k).nCols = (X 0 k).nCols := fun k hk =>
          (((key 0 hB'.1 k hk).2.dims (hB'.2.2 0 hB'.1 k hk).1).2).symm
        have hxX : x < (X i 0).nRows := by rw [← e1 i hi]; exact hx
        have hyX : y < (X 0 j).nCols := by rw [← e2 j hj]; exact hy
        have eB := entry_block (blk := B) hi hj hx hy
        have eBA : (Mat.hier r s B).abs.entry (psum (fun k => (B k 0).nRows) i + x)
            (psum (fun k => (B 0 k).nCols) j + y) = |(B i j).entry x y| := by
          rw [abs_entry hB hBs (by rw [nRows_hier]; exact hi0) (by rw [nCols_hier]; exact hj0), eB]
        rw [eB, eBA]
        have SB := sideProd_block hD hA hXW uplo side (decide (uplo = .lower)) hp hh hi hj hxX hyX
        have SA := sideProd_block (A := fun i j => (A i j).abs) (X := fun i j => (X i j).abs)
          (DiagSquare.abs hD) (WF_abs hA) (WF_abs hXW) uplo side (decide (uplo = .lower)) hp
          (fun k hk => by simpa only [nRows_abs, nCols_abs] using hh k hk) hi hj
          (by simpa only [nRows_abs] using hxX) (by simpa only [nCols_abs] using hyX)
        simp only [nRows_abs, nCols_abs] at SA
        rw [psum_congr (h' := fun k => (X k 0).nRows) (fun k hk => e1 k (by omega)),
          psum_congr (h' := fun k => (X 0 k).nCols) (fun k hk => e2 k (by omega))]
        have SB' : sideProd side (Mat.hier p q A).nRows
            (triEntry uplo (decide (uplo = .lower)) (.hier p q A)) (.hier r s X)
            (psum (fun k => (X k 0).nRows) i + x) (psum (fun k => (X 0 k).nCols) j + y) =
          sideProd side (A (side.pick i j) (side.pick i j)).nRows
            (triEntry uplo (decide (uplo = .lower)) (A (side.pick i j) (side.pick i j))) (X i j) x y +
            offProd uplo side p A X i j x y := SB
        have SA' : sideProd side (Mat.hier p q A).nRows
            (triEntry uplo (decide (uplo = .lower)) (Mat.hier p q A).abs) (Mat.hier r s X).abs
            (psum (fun k => (X k 0).nRows) i + x) (psum (fun k => (X 0 k).nCols) j + y) =
          sideProd side (A (side.pick i j) (side.pick i j)).nRows
            (triEntry uplo (decide (uplo = .lower)) (A (side.pick i j) (side.pick i j)).abs) (X i j).abs
              x y +
            offProd uplo side p (fun i j => (A i j).abs) (fun i j => (X i j).abs) i j x y := by
          rw [← nRows_abs (Mat.hier p q A)]
          exact SA
        rw [SB', SA']
        rw [← hp] at Le
        -- the sizes
        have wid : ∀ k < p, ((side.pick (A i k) (X i k)).nCols) = (A k 0).nRows := by
          intro k hk
          cases side with
          | left =>
            rw [← hw k hk]
            exact (hA0.2.2 i hd k (by omega)).2.2
          | right =>
            rw [hh k hk]
            exact (hXw.2.2 i hi k (by rw [hp] at hk; exact hk)).2.2
        have sz : (∑ k ∈ range p, if strictB uplo side (side.pick i j) k then
              ((side.pick (A i k) (X i k)).nCols) else 0) + (A (side.pick i j) (side.pick i j)).nRows ≤
              (Mat.hier p q A).nRows := by
          rw [nRows_hier, (hA0.2.2 _ hd _ (by omega)).2.1, psum,
            ← Finset.add_sum_erase _ (fun k => (A k 0).nRows) (mem_range.2 hd), add_comm,
            ← Finset.add_sum_erase _ (fun k => if strictB uplo side (side.pick i j) k then
            ((side.pick (A i k) (X i k)).nCols) else 0) (mem_range.2 hd)]
          refine Nat.add_le_add_left ?_ _
          simp only [strictB_self, Bool.false_eq_true, if_false, zero_add]
          refine Finset.sum_le_sum (fun k hk => ?_)
          have hk := mem_range.1 (Finset.mem_of_mem_erase hk)
          split
          · rw [wid k hk]
          · exact Nat.zero_le _
        have N := near_solve u0 I Le Le.abs_le (sideProd_nonneg (fun _ _ => triEntry_abs_nonneg _ _ _ _ _)
          (fun _ _ => abs_entry_nonneg _ _ _))
        have pw : ((1 + u) ^ ((∑ k ∈ range p, if strictB uplo side (side.pick i j) k then
              ((side.pick (A i k) (X i k)).nCols) else 0) * L +
              (A (side.pick i j) (side.pick i j)).nRows * L) - 1 : ℝ) ≤
            (1 + u) ^ ((Mat.hier p q A).nRows * L) - 1 := by
          refine sub_le_sub_right (pow_le_pow_right₀ (by linarith) ?_) _
          rw [← Nat.add_mul]
          exact Nat.mul_le_mul_right _ sz
        have nn : 0 ≤ sideProd side (A (side.pick i j) (side.pick i j)).nRows
            (triEntry uplo (decide (uplo = .lower)) (A (side.pick i j) (side.pick i j)).abs) (X i j).abs
              x y + (|(B i j).entry x y| +
            offProd uplo side p (fun i j => (A i j).abs) (fun i j => (X i j).abs) i j x y) :=
          add_nonneg (sideProd_nonneg (fun _ _ => triEntry_abs_nonneg _ _ _ _ _)
            (fun _ _ => abs_entry_nonneg _ _ _)) Le.m0
        have M := N.trans (mul_le_mul_of_nonneg_right pw nn)
        have r1 : ∀ a b c : ℝ, a + b - c = a - (c - b) := fun a b c => by ring
        have r2 : ∀ a b c : ℝ, a + b + c = a + (c + b) := fun a b c => by ring
        rw [r1, r2]
        exact M

theorem mm_near_left {p : Nat} {f f' g F F' : Nat → Nat → ℝ} {c : ℝ} {i j : Nat}
    (h : ∀ a < p, |f i a - f' i a| ≤ c * (F i a + F' i a)) :
    |mm p f g i j - mm p f' g i j| ≤
      c * (mm p F (fun x y => |g x y|) i j + mm p F' (fun x y => |g x y|) i j) := by
  simp only [mm, ← Finset.sum_sub_distrib, ← Finset.sum_add_distrib, Finset.mul_sum]
  refine (Finset.abs_sum_le_sum_abs _ _).trans (Finset.sum_le_sum fun a ha => ?_)
  rw [← sub_mul, abs_mul, ← add_mul, ← mul_assoc]
  exact mul_le_mul_of_nonneg_right (h a (mem_range.1 ha)) (abs_nonneg _)

theorem mm_near_right {p : Nat} {f g g' G G' : Nat → Nat → ℝ} {c : ℝ} {i j : Nat}
    (h : ∀ a < p, |g a j - g' a j| ≤ c * (G a j + G' a j)) {fA : Nat → Nat → ℝ}
    (hf : ∀ a < p, |f i a| ≤ fA i a) :
    |mm p f g i j - mm p f g' i j| ≤ c * (mm p fA G i j + mm p fA G' i j) := by
  simp only [mm, ← Finset.sum_sub_distrib, ← Finset.sum_add_distrib, Finset.mul_sum]
  refine (Finset.abs_sum_le_sum_abs _ _).trans (Finset.sum_le_sum fun a ha => ?_)
  rw [← mul_sub, abs_mul, ← mul_add, mul_left_comm]
  have h1 := h a (mem_range.1 ha)
  exact mul_le_mul (hf a (mem_range.1 ha)) h1 (abs_nonneg _) ((abs_nonneg _).trans (hf a (mem_range.1 ha)))

theorem abs_mm_le (p : Nat) (f g : Nat → Nat → ℝ) (i j : Nat) :
    |mm p f g i j| ≤ mm p (fun x y => |f x y|) (fun x y => |g x y|) i j := by
  simp only [mm]
  refine (Finset.abs_sum_le_sum_abs _ _).trans (le_of_eq (Finset.sum_congr rfl fun a _ => abs_mul _ _))

/-- Solving for the outer factor of a low-rank matrix. -/
theorem setOuter_fl {l : LowRank ℝ} (hl : l.WF) {side : Side} {n : Nat} {T TA : Nat → Nat → ℝ} {c : ℝ}
    {X : Dense ℝ}
    (h : ∀ x < (l.outer side).rows, ∀ y < (l.outer side).cols,
      |sideProd side n T (.dense X) x y - (l.outer side).val x y| ≤
        c * (sideProd side n TA (Mat.dense X).abs x y + |(l.outer side).val x y|)) :
    ∀ i < l.dim0, ∀ j < l.dim1, |sideProd side n T (.lowRank (l.setOuter side X)) i j -
      (Mat.lowRank l).entry i j| ≤
        c * (sideProd side n TA (Mat.lowRank (l.setOuter side X)).abs i j + (Mat.lowRank l).abs.entry i j) := by
  intro i hi j hj
  cases side with
  | left =>
    rw [sideProd_lowRank]
    simp only [abs]
    rw [sideProd_lowRank]
    simp only [entry, LowRank_entry_mm, LowRank.setOuter, Side.pick_left, LowRank.abs, Dense.abs]
    refine mm_near_left (F := mm l.S.rows (mm n TA (fun x y => |X.val x y|)) (fun x y => |l.S.val x y|))
      (F' := mm l.S.rows (fun x y => |l.U.val x y|) (fun x y => |l.S.val x y|)) (fun b _ => ?_)
    refine mm_near_left (F := mm n TA (fun x y => |X.val x y|)) (F' := fun x y => |l.U.val x y|)
      (fun a ha => ?_)
    exact h i (by rw [← hl.urows] at hi; exact hi) a (by
      have := hl.ucols; have := hl.srows
      show a < l.U.cols
      omega)
  | right =>
    rw [sideProd_lowRank]
    simp only [abs]
    rw [sideProd_lowRank]
    simp only [entry, LowRank_entry_mm, LowRank.setOuter, Side.pick_right, LowRank.abs, Dense.abs]
    refine mm_near_right (G := mm n (fun x y => |X.val x y|) TA) (G' := fun x y => |l.V.val x y|)
      (fun b hb => ?_) (fun b _ => abs_mm_le _ _ _ _ _)
    exact h b (by
      have := hl.vrows
      show b < l.V.rows
      omega) j (by rw [← hl.vcols] at hj; exact hj)

/-- Solves with any right-hand side that is modelled. -/
theorem trsmWith_fl (u0 : 0 ≤ u) {F : FlLapack} (hF : F.Sound u) {g : GemmT ℝ}
    (hg : GemmFl u g) {L : Nat} {side : Side} {uplo : Uplo} (fuel : Nat) {A B B' : Mat ℝ} (hA : A.WF)
    (hB : B.WF) (hBs : B.SolveTarget) (hD : A.DiagSquare) (hT : TriFits side A B)
    (hn : A.nRows = side.pick B.nRows B.nCols) (hAw : A.Wide (side.pick false true))
    (hBw : B.WideBlocks (side.pick true false)) (hL : A.lag + 3 ≤ L)
    (h : F.trsmWith g uplo side fuel A B = .ok B') : TrsmFl u L uplo side A B B' := by
  rcases hBs.cases with hd | ⟨b, rfl⟩
  · exact trsmWith_fl_leaves u0 hF hg fuel A B B' hA hB hd hD hT hn hAw hBw hL h
  · cases fuel with
    | zero => cases h
    | succ fuel =>
      have h : (do
        let X ← F.trsmWith g uplo side fuel A (.dense (b.outer side))
        let X ← X.asDense
        .ok (.lowRank (b.setOuter side X))) = Except.ok B' := by
        rw [← h]; cases A <;> rfl
      simp only [except_bind_eq_ok] at h
      obtain ⟨X, hX, d, hd, h⟩ := h
      cases h
      have hb : b.WF := hB
      have I := trsmWith_fl_leaves u0 hF hg fuel A (.dense (b.outer side)) X hA trivial trivial hD
        (TriFits_dense _ _ _) (by
        rw [hn]
        cases side
        · exact hb.urows.symm
        · exact hb.vcols.symm) hAw trivial hL hX
      obtain rfl := asDense_ok hd
      exact ⟨setOuter_wf hb I.shape.1.symm I.shape.2.symm, setOuter_shape, by cases side <;> exact le_rfl,
        fun i hi j hj => setOuter_fl hb (fun x hx y hy => I.ent x hx y hy) i hi j hj⟩

end Mat
end Verif
