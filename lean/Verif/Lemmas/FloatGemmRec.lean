import Verif.Lemmas.FloatGemm

/-
Rounding errors of products of structured matrices.
-/

set_option linter.unusedSectionVars false
set_option linter.unusedVariables false
set_option linter.unusedSimpArgs false

namespace Verif
open Finset

namespace Mat

theorem abs_entry_le (A : Mat ℝ) (i j : Nat) : |A.entry i j| ≤ A.abs.entry i j := by
  induction A generalizing i j with
  | dense d => exact le_rfl
  | lowRank l =>
    show |∑ b ∈ range l.S.cols, (∑ a ∈ range l.S.rows, l.U.val i a * l.S.val a b) * l.V.val b j| ≤
      ∑ b ∈ range l.S.cols, (∑ a ∈ range l.S.rows, |l.U.val i a| * |l.S.val a b|) * |l.V.val b j|
    refine (Finset.abs_sum_le_sum_abs _ _).trans (Finset.sum_le_sum fun b _ => ?_)
    rw [abs_mul]
    refine mul_le_mul_of_nonneg_right ?_ (abs_nonneg _)
    refine (Finset.abs_sum_le_sum_abs _ _).trans (Finset.sum_le_sum fun a _ => ?_)
    rw [abs_mul]
  | empty => simp [entry, abs]
  | hier br bc blk ih =>
    simp only [abs, entry, nRows_abs, nCols_abs]
    exact ih _ _ _ _

theorem prod_abs_le (ta tb : Bool) (A B : Mat ℝ) (i j : Nat) :
    |prodEntry ta tb A B i j| ≤ prodEntry ta tb A.abs B.abs i j := by
  unfold prodEntry
  rw [opCols_abs]
  refine (Finset.abs_sum_le_sum_abs _ _).trans (Finset.sum_le_sum fun l _ => ?_)
  rw [abs_mul]
  have h1 : |A.opEntry ta i l| ≤ A.abs.opEntry ta i l := by
    cases ta <;> exact abs_entry_le _ _ _
  have h2 : |B.opEntry tb l j| ≤ B.abs.opEntry tb l j := by
    cases tb <;> exact abs_entry_le _ _ _
  exact mul_le_mul h1 h2 (abs_nonneg _) (le_trans (abs_nonneg _) h1)

/-- Another representation of the same matrix, also with absolute values. -/
structure Same2 (A' A : Mat ℝ) : Prop where
  ent : SameEntries A' A
  abs : SameEntries A'.abs A.abs
  lag : A'.lag ≤ A.lag

theorem Same2.refl (A : Mat ℝ) : Same2 A A := ⟨SameEntries.refl' _, SameEntries.refl' _, le_rfl⟩

theorem same2_split {a : Dense ℝ} {nr nc : Nat} {b : Nat → Nat → Mat ℝ} (w : (Mat.hier nr nc b).WF)
    (h : SameEntries (.hier nr nc b) (.dense a)) (hb : ∀ i < nr, ∀ j < nc, ∃ d, b i j = .dense d) :
    Same2 (.hier nr nc b) (.dense a) :=
  ⟨h, same_abs h w trivial (dense_leaves hb) trivial, by rw [lag_leaves (dense_leaves hb)]; exact Nat.zero_le _⟩

theorem one_block2 {A : Nat → Nat → Mat ℝ} {p q : Nat} (hA : (Mat.hier p q A).WF) (h : p = 1 ∧ q = 1) :
    (A 0 0).WF ∧ Same2 (A 0 0) (.hier p q A) := by
  refine ⟨(one_block hA h).1, (one_block hA h).2, ?_, lag_block (by omega) (by omega)⟩
  exact (one_block (WF_abs hA) h).2

/-! ### grids with absolute values -/

theorem grid_hier_abs {t : Bool} {p q : Nat} {A : Nat → Nat → Mat ℝ} (hA : (Mat.hier p q A).WF) :
    Grid t (Mat.hier p q A).abs (opDim0 t p q) (opDim1 t p q) (fun i j => (opBlk t A i j).abs)
      (fun i => (opBlk t A i 0).opRows t) (fun j => (opBlk t A 0 j).opCols t) := by
  have := grid_hier (t := t) (A := fun i j => (A i j).abs) (WF_abs hA)
  have e : (opBlk t fun i j => (A i j).abs) = fun i j => (opBlk t A i j).abs := by cases t <;> rfl
  simp only [e, opRows_abs, opCols_abs] at this
  exact this

theorem grid_one_abs {t : Bool} {A : Mat ℝ} (hA : A.WF) :
    Grid t A.abs 1 1 (fun _ _ => A.abs) (fun _ => A.opRows t) (fun _ => A.opCols t) := by
  have := grid_one (t := t) (WF_abs hA)
  simpa only [opRows_abs, opCols_abs] using this

/-! ### what is known about recursive calls -/

/-- The result has the structure of `C`; every entry was computed with at most `L`
roundings per unit of the inner dimension. -/
structure FlPost (u : ℝ) (L : Nat) (A B C C' : Mat ℝ) (α β : ℝ) (ta tb : Bool) : Prop where
  wf : C'.WF
  shape : C.SameShape C'
  ent : ∀ i < C.nRows, ∀ j < C.nCols, FlEnt u (A.opCols ta * L) A B C C' α β ta tb i j

def GemmFl (u : ℝ) (g : GemmT ℝ) : Prop :=
  ∀ L A B C α β ta tb C', A.WF → B.WF → C.WF → C.DenseLeaves → TransSafe ta tb A B →
    Innr ta tb A B → A.lag + B.lag + 3 ≤ L → g A B C α β ta tb = .ok C' →
    GemmDims ta tb A B C ∧ FlPost u L A B C C' α β ta tb

structure FlNewPost (u : ℝ) (L : Nat) (A B D : Mat ℝ) (α : ℝ) (ta tb : Bool) : Prop where
  inner : A.opCols ta = B.opRows tb
  wf : D.WF
  leaves : D.DenseLeaves
  rows : D.nRows = A.opRows ta
  cols : D.nCols = B.opCols tb
  ent : ∀ i < D.nRows, ∀ j < D.nCols, FlNear u (A.opCols ta * L) (D.entry i j)
    (α * prodEntry ta tb A B i j) (|α| * prodEntry ta tb A.abs B.abs i j)

def GemmNewFl (u : ℝ) (gn : GemmNewT ℝ) : Prop :=
  ∀ L A B α ta tb D, A.WF → B.WF → TransSafe ta tb A B → Innr ta tb A B → A.lag + B.lag + 3 ≤ L →
    gn A B α ta tb = .ok D → FlNewPost u L A B D α ta tb

variable {u : ℝ} (u0 : 0 ≤ u)

/-- A product accumulated into a computed matrix. -/
theorem near_acc (u0 : 0 ≤ u) {A B C C' : Mat ℝ} {α β y w : ℝ} {ta tb : Bool} {i j k K : Nat}
    (h : FlEnt u k A B C C' α β ta tb i j) (hc : FlNear u K (C.entry i j) y w) :
    FlNear u (K + k) (C'.entry i j) (α * prodEntry ta tb A B i j + β * y)
      (|α| * prodEntry ta tb A.abs B.abs i j + |β| * w) := by
  have hP : FlNear u K (α * prodEntry ta tb A B i j) (α * prodEntry ta tb A B i j)
      (|α| * prodEntry ta tb A.abs B.abs i j) := by
    have : FlNear u 0 (prodEntry ta tb A B i j) (prodEntry ta tb A B i j)
        (prodEntry ta tb A.abs B.abs i j) := ⟨by simp, prod_abs_le _ _ _ _ _ _⟩
    exact (this.mono u0 (Nat.zero_le K)).cmul α
  refine FlNear.step u0 h.1 ?_ (hP.add (hc.cmul β))
  rw [mul_add]
  refine add_le_add ?_ ?_
  · have p0 := hP.m0
    have := one_le_pow₀ (a := 1 + u) (by linarith) (n := K)
    nlinarith
  · have := mul_le_mul_of_nonneg_left hc.abs_le (abs_nonneg β)
    linarith

theorem loop_fl (u0 : 0 ≤ u) {g : GemmT ℝ} (hg : GemmFl u g) {m L K0 : Nat} {a b : Nat → Mat ℝ}
    {f : Nat → Mat ℝ → Except Err (Mat ℝ)} {α : ℝ} {β : Nat → ℝ} {ta tb : Bool} {C C' : Mat ℝ}
    {y w : Nat → Nat → ℝ}
    (hC : C.WF) (hCs : C.DenseLeaves) (ha : ∀ k < m, (a k).WF) (hb : ∀ k < m, (b k).WF)
    (ht : ∀ k < m, TransSafe ta tb (a k) (b k)) (hi : ∀ k < m, Innr ta tb (a k) (b k))
    (hL : ∀ k < m, (a k).lag + (b k).lag + 3 ≤ L)
    (hstep : ∀ k < m, ∀ c c', f k c = .ok c' → g (a k) (b k) c α (β k) ta tb = .ok c')
    (hβ : ∀ k, 0 < k → β k = 1)
    (hy : ∀ i < C.nRows, ∀ j < C.nCols, FlNear u K0 (C.entry i j) (y i j) (w i j))
    (h : loop m f C = .ok C') :
    (∀ k < m, GemmDims ta tb (a k) (b k) C) ∧ C'.WF ∧ C.SameShape C' ∧
    ∀ i < C.nRows, ∀ j < C.nCols,
      FlNear u (K0 + (∑ k ∈ range m, (a k).opCols ta) * L) (C'.entry i j)
        (α * (∑ k ∈ range m, prodEntry ta tb (a k) (b k) i j) + (if m = 0 then 1 else β 0) * y i j)
        (|α| * (∑ k ∈ range m, prodEntry ta tb (a k).abs (b k).abs i j) +
          (if m = 0 then 1 else |β 0|) * w i j) := by
  induction m generalizing C' with
  | zero =>
    cases h
    exact ⟨fun k hk => by omega, hC, SameShape.refl _, fun i hi j hj => by simpa using hy i hi j hj⟩
  | succ m ih =>
    rw [loop_succ, except_bind_eq_ok] at h
    obtain ⟨c, hc, h⟩ := h
    obtain ⟨i1, i2, i3, i4⟩ := ih (fun k hk => ha k (by omega)) (fun k hk => hb k (by omega))
      (fun k hk => ht k (by omega)) (fun k hk => hi k (by omega)) (fun k hk => hL k (by omega))
      (fun k hk => hstep k (by omega)) hc
    obtain ⟨gd, gp⟩ := hg _ _ _ _ _ _ _ _ _ (ha m (by omega)) (hb m (by omega)) i2 (hCs.shape i3)
      (ht m (by omega)) (hi m (by omega)) (hL m (by omega)) (hstep m (by omega) c C' h)
    have dd := i3.dims hC
    refine ⟨?_, gp.wf, i3.trans gp.shape, ?_⟩
    · intro k hk
      by_cases hk' : k = m
      · subst hk'
        exact ⟨by rw [gd.rows, dd.1], gd.inner, by rw [gd.cols, dd.2]⟩
      · exact i1 k (by omega)
    · intro i hi' j hj'
      have e1 := gp.ent i (by rw [dd.1]; exact hi') j (by rw [dd.2]; exact hj')
      have e := near_acc u0 e1 (i4 i hi' j hj')
      rw [Finset.sum_range_succ, Finset.sum_range_succ, Finset.sum_range_succ, add_mul, ← add_assoc]
      by_cases hm : m = 0
      · subst hm
        simpa using e
      · rw [hβ m (by omega), if_neg hm, if_neg hm] at e
        rw [if_neg (by omega), if_neg (by omega)]
        convert e using 1 <;> simp <;> ring

theorem target_fl {L : Nat} {ta tb : Bool} {A B : Mat ℝ} {m mA k0 k1 n : Nat}
    {a b C C' : Nat → Nat → Mat ℝ} {h w w' v : Nat → Nat} {α β : ℝ}
    (GA : Grid ta A mA k0 a h w) (GB : Grid tb B k1 n b w' v)
    (GA' : Grid ta A.abs mA k0 (fun i j => (a i j).abs) h w)
    (GB' : Grid tb B.abs k1 n (fun i j => (b i j).abs) w' v) (hK : k0 ≤ k1) (hm : mA ≤ m)
    (hC : (Mat.hier m n C).WF) (hd : GemmDims ta tb A B (.hier m n C))
    (key : ∀ i < m, ∀ j < n, (C' i j).WF ∧ (C i j).SameShape (C' i j))
    (keyD : ∀ i < mA, ∀ j < n, ∀ k < k0, GemmDims ta tb (a i k) (b k j) (C i j))
    (keyE : ∀ i < mA, ∀ j < n, ∀ r < (C i j).nRows, ∀ s < (C i j).nCols,
      FlNear u (A.opCols ta * L) ((C' i j).entry r s)
        (α * (∑ k ∈ range k0, prodEntry ta tb (a i k) (b k j) r s) + β * (C i j).entry r s)
        (|α| * (∑ k ∈ range k0, prodEntry ta tb (a i k).abs (b k j).abs r s) +
          |β| * |(C i j).entry r s|)) :
    FlPost u L A B (.hier m n C) (.hier m n C') α β ta tb := by
  have hC' := hC
  simp only [WF] at hC'
  obtain ⟨hm0, hn0, hCd⟩ := hC'
  have hw : ∀ k < k0, w k = w' k := by
    intro k hk
    rw [← GA.cols 0 GA.m0 k hk, ← GB.rows k (by omega) 0 hn0]
    exact (keyD 0 GA.m0 0 hn0 k hk).inner
  have hrow : ∀ i < mA, h i = (C i 0).nRows := by
    intro i hi
    rw [← GA.rows i hi 0 GA.n0]
    exact (keyD i hi 0 hn0 0 GA.n0).rows
  have hcol : ∀ j < n, v j = (C 0 j).nCols := by
    intro j hj
    rw [← GB.cols 0 GB.m0 j hj]
    exact (keyD 0 GA.m0 j hj 0 GA.n0).cols
  have hrest : ∀ i < m, mA ≤ i → (C i 0).nRows = 0 := by
    intro i hi hmi
    have e := hd.rows
    rw [GA.opRows, nRows_hier, psum_congr hrow] at e
    have e1 := psum_le (fun a => (C a 0).nRows) hi
    have e2 := psum_mono (fun a => (C a 0).nRows) hmi
    omega
  have Bw := blocks_fl (g := C') hC
    (fun x y z => FlNear u (A.opCols ta * L) z
      (α * prodEntry ta tb A B x y + β * (Mat.hier m n C).entry x y)
      (|α| * prodEntry ta tb A.abs B.abs x y + |β| * |(Mat.hier m n C).entry x y|)) (by
    intro i hi j hj
    refine ⟨(key i hi j hj).1, (key i hi j hj).2, fun r hr s hs => ?_⟩
    by_cases hmi : i < mA
    · have e := keyE i hmi j hj r (by rw [(hCd i hi j hj).2.1]; exact hr) s
        (by rw [(hCd i hi j hj).2.2]; exact hs)
      rw [entry_block hi hj hr hs]
      rw [← psum_congr (fun c hc => hrow c (by omega)), ← psum_congr (fun c hc => hcol c (by omega))]
      rw [prodEntry_grid GA GB hK hw hmi hj (by rw [hrow i hmi]; exact hr)
        (by rw [hcol j hj]; exact hs), prodEntry_grid GA' GB' hK hw hmi hj (by rw [hrow i hmi]; exact hr)
        (by rw [hcol j hj]; exact hs)]
      exact e
    · rw [hrest i hi (by omega)] at hr
      omega)
  exact ⟨Bw.1, Bw.2.1, Bw.2.2⟩

theorem gemmHHH_fl (u0 : 0 ≤ u) {g : GemmT ℝ} (hg : GemmFl u g) {p q r s m n L : Nat}
    {A B C : Nat → Nat → Mat ℝ} {α β : ℝ} {ta tb : Bool} {C' : Mat ℝ}
    (hA : (Mat.hier p q A).WF) (hB : (Mat.hier r s B).WF) (hC : (Mat.hier m n C).WF)
    (hCs : (Mat.hier m n C).DenseLeaves) (ht : TransSafe ta tb (.hier p q A) (.hier r s B))
    (hi : Innr ta tb (.hier p q A) (.hier r s B))
    (hL : (Mat.hier p q A).lag + (Mat.hier r s B).lag + 3 ≤ L)
    (hd : GemmDims ta tb (.hier p q A) (.hier r s B) (.hier m n C))
    (h : gemmHHH g p q A r s B m n C α β ta tb = .ok C') :
    FlPost u L (.hier p q A) (.hier r s B) (.hier m n C) C' α β ta tb := by
  simp only [gemmHHH, except_bind_eq_ok, assertM_eq_ok, decide_eq_true_eq] at h
  obtain ⟨-, e1, -, e2, -, e3, D, hD, h⟩ := h
  cases h
  subst e1; subst e3
  have GA := grid_hier (t := ta) hA
  have GB := grid_hier (t := tb) hB
  have hC' := hC
  simp only [WF] at hC'
  have key := fun i hi' j hj => loop_fl u0 hg (hC'.2.2 i hi' j hj).1 (hCs i hi' j hj) (L := L) (K0 := 0)
    (a := fun k => opBlk ta A i k) (b := fun k => opBlk tb B k j)
    (β := fun k => if k = 0 then β else 1)
    (fun k hk => GA.wf i hi' k hk) (fun k hk => GB.wf k (by omega) j hj)
    (fun k hk => TransSafe_blocks ht hi' hk (by omega) hj)
    (fun k hk => Innr_blocks hi hi' hk (by omega) hj)
    (fun k hk => by
      have := lag_op (A := A) hi' hk
      have := lag_op (A := B) (t := tb) (i := k) (k := j) (p := r) (q := s) (by omega) hj
      omega)
    (fun k hk c c' hc => hc) (fun k hk => if_neg (by omega)) (fun _ _ _ _ => FlNear.const u _)
    (collect2_ok hD i hi' j hj)
  refine target_fl GA GB (grid_hier_abs hA) (grid_hier_abs hB) (by omega) (Nat.le_refl _) hC hd
    (fun i hi j hj => ⟨(key i hi j hj).2.1, (key i hi j hj).2.2.1⟩)
    (fun i hi j hj => (key i hi j hj).1) ?_
  intro i hi j hj r hr s hs
  have e := (key i hi j hj).2.2.2 r hr s hs
  have hn0 : ¬ opDim1 ta p q = 0 := by have := GA.n0; omega
  simp only [if_neg hn0, if_true] at e
  refine e.mono u0 (le_of_eq ?_)
  rw [Nat.zero_add, GA.opCols]
  congr 1
  exact Finset.sum_congr rfl (fun k hk => GA.cols i hi k (mem_range.1 hk))

theorem gemmRowLoop_fl {g : GemmT ℝ} (hg : GemmFl u g) {r s m n L : Nat}
    {A : Mat ℝ} {B C : Nat → Nat → Mat ℝ} {α β : ℝ} {ta tb : Bool} {C' : Mat ℝ}
    (hA : A.WF) (hB : (Mat.hier r s B).WF) (hC : (Mat.hier m n C).WF)
    (hCs : (Mat.hier m n C).DenseLeaves)
    (ht : ∀ j < opDim1 tb r s, TransSafe ta tb A (opBlk tb B 0 j))
    (hi : ∀ j < opDim1 tb r s, Innr ta tb A (opBlk tb B 0 j))
    (hL : A.lag + (Mat.hier r s B).lag + 3 ≤ L)
    (hd : GemmDims ta tb A (.hier r s B) (.hier m n C))
    (hn : opDim1 tb r s = n) (h1 : opDim0 tb r s = 1) (hm : m = 1)
    (h : gemmRowLoop g A r s B m n C α β ta tb = .ok C') :
    FlPost u L A (.hier r s B) (.hier m n C) C' α β ta tb := by
  simp only [gemmRowLoop, except_bind_eq_ok] at h
  obtain ⟨f, hf, h⟩ := h
  cases h
  subst hn; subst hm
  have GA := grid_one (t := ta) hA
  have GB := grid_hier (t := tb) hB
  have hC' := hC
  simp only [WF] at hC'
  have key : ∀ j < opDim1 tb r s, GemmDims ta tb A (opBlk tb B 0 j) (C 0 j) ∧
      FlPost u L A (opBlk tb B 0 j) (C 0 j) (f j) α β ta tb := by
    intro j hj
    have := collect_ok hf j hj
    simp only [except_bind_eq_ok] at this
    obtain ⟨b, hb, c, hc, hh⟩ := this
    obtain ⟨-, rfl⟩ := vecAt_row h1 hb
    obtain ⟨-, rfl⟩ := vecAt_row (t := false) rfl hc
    have := lag_op (A := B) (t := tb) (i := 0) (k := j) (p := r) (q := s) (by omega) hj
    exact hg _ _ _ _ _ _ _ _ _ hA (GB.wf 0 (by omega) j hj) (hC'.2.2 0 (by omega) j hj).1
      (hCs 0 (by omega) j hj) (ht j hj) (hi j hj) (by omega) hh
  have fj : ∀ i j, j < opDim1 tb r s → (if j < opDim1 tb r s then f j else C i j) = f j :=
    fun i j hj => if_pos hj
  refine target_fl GA GB (grid_one_abs hA) (grid_hier_abs hB) (by omega) (Nat.le_refl _) hC hd ?_ ?_ ?_
  · intro i hi j hj
    have : i = 0 := by omega
    subst this
    rw [fj _ j hj]
    exact ⟨(key j hj).2.wf, (key j hj).2.shape⟩
  · intro i hi j hj k hk
    have : i = 0 := by omega
    subst this
    have : k = 0 := by omega
    subst this
    exact (key j hj).1
  · intro i hi j hj x hx y hy
    have : i = 0 := by omega
    subst this
    rw [fj _ j hj]
    simpa [FlEnt] using (key j hj).2.ent x hx y hy

theorem gemmColLoop_fl {g : GemmT ℝ} (hg : GemmFl u g) {p q m n L : Nat}
    {B : Mat ℝ} {A C : Nat → Nat → Mat ℝ} {α β : ℝ} {ta tb : Bool} {C' : Mat ℝ}
    (hA : (Mat.hier p q A).WF) (hB : B.WF) (hC : (Mat.hier m n C).WF)
    (hCs : (Mat.hier m n C).DenseLeaves)
    (ht : ∀ i < opDim0 ta p q, TransSafe ta tb (opBlk ta A i 0) B)
    (hi : ∀ i < opDim0 ta p q, Innr ta tb (opBlk ta A i 0) B)
    (hL : (Mat.hier p q A).lag + B.lag + 3 ≤ L)
    (hd : GemmDims ta tb (.hier p q A) B (.hier m n C))
    (h1 : opDim1 ta p q = 1) (hn : n = 1)
    (h : gemmColLoop g p q A B m n C α β ta tb = .ok C') :
    FlPost u L (.hier p q A) B (.hier m n C) C' α β ta tb := by
  simp only [gemmColLoop, except_bind_eq_ok] at h
  obtain ⟨f, hf, h⟩ := h
  cases h
  subst hn
  have GA := grid_hier (t := ta) hA
  have GB := grid_one (t := tb) hB
  have hC' := hC
  simp only [WF] at hC'
  have key : ∀ i < opDim0 ta p q, i < m ∧ (i < m → GemmDims ta tb (opBlk ta A i 0) B (C i 0) ∧
      FlPost u L (opBlk ta A i 0) B (C i 0) (f i) α β ta tb) := by
    intro i hi'
    have := collect_ok hf i hi'
    simp only [except_bind_eq_ok] at this
    obtain ⟨b, hb, c, hc, hh⟩ := this
    obtain ⟨-, rfl⟩ := vecAt_col h1 hb
    obtain ⟨hm, rfl⟩ := vecAt_col (t := false) rfl hc
    have := lag_op (A := A) (t := ta) (i := i) (k := 0) (p := p) (q := q) hi' (by omega)
    exact ⟨hm, fun hm => hg _ _ _ _ _ _ _ _ _ (GA.wf i hi' 0 (by omega)) hB
      (hC'.2.2 i hm 0 (by omega)).1 (hCs i hm 0 (by omega)) (ht i hi') (hi i hi') (by omega) hh⟩
  have hmm : opDim0 ta p q ≤ m := by
    have h0 := GA.m0
    have := (key (opDim0 ta p q - 1) (by omega)).1
    omega
  have fj : ∀ i j, i < opDim0 ta p q → (if i < opDim0 ta p q then f i else C i j) = f i :=
    fun i j hj => if_pos hj
  have fj' : ∀ i j, ¬ i < opDim0 ta p q → (if i < opDim0 ta p q then f i else C i j) = C i j :=
    fun i j hj => if_neg hj
  have key2 : ∀ i < opDim0 ta p q, _ := fun i hi => (key i hi).2 (key i hi).1
  refine target_fl GA GB (grid_hier_abs hA) (grid_one_abs hB) (by omega) hmm hC hd ?_ ?_ ?_
  · intro i hi j hj
    have : j = 0 := by omega
    subst this
    by_cases hi' : i < opDim0 ta p q
    · rw [fj _ _ hi']
      exact ⟨(key2 i hi').2.wf, (key2 i hi').2.shape⟩
    · rw [fj' _ _ hi']
      exact ⟨(hC'.2.2 i hi 0 (by omega)).1, SameShape.refl _⟩
  · intro i hi j hj k hk
    have : j = 0 := by omega
    subst this
    have : k = 0 := by omega
    subst this
    exact (key2 i hi).1
  · intro i hi j hj x hx y hy
    have : j = 0 := by omega
    subst this
    have e := (key2 i hi).2.ent x hx y hy
    have ec : (Mat.hier p q A).opCols ta = (opBlk ta A i 0).opCols ta := by
      rw [GA.opCols, h1, GA.cols i hi 0 GA.n0]
      simp [psum]
    rw [fj _ _ hi, ec]
    simpa [h1, FlEnt] using e

/-! ### recursive calls on other representations -/

theorem GemmFl.congr {g : GemmT ℝ} (hg : GemmFl u g) {L : Nat} {A A' B B' C C' : Mat ℝ} {α β : ℝ}
    {ta tb : Bool} (hA : Same2 A' A) (hB : Same2 B' B) (hd : GemmDims ta tb A B C)
    (wA : A'.WF) (wB : B'.WF) (wC : C.WF) (sC : C.DenseLeaves) (ht : TransSafe ta tb A' B')
    (hi : Innr ta tb A' B') (hL : A.lag + B.lag + 3 ≤ L) (h : g A' B' C α β ta tb = .ok C') :
    FlPost u L A B C C' α β ta tb := by
  have := hA.lag
  have := hB.lag
  obtain ⟨-, E⟩ := hg L _ _ _ _ _ _ _ _ wA wB wC sC ht hi (by omega) h
  refine ⟨E.wf, E.shape, fun i hi' j hj' => ?_⟩
  have e := E.ent i hi' j hj'
  rw [opCols_same hA.ent] at e
  unfold FlEnt
  rw [prodEntry_same (SameEntries.symm' hA.ent) (SameEntries.symm' hB.ent) hd.inner
    (by rw [hd.rows]; exact hi') (by rw [hd.cols]; exact hj'),
    prodEntry_same (SameEntries.symm' hA.abs) (SameEntries.symm' hB.abs)
    (by rw [opCols_abs, opRows_abs]; exact hd.inner)
    (by rw [opRows_abs, hd.rows]; exact hi') (by rw [opCols_abs, hd.cols]; exact hj')]
  exact e

theorem joinDense_fl {g : GemmT ℝ} (hg : GemmFl u g) {L : Nat} {A B : Mat ℝ} {c : Dense ℝ}
    {nr nc : Nat} {CH CH' D : Mat ℝ} {α β : ℝ} {ta tb : Bool} (hr1 : 1 ≤ nr) (hc1 : 1 ≤ nc)
    (hA : A.WF) (hB : B.WF) (ht : TransSafe ta tb A B) (hi : Innr ta tb A B)
    (hL : A.lag + B.lag + 3 ≤ L)
    (hs : (Mat.dense c).split nr nc = .ok CH) (hgg : g A B CH α β ta tb = .ok CH')
    (hj : joinDense c CH' = .ok D) : FlPost u L A B (.dense c) D α β ta tb := by
  obtain ⟨b, rfl, w, same, hd⟩ := split_dense_leaves hr1 hc1 hs
  have dl := dense_leaves hd
  obtain ⟨-, P⟩ := hg _ _ _ _ _ _ _ _ _ hA hB w dl ht hi hL hgg
  have dl' := dl.shape P.shape
  have dims := P.shape.dims w
  cases CH' <;> try cases hj
  rename_i m n blk
  simp only [joinDense, except_bind_eq_ok] at hj
  obtain ⟨e, he, hj⟩ := hj
  cases hj
  refine ⟨trivial, ⟨rfl, rfl⟩, ?_⟩
  intro i hi j hj
  have hi2 : i < (Mat.hier nr nc b).nRows := by rw [same.1]; exact hi
  have hj2 : j < (Mat.hier nr nc b).nCols := by rw [same.2.1]; exact hj
  have e1 : (Mat.dense c).entry i j = (Mat.hier nr nc b).entry i j := (same.2.2 i hi2 j hj2).symm
  have E := P.ent i hi2 j hj2
  unfold FlEnt at E ⊢
  rw [e1]
  convert E using 1
  rw [← dims.1, nRows_hier] at hi2
  rw [← dims.2, nCols_hier] at hj2
  obtain ⟨p, hp, r, hr, rfl⟩ := exists_block _ _ _ hi2
  obtain ⟨q, hq, s, hs, rfl⟩ := exists_block _ _ _ hj2
  rw [entry_block hp hq hr hs, asDense_ok (collect2_ok he p hp q hq)]
  simp only [entry, joinVal, locate_at (fun a => (blk a 0).nRows) m p r hp hr,
    locate_at (fun a => (blk 0 a).nCols) n q s hq hs]

theorem gemmHHD_fl (u0 : 0 ≤ u) {g : GemmT ℝ} (hg : GemmFl u g) {p q r s L : Nat}
    {A B : Nat → Nat → Mat ℝ} {c : Dense ℝ} {α β : ℝ} {ta tb : Bool} {C' : Mat ℝ}
    (hA : (Mat.hier p q A).WF) (hB : (Mat.hier r s B).WF)
    (ht : TransSafe ta tb (.hier p q A) (.hier r s B))
    (hi : Innr ta tb (.hier p q A) (.hier r s B))
    (hL : (Mat.hier p q A).lag + (Mat.hier r s B).lag + 3 ≤ L)
    (hd : GemmDims ta tb (.hier p q A) (.hier r s B) (.dense c))
    (h : gemmHHD g p q A r s B c α β ta tb = .ok C') :
    FlPost u L (.hier p q A) (.hier r s B) (.dense c) C' α β ta tb := by
  simp only [gemmHHD, except_bind_eq_ok, assertM_eq_ok, decide_eq_true_eq] at h
  obtain ⟨-, e, h⟩ := h
  have GA := grid_hier (t := ta) hA
  have GB := grid_hier (t := tb) hB
  split at h
  · rename_i hone
    have key := loop_fl u0 hg (C := .dense c) trivial trivial (L := L) (K0 := 0)
      (a := fun k => opBlk ta A 0 k) (b := fun k => opBlk tb B k 0)
      (α := α) (β := fun k => if k = 0 then β else 1) (ta := ta) (tb := tb)
      (fun k hk => GA.wf 0 (by omega) k hk) (fun k hk => GB.wf k (by omega) 0 (by omega))
      (fun k hk => TransSafe_blocks ht (by omega) hk (by omega) (by omega))
      (fun k hk => Innr_blocks hi (by omega) hk (by omega) (by omega))
      (fun k hk => by
        have := lag_op (A := A) (t := ta) (i := 0) (k := k) (p := p) (q := q) (by omega) hk
        have := lag_op (A := B) (t := tb) (i := k) (k := 0) (p := r) (q := s) (by omega) (by omega)
        omega)
      (fun k hk c c' hc => by
        simp only [except_bind_eq_ok] at hc
        obtain ⟨x, hx, y, hy, hc⟩ := hc
        obtain ⟨-, rfl⟩ := vecAt_row hone.1 hx
        obtain ⟨-, rfl⟩ := vecAt_col hone.2 hy
        exact hc) (fun k hk => if_neg (by omega)) (fun _ _ _ _ => FlNear.const u _) h
    obtain ⟨k1, k2, k4, k5⟩ := key
    refine ⟨k2, k4, fun i hi j hj => ?_⟩
    have e5 := k5 i hi j hj
    have hn0 : ¬ opDim1 ta p q = 0 := by have := GA.n0; omega
    simp only [if_neg hn0, if_true] at e5
    have hw : ∀ k < opDim1 ta p q, (opBlk ta A 0 k).opCols ta = (opBlk tb B k 0).opRows tb :=
      fun k hk => (k1 k hk).inner
    have hi0 : i < (opBlk ta A 0 0).opRows ta := by rw [(k1 0 GA.n0).rows]; exact hi
    have hj0 : j < (opBlk tb B 0 0).opCols tb := by rw [(k1 0 GA.n0).cols]; exact hj
    have t1 := prodEntry_grid GA GB (by omega) hw (i := 0) (j := 0) (r := i) (s := j) GA.m0 GB.n0 hi0 hj0
    have t2 := prodEntry_grid (grid_hier_abs hA) (grid_hier_abs hB) (by omega) hw (i := 0) (j := 0)
      (r := i) (s := j) GA.m0 GB.n0 hi0 hj0
    simp only [psum, Finset.range_zero, Finset.sum_empty, Nat.zero_add] at t1 t2
    unfold FlEnt
    rw [t1, t2]
    refine e5.mono u0 (le_of_eq ?_)
    rw [Nat.zero_add, GA.opCols]
    congr 1
  · simp only [except_bind_eq_ok] at h
    obtain ⟨CH, hs, CH', hgg, hj⟩ := h
    exact joinDense_fl hg GA.m0 GB.n0 hA hB ht hi hL hs hgg hj

/-! ### dense targets -/

theorem expo {k e L : Nat} (hk : 1 ≤ k) (h : e + 1 ≤ L) : k + e ≤ k * L := by
  have h1 := Nat.mul_le_mul_left k h
  have h2 := Nat.mul_le_mul_right e hk
  have : k * (e + 1) = k * e + k := by ring
  omega

theorem lop_lag (t : Bool) (a : LowRank ℝ) :
    (lop t a).S.rows + (lop t a).S.cols + 4 = (Mat.lowRank a).lag := by
  cases t
  · rfl
  · show a.S.cols + a.S.rows + 4 = a.S.rows + a.S.cols + 4
    omega

theorem inner_pos {ta tb : Bool} {A B C : Mat ℝ} (hA : A.WF) (hB : B.WF) (hi : Innr ta tb A B)
    (hd : GemmDims ta tb A B C) : 1 ≤ A.opCols ta := by
  rcases hi.pos hA hB with e | e
  · exact e
  · rw [hd.inner]; exact e

section
variable {F : FlBlas} (hF : F.Sound u)
include hF

theorem gemmToDense_fl {g : GemmT ℝ} (hg : GemmFl u g) {L : Nat} {A B : Mat ℝ} {c : Dense ℝ}
    {α β : ℝ} {ta tb : Bool} {C' : Mat ℝ} (hA : A.WF) (hB : B.WF) (ht : TransSafe ta tb A B)
    (hi : Innr ta tb A B) (hL : A.lag + B.lag + 3 ≤ L) (hd : GemmDims ta tb A B (.dense c))
    (h : F.gemmToDense g A B c α β ta tb = .ok C') : FlPost u L A B (.dense c) C' α β ta tb := by
  have hp := inner_pos hA hB hi hd
  have left : ∀ (r s : Nat) (BB : Nat → Nat → Mat ℝ), A.NotHier → B = .hier r s BB →
      (if r = 1 ∧ s = 1 then g A (BB 0 0) (.dense c) α β ta tb
        else do
          let CH ← (Mat.dense c).split 1 (opDim1 tb r s)
          let CH' ← g A (.hier r s BB) CH α β ta tb
          joinDense c CH') = .ok C' → FlPost u L A B (.dense c) C' α β ta tb := by
    intro r s BB hl e h'
    clear h
    have h := h'
    subst e
    have hw : (Mat.hier r s BB).Wide (!tb) := by
      cases A <;> first | exact hl.elim | exact hi
    split at h
    · rename_i hone
      exact hg.congr (Same2.refl A) (one_block2 hB hone).2 hd hA (one_block2 hB hone).1 trivial
        trivial (TransSafe_leaf_hier hl ht _) (Innr_one_right hl hone hw) hL h
    · simp only [except_bind_eq_ok] at h
      obtain ⟨CH, hs, CH', hgg, hj⟩ := h
      exact joinDense_fl hg (by omega) (opDim1_pos hB) hA hB ht hi hL hs hgg hj
  have right : ∀ (r s : Nat) (AA : Nat → Nat → Mat ℝ), B.NotHier → A = .hier r s AA →
      (if r = 1 ∧ s = 1 then g (AA 0 0) B (.dense c) α β ta tb
        else do
          let CH ← (Mat.dense c).split (opDim0 ta r s) 1
          let CH' ← g (.hier r s AA) B CH α β ta tb
          joinDense c CH') = .ok C' → FlPost u L A B (.dense c) C' α β ta tb := by
    intro r s AA hl e h'
    clear h left
    have h := h'
    subst e
    have hw : (Mat.hier r s AA).Wide ta := by
      cases B <;> first | exact hl.elim | exact hi
    split at h
    · rename_i hone
      exact hg.congr (one_block2 hA hone).2 (Same2.refl B) hd (one_block2 hA hone).1 hB trivial
        trivial (TransSafe_hier_leaf hl ht _) (Innr_one_left hl hone hw) hL h
    · simp only [except_bind_eq_ok] at h
      obtain ⟨CH, hs, CH', hgg, hj⟩ := h
      exact joinDense_fl hg (opDim0_pos hA) (by omega) hA hB ht hi hL hs hgg hj
  cases A with
  | dense a =>
    cases B with
    | dense b =>
      simp only [FlBlas.gemmToDense, except_bind_eq_ok] at h
      obtain ⟨d, hdd, h⟩ := h
      cases h
      obtain ⟨e1, e2, e3, e4, e5, e6⟩ := flDense_spec hF hdd
      refine ⟨trivial, ⟨e4.symm, e5.symm⟩, fun i _ j _ => (flDD hF hdd i j).mono hF.u0 ?_⟩
      rw [dop_cols]
      exact expo hp (by omega)
    | lowRank b =>
      simp only [FlBlas.gemmToDense, except_bind_eq_ok] at h
      obtain ⟨d, hdd, h⟩ := h
      cases h
      obtain ⟨e4, e5, e6⟩ := flDL hF hB hdd
      refine ⟨trivial, ⟨e4.symm, e5.symm⟩, fun i _ j _ => (e6 i j).mono hF.u0 ?_⟩
      rw [dop_cols, Nat.add_assoc, Nat.add_assoc]
      have := lop_lag tb b
      exact expo hp (by omega)
    | hier r s BB => exact left r s BB trivial rfl h
    | empty => cases h
  | lowRank a =>
    cases B with
    | dense b =>
      simp only [FlBlas.gemmToDense, except_bind_eq_ok] at h
      obtain ⟨d, hdd, h⟩ := h
      cases h
      obtain ⟨e4, e5, e6⟩ := flLD hF hA hdd
      refine ⟨trivial, ⟨e4.symm, e5.symm⟩, fun i _ j _ => (e6 i j).mono hF.u0 ?_⟩
      rw [lop_dim1 hA, Nat.add_assoc, Nat.add_assoc]
      have := lop_lag ta a
      exact expo hp (by omega)
    | lowRank b =>
      simp only [FlBlas.gemmToDense, except_bind_eq_ok] at h
      obtain ⟨d, hdd, h⟩ := h
      cases h
      obtain ⟨e4, e5, e6⟩ := flLL hF hA hB hdd
      refine ⟨trivial, ⟨e4.symm, e5.symm⟩, fun i _ j _ => (e6 i j).mono hF.u0 ?_⟩
      rw [lop_dim1 hA, Nat.add_assoc, Nat.add_assoc, Nat.add_assoc, Nat.add_assoc]
      have := lop_lag ta a
      have := lop_lag tb b
      exact expo hp (by omega)
    | hier r s BB => exact left r s BB trivial rfl h
    | empty => cases h
  | empty =>
    cases B with
    | hier r s BB => exact left r s BB trivial rfl h
    | _ => cases h
  | hier p q AA =>
    cases B with
    | dense b => exact right p q AA trivial rfl h
    | lowRank b => exact right p q AA trivial rfl h
    | empty => exact right p q AA trivial rfl h
    | hier r s BB => exact gemmHHD_fl hF.u0 hg hA hB ht hi hL hd h

/-! ### hierarchical targets -/

theorem newV_fl {gn : GemmNewT ℝ} (hgn : GemmNewFl u gn) {a : LowRank ℝ} (ha : a.WF)
    {r s : Nat} {B : Nat → Nat → Mat ℝ} (hB : (Mat.hier r s B).WF) {α : ℝ} {tb : Bool}
    (hi : (Mat.hier r s B).Wide (!tb)) {M : Mat ℝ}
    (hM : gn (.dense a.V) (.hier r s B) α false tb = .ok M) {V : Dense ℝ}
    (hV : M.asDense = .ok V) : V.rows = a.S.cols ∧
    ∀ i < a.S.cols, ∀ j < V.cols, FlNear u (a.dim1 * ((Mat.hier r s B).lag + 3)) (V.val i j)
      (smul α (mm a.dim1 a.V.val ((Mat.hier r s B).opEntry tb)) i j)
      (smul |α| (mm a.dim1 a.abs.V.val ((Mat.hier r s B).abs.opEntry tb)) i j) := by
  have N := hgn ((Mat.hier r s B).lag + 3) (.dense a.V) _ _ _ _ _ trivial hB (TransSafe_dense_left _ _)
    hi (by rw [show (Mat.dense a.V).lag = 0 from rfl]; omega) hM
  rw [asDense_ok hV] at N
  have h0 : V.rows = a.S.cols := N.rows.trans ha.vrows
  refine ⟨h0, fun i hi j hj => ?_⟩
  have := N.ent i (by rw [← h0] at hi; exact hi) j hj
  rw [show (Mat.dense a.V).opCols false = a.dim1 from ha.vcols] at this
  have e1 : prodEntry false tb (.dense a.V) (.hier r s B) i j =
    mm a.V.cols a.V.val ((Mat.hier r s B).opEntry tb) i j := rfl
  have e2 : prodEntry false tb (Mat.dense a.V).abs (Mat.hier r s B).abs i j =
    mm a.V.cols a.abs.V.val ((Mat.hier r s B).abs.opEntry tb) i j := rfl
  rw [e1, e2, ha.vcols] at this
  exact this

theorem newU_fl {gn : GemmNewT ℝ} (hgn : GemmNewFl u gn) {b : LowRank ℝ} (hb : b.WF)
    {p q : Nat} {A : Nat → Nat → Mat ℝ} (hA : (Mat.hier p q A).WF) {α : ℝ}
    (hi : (Mat.hier p q A).Wide false) {M : Mat ℝ}
    (hM : gn (.hier p q A) (.dense b.U) α false false = .ok M) {U : Dense ℝ}
    (hU : M.asDense = .ok U) : U.cols = b.S.rows ∧
    ∀ i < U.rows, ∀ j < b.S.rows, FlNear u ((Mat.hier p q A).nCols * ((Mat.hier p q A).lag + 3)) (U.val i j)
      (smul α (mm (Mat.hier p q A).nCols (Mat.hier p q A).entry b.U.val) i j)
      (smul |α| (mm (Mat.hier p q A).nCols (Mat.hier p q A).abs.entry b.abs.U.val) i j) := by
  have N := hgn ((Mat.hier p q A).lag + 3) _ (.dense b.U) _ _ _ _ hA trivial (TransSafe_dense_right _ _)
    hi (by rw [show (Mat.dense b.U).lag = 0 from rfl]) hM
  rw [asDense_ok hU] at N
  have h0 : U.cols = b.S.rows := N.cols.trans (hb.ucols.trans hb.srows.symm)
  refine ⟨h0, fun i hi j hj => ?_⟩
  have := N.ent i hi j (by rw [← h0] at hj; exact hj)
  have e1 : prodEntry false false (Mat.hier p q A).abs (Mat.dense b.U).abs i j =
    mm (Mat.hier p q A).abs.nCols (Mat.hier p q A).abs.entry b.abs.U.val i j := rfl
  rw [e1, nCols_abs] at this
  exact this

theorem gemmToHier_fl {g : GemmT ℝ} (hg : GemmFl u g) {gn : GemmNewT ℝ} (hgn : GemmNewFl u gn)
    {L : Nat} {A B : Mat ℝ} {m n : Nat} {C : Nat → Nat → Mat ℝ} {C' : Mat ℝ} {α β : ℝ} {ta tb : Bool}
    (hA : A.WF) (hB : B.WF)
    (hc : (Mat.hier m n C).WF) (hcs : (Mat.hier m n C).DenseLeaves) (ht : TransSafe ta tb A B)
    (hi : Innr ta tb A B) (hL : A.lag + B.lag + 3 ≤ L) (hd : GemmDims ta tb A B (.hier m n C))
    (h : F.gemmToHier g gn A B m n C α β ta tb = .ok C') :
    FlPost u L A B (.hier m n C) C' α β ta tb := by
  have hmn := hc
  simp only [WF] at hmn
  have hp := inner_pos hA hB hi hd
  have hp' : 0 < B.opCols (!tb) := by rw [opCols_not, ← hd.inner]; exact hp
  cases A with
  | dense a =>
    cases B with
    | dense b =>
      simp only [FlBlas.gemmToHier, gemmDDH] at h
      split at h
      · cases h
      split at h
      · simp only [except_bind_eq_ok] at h
        obtain ⟨AH, hs, h⟩ := h
        obtain ⟨b', rfl, w, same, hb⟩ := split_dense_leaves (by split <;> omega) (by split <;> omega) hs
        exact hg.congr (same2_split w same hb) (Same2.refl _) hd w hB hc hcs (TransSafe_dense_right _ _)
          (Innr_leaf_right trivial (wide_one w (by cases ta <;> rfl) hb
            (by rw [opCols_same same]; exact hp))) hL h
      split at h
      · simp only [except_bind_eq_ok] at h
        obtain ⟨AH, hs, h⟩ := h
        obtain ⟨b', rfl, w, same, hb⟩ := split_dense_leaves (by split <;> omega) (by split <;> omega) hs
        exact hg.congr (Same2.refl _) (same2_split w same hb) hd hA w hc hcs (TransSafe_dense_left _ _)
          (Innr_leaf_left trivial (wide_one w (by cases tb <;> rfl) hb
            (by rw [opCols_same same]; exact hp'))) hL h
      · simp only [except_bind_eq_ok] at h
        obtain ⟨AH, hs, BH, hs', h⟩ := h
        obtain ⟨b1, rfl, w1, same1, hb1⟩ := split_dense_leaves (by split <;> omega) (by split <;> omega) hs
        obtain ⟨b2, rfl, w2, same2, hb2⟩ := split_dense_leaves (by split <;> omega) (by split <;> omega) hs'
        exact hg.congr (same2_split w1 same1 hb1) (same2_split w2 same2 hb2) hd w1 w2 hc hcs
          (TransSafe_split_left hb1) (Innr_split_left hb1 (wide_one w2 (by cases tb <;> rfl) hb2
            (by rw [opCols_same same2]; exact hp'))) hL h
    | lowRank b =>
      obtain ⟨e1, e2, e3⟩ := flDLr hF hB hc h
      refine ⟨e1, e2, fun i hi j hj => (e3 i hi j hj).mono hF.u0 ?_⟩
      rw [dop_cols, Nat.add_assoc, Nat.add_assoc]
      have := lop_lag tb b
      exact expo hp (by omega)
    | hier r s BB =>
      simp only [FlBlas.gemmToHier, gemmDHH, except_bind_eq_ok, assertM_eq_ok, decide_eq_true_eq] at h
      obtain ⟨-, hn, h⟩ := h
      have := opDim0_pos (t := tb) hB
      split at h
      · rename_i hone
        exact hg.congr (Same2.refl _) (one_block2 hB hone).2 hd hA (one_block2 hB hone).1 hc
          hcs (TransSafe_dense_left _ _) (Innr_one_right trivial hone hi) hL h
      split at h
      · rename_i h1
        exact gemmRowLoop_fl hg hA hB hc hcs (fun j _ => TransSafe_dense_left _ _)
          (fun j hj => Innr_leaf_left trivial (Wide_blk (t := tb) hi (by omega) hj)) hL hd hn h1.1 h1.2 h
      · simp only [except_bind_eq_ok] at h
        obtain ⟨AH, hs, h⟩ := h
        obtain ⟨b, rfl, w, same, hb⟩ := split_dense_leaves (by split <;> omega) (by split <;> omega) hs
        exact hg.congr (same2_split w same hb) (Same2.refl _) hd w hB hc hcs (TransSafe_split_left hb)
          (Innr_split_left hb hi) hL h
    | empty => cases h
  | lowRank a =>
    cases B with
    | dense b =>
      obtain ⟨e1, e2, e3⟩ := flLrD hF hA hc h
      refine ⟨e1, e2, fun i hi j hj => (e3 i hi j hj).mono hF.u0 ?_⟩
      rw [lop_dim1 hA, Nat.add_assoc, Nat.add_assoc]
      have := lop_lag ta a
      exact expo hp (by omega)
    | lowRank b =>
      obtain ⟨e1, e2, e3⟩ := flLrLr hF hA hB hc h
      refine ⟨e1, e2, fun i hi j hj => (e3 i hi j hj).mono hF.u0 ?_⟩
      rw [lop_dim1 hA, Nat.add_assoc, Nat.add_assoc, Nat.add_assoc, Nat.add_assoc]
      have := lop_lag ta a
      have := lop_lag tb b
      exact expo hp (by omega)
    | hier r s BB =>
      simp only [FlBlas.gemmToHier, FlBlas.gemmLrHH, except_bind_eq_ok, assertM_eq_ok,
        decide_eq_true_eq] at h
      obtain ⟨-, hn, h⟩ := h
      have hta : ta = false := ht
      split at h
      · rename_i hone
        exact hg.congr (Same2.refl _) (one_block2 hB hone).2 hd hA (one_block2 hB hone).1 hc
          hcs (TransSafe_leaf_hier (A := .lowRank a) trivial ht _)
          (Innr_one_right trivial hone hi) hL h
      split at h
      · rename_i h1
        exact gemmRowLoop_fl hg hA hB hc hcs
          (fun j _ => TransSafe_leaf_hier (A := .lowRank a) trivial ht _)
          (fun j hj => Innr_leaf_left trivial (Wide_blk (t := tb) hi (by omega) hj)) hL hd hn h1.1 h1.2 h
      · subst hta
        simp only [except_bind_eq_ok] at h
        obtain ⟨M, hM, V, hV, h⟩ := h
        obtain ⟨v0, v1⟩ := newV_fl hF hgn hA hB hi hM hV
        have hp2 : 1 ≤ a.dim1 := hp
        have hA2 : a.WF := hA
        have key := scaleAdd_fl hF (A := .lowRank a) (B := .hier r s BB) (α := α) (ta := false) (tb := tb)
          (K := 0 + 0 + a.dim1 * ((Mat.hier r s BB).lag + 3)) hc
          (ofFactors_wf (by rw [hA2.ucols, hA2.srows]) v0) (by
            have := Nat.mul_le_mul_right ((Mat.hier r s BB).lag + 3) hp2
            omega) (by
            intro i _ j hj
            have := lr_near hF (X := LowRank.ofFactors a.U a.S V) (i := i) (j := j)
              (fun l _ => nearU hF a i l) (fun l _ m _ => nearS hF a l m)
              (fun l hl => v1 l hl j hj)
            simp only [LowRank.ofFactors, mm_smul_right] at this
            rw [← mm_assoc, ← mm_assoc] at this
            exact this) h
        refine ⟨key.1, key.2.1, fun i hi j hj => (key.2.2 i hi j hj).mono hF.u0 ?_⟩
        show 0 + 0 + a.dim1 * ((Mat.hier r s BB).lag + 3) + (a.S.rows + a.S.cols + 4) ≤ a.dim1 * L
        have hl : (Mat.lowRank a).lag = a.S.rows + a.S.cols + 4 := rfl
        have t1 := Nat.mul_le_mul_left a.dim1 hL
        have t2 := Nat.mul_le_mul_right (a.S.rows + a.S.cols + 4) hp2
        rw [hl] at t1
        have t3 : a.dim1 * (a.S.rows + a.S.cols + 4 + (Mat.hier r s BB).lag + 3) =
          a.dim1 * ((Mat.hier r s BB).lag + 3) + a.dim1 * (a.S.rows + a.S.cols + 4) := by ring
        omega
    | empty => cases h
  | empty => cases B <;> cases h
  | hier p q AA =>
    cases B with
    | dense b =>
      simp only [FlBlas.gemmToHier, gemmHDH] at h
      have := opDim1_pos (t := ta) hA
      split at h
      · rename_i hone
        exact hg.congr (one_block2 hA hone).2 (Same2.refl _) hd (one_block2 hA hone).1 hB hc
          hcs (TransSafe_dense_right _ _) (Innr_one_left trivial hone hi) hL h
      split at h
      · rename_i h1
        exact gemmColLoop_fl hg hA hB hc hcs (fun j _ => TransSafe_dense_right _ _)
          (fun j hj => Innr_leaf_right trivial (Wide_blk (t := ta) hi hj (by omega))) hL hd h1.1 h1.2 h
      · simp only [except_bind_eq_ok] at h
        obtain ⟨BH, hs, h⟩ := h
        obtain ⟨b', rfl, w, same, hb⟩ := split_dense_leaves (by split <;> omega) (by split <;> omega) hs
        exact hg.congr (Same2.refl _) (same2_split w same hb) hd hA w hc hcs (TransSafe_split_right hb)
          (Innr_split_right hb hi) hL h
    | lowRank b =>
      simp only [FlBlas.gemmToHier, FlBlas.gemmHLrH] at h
      have htt : ta = false ∧ tb = false := ht
      split at h
      · rename_i hone
        exact hg.congr (one_block2 hA hone).2 (Same2.refl _) hd (one_block2 hA hone).1 hB hc
          hcs (TransSafe_hier_leaf (B := .lowRank b) trivial ht _)
          (Innr_one_left trivial hone hi) hL h
      split at h
      · rename_i h1
        exact gemmColLoop_fl hg hA hB hc hcs
          (fun j _ => TransSafe_hier_leaf (B := .lowRank b) trivial ht _)
          (fun j hj => Innr_leaf_right trivial (Wide_blk (t := ta) hi hj (by omega))) hL hd h1.1 h1.2 h
      · obtain ⟨rfl, rfl⟩ := htt
        simp only [except_bind_eq_ok] at h
        obtain ⟨M, hM, U, hU, h⟩ := h
        obtain ⟨v0, v1⟩ := newU_fl hF hgn hB hA hi hM hU
        have hp2 : 1 ≤ (Mat.hier p q AA).nCols := hp
        have hB2 : b.WF := hB
        have key := scaleAdd_fl hF (A := .hier p q AA) (B := .lowRank b) (α := α) (ta := false)
          (tb := false) (K := (Mat.hier p q AA).nCols * ((Mat.hier p q AA).lag + 3) + 0 + 0) hc
          (ofFactors_wf v0 hB2.vrows) (by
            have := Nat.mul_le_mul_right ((Mat.hier p q AA).lag + 3) hp2
            omega) (by
            intro i hi' j _
            have := lr_near hF (X := LowRank.ofFactors U b.S b.V) (i := i) (j := j)
              (fun l hl => v1 i hi' l hl) (fun l _ m _ => nearS hF b l m)
              (fun l _ => nearV hF b l j)
            have e1 : prodEntry false false (.hier p q AA) (.lowRank b) i j =
              mm (Mat.hier p q AA).nCols (Mat.hier p q AA).entry b.entry i j := rfl
            have e2 : prodEntry false false (Mat.hier p q AA).abs (Mat.lowRank b).abs i j =
              mm (Mat.hier p q AA).abs.nCols (Mat.hier p q AA).abs.entry b.abs.entry i j := rfl
            rw [e1, e2, nCols_abs]
            simp only [absSr, absSc, LowRank.ofFactors, mm_smul_left, mm_smul_right, LowRank_entry_mm,
              mm_assoc] at this ⊢
            exact this) h
        refine ⟨key.1, key.2.1, fun i hi j hj => (key.2.2 i hi j hj).mono hF.u0 ?_⟩
        show (Mat.hier p q AA).nCols * ((Mat.hier p q AA).lag + 3) + 0 + 0 + (b.S.rows + b.S.cols + 4) ≤
          (Mat.hier p q AA).nCols * L
        have hl : (Mat.lowRank b).lag = b.S.rows + b.S.cols + 4 := rfl
        have t1 := Nat.mul_le_mul_left (Mat.hier p q AA).nCols hL
        have t2 := Nat.mul_le_mul_right (b.S.rows + b.S.cols + 4) hp2
        rw [hl] at t1
        have t3 : (Mat.hier p q AA).nCols * ((Mat.hier p q AA).lag + (b.S.rows + b.S.cols + 4) + 3) =
          (Mat.hier p q AA).nCols * ((Mat.hier p q AA).lag + 3) +
          (Mat.hier p q AA).nCols * (b.S.rows + b.S.cols + 4) := by ring
        omega
    | hier r s BB => exact gemmHHH_fl hF.u0 hg hA hB hc hcs ht hi hL hd h
    | empty => cases h

/-! ### new matrices -/

omit hF in
theorem gemmNew_fl {g : GemmT ℝ} (hg : GemmFl u g) {L : Nat} {A B D : Mat ℝ} {α : ℝ}
    {ta tb : Bool} (hA : A.WF) (hB : B.WF) (ht : TransSafe ta tb A B) (hi : Innr ta tb A B)
    (hL : A.lag + B.lag + 3 ≤ L)
    (h : g A B (.dense (Dense.zero (A.opRows ta) (B.opCols tb))) α 0 ta tb = .ok D) :
    FlNewPost u L A B D α ta tb := by
  obtain ⟨d, P⟩ := hg _ _ _ (.dense (Dense.zero (A.opRows ta) (B.opCols tb))) _ _ _ _ _ hA hB trivial
    trivial ht hi hL h
  have dl : (Mat.dense (Dense.zero (A.opRows ta) (B.opCols tb)) : Mat ℝ).DenseLeaves := trivial
  have dd := P.shape.dims trivial
  refine ⟨d.inner, P.wf, dl.shape P.shape, dd.1, dd.2, fun i hi j hj => ?_⟩
  have := P.ent i (by rw [← dd.1]; exact hi) j (by rw [← dd.2]; exact hj)
  simpa [FlEnt] using this

omit hF in
theorem gemmNewHH_fl (u0 : 0 ≤ u) {g : GemmT ℝ} (hg : GemmFl u g) {gn : GemmNewT ℝ}
    (hgn : GemmNewFl u gn) {L p q r s : Nat} {A B : Nat → Nat → Mat ℝ} {D : Mat ℝ} {α : ℝ}
    {ta tb : Bool} (hA : (Mat.hier p q A).WF) (hB : (Mat.hier r s B).WF)
    (ht : TransSafe ta tb (.hier p q A) (.hier r s B))
    (hi : Innr ta tb (.hier p q A) (.hier r s B))
    (hL : (Mat.hier p q A).lag + (Mat.hier r s B).lag + 3 ≤ L)
    (hin : (Mat.hier p q A).opCols ta = (Mat.hier r s B).opRows tb)
    (h : gemmNewHH g gn p q A r s B α ta tb = .ok D) :
    FlNewPost u L (.hier p q A) (.hier r s B) D α ta tb := by
  simp only [gemmNewHH] at h
  split at h
  · exact gemmNew_fl hg hA hB ht hi hL h
  simp only [except_bind_eq_ok] at h
  obtain ⟨out, hout, h⟩ := h
  cases h
  have GA := grid_hier (t := ta) hA
  have GB := grid_hier (t := tb) hB
  have K0 := GA.n0
  have key : ∀ i < opDim0 ta p q, ∀ j < opDim1 tb r s, opDim1 ta p q ≤ opDim0 tb r s ∧
      (out i j).WF ∧ (out i j).DenseLeaves ∧ (out i j).nRows = (opBlk ta A i 0).opRows ta ∧
      (out i j).nCols = (opBlk tb B 0 j).opCols tb ∧
      (∀ k < opDim1 ta p q, (opBlk ta A i k).opCols ta = (opBlk tb B k j).opRows tb) ∧
      ∀ x < (out i j).nRows, ∀ y < (out i j).nCols,
        FlNear u ((Mat.hier p q A).opCols ta * L) ((out i j).entry x y)
        (α * ∑ k ∈ range (opDim1 ta p q), prodEntry ta tb (opBlk ta A i k) (opBlk tb B k j) x y)
        (|α| * ∑ k ∈ range (opDim1 ta p q),
          prodEntry ta tb (opBlk ta A i k).abs (opBlk tb B k j).abs x y) := by
    intro i hi' j hj
    have := collect2_ok hout i hi' j hj
    simp only [except_bind_eq_ok] at this
    obtain ⟨a, ha, b, hb, c, hc, hl⟩ := this
    obtain ⟨-, -, rfl⟩ := opAt_ok ha
    obtain ⟨k0, -, rfl⟩ := opAt_ok hb
    have hKK : opDim1 ta p q ≤ opDim0 tb r s := by
      have := loop_inv (fun k _ => k + 1 ≤ opDim0 tb r s) (by omega) (by
        intro k hk x y _ hxy
        simp only [except_bind_eq_ok] at hxy
        obtain ⟨a', _, b', hb', _⟩ := hxy
        have := (opAt_ok hb').1
        omega) hl
      omega
    have lg : ∀ k < opDim1 ta p q, (opBlk ta A i k).lag + (opBlk tb B k j).lag + 3 ≤ L := by
      intro k hk
      have := lag_op (A := A) (t := ta) (i := i) (k := k) (p := p) (q := q) hi' hk
      have := lag_op (A := B) (t := tb) (i := k) (k := j) (p := r) (q := s) (by omega) hj
      omega
    have N := hgn L _ _ _ _ _ _ (GA.wf i hi' 0 GA.n0) (GB.wf 0 k0 j hj)
      (TransSafe_blocks ht hi' GA.n0 k0 hj) (Innr_blocks hi hi' GA.n0 k0 hj) (lg 0 GA.n0) hc
    obtain ⟨l1, l2, l4, l5⟩ := loop_fl u0 hg N.wf N.leaves (L := L)
      (a := fun k => opBlk ta A i (k + 1)) (b := fun k => opBlk tb B (k + 1) j)
      (β := fun k => 1) (α := α) (ta := ta) (tb := tb)
      (fun k hk => GA.wf i hi' (k+1) (by omega)) (fun k hk => GB.wf (k+1) (by omega) j hj)
      (fun k hk => TransSafe_blocks ht hi' (by omega) (by omega) hj)
      (fun k hk => Innr_blocks hi hi' (by omega) (by omega) hj)
      (fun k hk => lg (k + 1) (by omega))
      (fun k hk c c' hc => by
        simp only [except_bind_eq_ok] at hc
        obtain ⟨x, hx, y, hy, hc⟩ := hc
        obtain ⟨-, -, rfl⟩ := opAt_ok hx
        obtain ⟨-, -, rfl⟩ := opAt_ok hy
        exact hc) (fun k hk => rfl) N.ent hl
    have dd := l4.dims N.wf
    refine ⟨hKK, l2, N.leaves.shape l4, by rw [dd.1, N.rows], by rw [dd.2, N.cols], ?_, ?_⟩
    · intro k hk
      cases k with
      | zero => exact N.inner
      | succ k => exact (l1 k (by omega)).inner
    · intro x hx y hy
      rw [dd.1] at hx
      rw [dd.2] at hy
      have e := l5 x hx y hy
      obtain ⟨K, hK⟩ : ∃ K, opDim1 ta p q = K + 1 := ⟨opDim1 ta p q - 1, by omega⟩
      have ek : (opBlk ta A i 0).opCols ta * L +
          (∑ k ∈ range (opDim1 ta p q - 1), (opBlk ta A i (k + 1)).opCols ta) * L =
          (Mat.hier p q A).opCols ta * L := by
        rw [← add_mul, GA.opCols, psum, hK, Finset.sum_range_succ', Nat.add_sub_cancel, Nat.add_comm]
        congr 2
        · refine Finset.sum_congr rfl fun k hk => GA.cols i hi' (k + 1) ?_
          rw [mem_range] at hk
          omega
        · exact GA.cols i hi' 0 GA.n0
      rw [ek] at e
      rw [hK, Finset.sum_range_succ', Finset.sum_range_succ']
      rw [hK, Nat.add_sub_cancel] at e
      simp only [abs_one, ite_self, one_mul, ← mul_add] at e
      exact e
  have G := hier_grid (blk := out) (h := fun i => (opBlk ta A i 0).opRows ta)
    (w := fun j => (opBlk tb B 0 j).opCols tb) GA.m0 GB.n0
    (fun i hi j hj => ⟨(key i hi j hj).2.1, (key i hi j hj).2.2.2.1, (key i hi j hj).2.2.2.2.1⟩)
  refine ⟨hin, G.1, fun i hi j hj => (key i hi j hj).2.2.1, by rw [G.2.1, GA.opRows],
    by rw [G.2.2.1, GB.opCols], ?_⟩
  intro x hx y hy
  rw [G.2.1] at hx
  rw [G.2.2.1] at hy
  obtain ⟨i, hi, r', hr', rfl⟩ := exists_block _ _ _ hx
  obtain ⟨j, hj, s', hs', rfl⟩ := exists_block _ _ _ hy
  have k := key i hi j hj
  have hw : ∀ c < opDim1 ta p q, (opBlk ta A 0 c).opCols ta = (opBlk tb B c 0).opRows tb := by
    intro c hc
    have := k.1
    rw [GA.cols 0 GA.m0 c hc, ← GA.cols i hi c hc, k.2.2.2.2.2.1 c hc, GB.rows c (by omega) j hj]
  rw [(G.2.2.2 i hi j hj r' hr' s' hs').1, prodEntry_grid GA GB k.1 hw hi hj hr' hs',
    prodEntry_grid (grid_hier_abs hA) (grid_hier_abs hB) k.1 hw hi hj hr' hs']
  exact k.2.2.2.2.2.2 r' (by rw [k.2.2.2.1]; exact hr') s' (by rw [k.2.2.2.2.1]; exact hs')

/-! ### everything together -/

theorem gemmBoth_fl (fuel : Nat) : GemmFl u (F.gemmBoth fuel).1 ∧ GemmNewFl u (F.gemmBoth fuel).2 := by
  induction fuel with
  | zero =>
    refine ⟨?_, ?_⟩
    · intro L A B C α β ta tb C' _ _ _ _ _ _ _ h
      cases h
    · intro L A B α ta tb D _ _ _ _ _ h
      cases h
  | succ n ih =>
    obtain ⟨hg, hgn⟩ := ih
    refine ⟨?_, ?_⟩
    · intro L A B C α β ta tb C' hA hB hC hCs ht hi hL h
      simp only [FlBlas.gemmBoth, except_bind_eq_ok, assertM_eq_ok, decide_eq_true_eq] at h
      obtain ⟨-, e1, -, e2, -, e3, h⟩ := h
      have hd : GemmDims ta tb A B C := ⟨e1, e2, e3⟩
      refine ⟨hd, ?_⟩
      cases C with
      | dense c => exact gemmToDense_fl hF hg hA hB ht hi hL hd h
      | lowRank c => cases h
      | hier m n C => exact gemmToHier_fl hF hg hgn hA hB hC hCs ht hi hL hd h
      | empty => cases h
    · intro L A B α ta tb D hA hB ht hi hL h
      simp only [FlBlas.gemmBoth, except_bind_eq_ok, assertM_eq_ok, decide_eq_true_eq] at h
      obtain ⟨-, e, h⟩ := h
      cases A with
      | hier p q AA =>
        cases B with
        | hier r s BB => exact gemmNewHH_fl hF.u0 hg hgn hA hB ht hi hL e h
        | _ => exact gemmNew_fl hg hA hB ht hi hL h
      | _ => exact gemmNew_fl hg hA hB ht hi hL h

end
end Mat
end Verif
