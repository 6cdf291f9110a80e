import Verif.Lemmas.Gemm

set_option linter.unusedSectionVars false
set_option linter.unusedVariables false

namespace Verif
open Finset

variable {R : Type} [CommRing R]

namespace Mat

/-! ### `op(A)` as a grid of blocks -/

/-- `op(A)` is an `m`-by-`n` grid of the matrices `op(blk i j)` with row heights
`h` and column widths `w`. -/
structure Grid (t : Bool) (A : Mat R) (m n : Nat) (blk : Nat → Nat → Mat R) (h w : Nat → Nat) :
    Prop where
  m0 : 0 < m
  n0 : 0 < n
  wf : ∀ i < m, ∀ j < n, (blk i j).WF
  rows : ∀ i < m, ∀ j < n, (blk i j).opRows t = h i
  cols : ∀ i < m, ∀ j < n, (blk i j).opCols t = w j
  opRows : A.opRows t = psum h m
  opCols : A.opCols t = psum w n
  ent : ∀ i < m, ∀ j < n, ∀ r < h i, ∀ s < w j,
    A.opEntry t (psum h i + r) (psum w j + s) = (blk i j).opEntry t r s

theorem grid_hier {t : Bool} {p q : Nat} {A : Nat → Nat → Mat R} (hA : (Mat.hier p q A).WF) :
    Grid t (.hier p q A) (opDim0 t p q) (opDim1 t p q) (opBlk t A)
      (fun i => (opBlk t A i 0).opRows t) (fun j => (opBlk t A 0 j).opCols t) := by
  have hA' := hA
  simp only [WF] at hA'
  obtain ⟨hp, hq, hd⟩ := hA'
  have G := hier_grid (blk := A) (h := fun a => (A a 0).nRows) (w := fun b => (A 0 b).nCols)
    hp hq hd
  cases t
  · exact ⟨hp, hq, fun i hi j hj => (hd i hi j hj).1, fun i hi j hj => (hd i hi j hj).2.1,
      fun i hi j hj => (hd i hi j hj).2.2, G.2.1, G.2.2.1,
      fun i hi j hj r hr s hs => (G.2.2.2 i hi j hj r hr s hs).1⟩
  · exact ⟨hq, hp, fun i hi j hj => (hd j hj i hi).1, fun i hi j hj => (hd j hj i hi).2.2,
      fun i hi j hj => (hd j hj i hi).2.1, G.2.2.1, G.2.1,
      fun i hi j hj r hr s hs => (G.2.2.2 j hj i hi s hs r hr).1⟩

theorem grid_one {t : Bool} {A : Mat R} (hA : A.WF) :
    Grid t A 1 1 (fun _ _ => A) (fun _ => A.opRows t) (fun _ => A.opCols t) := by
  refine ⟨by omega, by omega, fun _ _ _ _ => hA, fun _ _ _ _ => rfl, fun _ _ _ _ => rfl, by simp [psum],
    by simp [psum], ?_⟩
  intro i hi j hj r _ s _
  have h1 : i = 0 := by omega
  have h2 : j = 0 := by omega
  subst h1; subst h2
  simp [psum]

/-- Block formula for the product of two grids. -/
theorem prodEntry_grid {ta tb : Bool} {A B : Mat R} {m K K' n : Nat} {a b : Nat → Nat → Mat R}
    {h w w' v : Nat → Nat} (GA : Grid ta A m K a h w) (GB : Grid tb B K' n b w' v) (hK : K ≤ K')
    (hw : ∀ k < K, w k = w' k) {i j r s : Nat} (hi : i < m) (hj : j < n) (hr : r < h i)
    (hs : s < v j) :
    prodEntry ta tb A B (psum h i + r) (psum v j + s) =
      ∑ k ∈ range K, prodEntry ta tb (a i k) (b k j) r s := by
  unfold prodEntry
  rw [GA.opCols, sum_blocks]
  refine Finset.sum_congr rfl (fun k hk => ?_)
  rw [Finset.mem_range] at hk
  rw [GA.cols i hi k hk]
  refine Finset.sum_congr rfl (fun l hl => ?_)
  rw [Finset.mem_range] at hl
  rw [GA.ent i hi k hk r hr l hl]
  congr 1
  rw [psum_congr (h' := w') (fun c hc => hw c (by omega))]
  exact GB.ent k (by omega) j hj l (by rw [← hw k hk]; exact hl) s hs

/-! ### accumulating products -/

/-- Several products accumulated into one block. -/
theorem loop_post {ex sq : Prop} {g : GemmT R} (hg : GemmOk ex sq g) {K : Nat} {a b : Nat → Mat R}
    {f : Nat → Mat R → Except Err (Mat R)} {α : R} {β : Nat → R} {ta tb : Bool} {C C' : Mat R}
    (hC : C.WF) (hCs : C.Square) (ha : ∀ k < K, (a k).WF) (hb : ∀ k < K, (b k).WF)
    (ht : ∀ k < K, TransSafe ta tb (a k) (b k)) (hr : ∀ k < K, RankSafe sq (a k) (b k))
    (hstep : ∀ k < K, ∀ c c', f k c = .ok c' → g (a k) (b k) c α (β k) ta tb = .ok c')
    (hβ : ∀ k, 0 < k → β k = 1)
    (h : loop K f C = .ok C') :
    (∀ k < K, GemmDims ta tb (a k) (b k) C) ∧ C'.WF ∧ C'.Square ∧ C.SameShape C' ∧
    ∀ i < C.nRows, ∀ j < C.nCols, (C.denseAt i j ∨ ex) →
      C'.entry i j = α * (∑ k ∈ range K, prodEntry ta tb (a k) (b k) i j) +
        (if K = 0 then 1 else β 0) * C.entry i j := by
  induction K generalizing C' with
  | zero =>
    cases h
    exact ⟨fun k hk => by omega, hC, hCs, SameShape.refl _, fun i _ j _ _ => by simp⟩
  | succ K ih =>
    rw [loop_succ, except_bind_eq_ok] at h
    obtain ⟨c, hc, h⟩ := h
    obtain ⟨i1, i2, i3, i4, i5⟩ := ih (fun k hk => ha k (by omega)) (fun k hk => hb k (by omega))
      (fun k hk => ht k (by omega)) (fun k hk => hr k (by omega)) (fun k hk => hstep k (by omega)) hc
    obtain ⟨gd, gp⟩ := hg _ _ _ _ _ _ _ _ (ha K (by omega)) (hb K (by omega)) i2 i3 (ht K (by omega))
      (hr K (by omega)) (hstep K (by omega) c C' h)
    have dd := i4.dims hC
    refine ⟨?_, gp.wf, gp.sqr, i4.trans gp.shape, ?_⟩
    · intro k hk
      by_cases hk' : k = K
      · subst hk'
        exact ⟨by rw [gd.rows, dd.1], gd.inner, by rw [gd.cols, dd.2]⟩
      · exact i1 k (by omega)
    · intro i hi j hj hP
      rw [gp.ent i (by rw [dd.1]; exact hi) j (by rw [dd.2]; exact hj)
        (by rwa [i4.denseAt hC hi hj]), i5 i hi j hj hP, Finset.sum_range_succ]
      by_cases hK : K = 0
      · subst hK; simp
      · rw [hβ K (by omega), if_neg hK, if_neg (by omega)]
        ring

/-- A hierarchical target whose blocks have received the products of the block
rows of `op(A)` with the block columns of `op(B)`. -/
theorem target_post {ex : Prop} {ta tb : Bool} {A B : Mat R} {m mA K K' n : Nat}
    {a b C C' : Nat → Nat → Mat R} {h w w' v : Nat → Nat} {α β : R}
    (GA : Grid ta A mA K a h w) (GB : Grid tb B K' n b w' v) (hK : K ≤ K') (hm : mA ≤ m)
    (hC : (Mat.hier m n C).WF) (hd : GemmDims ta tb A B (.hier m n C))
    (key : ∀ i < m, ∀ j < n, (C' i j).WF ∧ (C' i j).Square ∧ (C i j).SameShape (C' i j))
    (keyD : ∀ i < mA, ∀ j < n, ∀ k < K, GemmDims ta tb (a i k) (b k j) (C i j))
    (keyE : ∀ i < mA, ∀ j < n, 
      ∀ r < (C i j).nRows, ∀ s < (C i j).nCols, ((C i j).denseAt r s ∨ ex) →
        (C' i j).entry r s = α * (∑ k ∈ range K, prodEntry ta tb (a i k) (b k j) r s) +
          β * (C i j).entry r s) :
    GemmPost ex A B (.hier m n C) (.hier m n C') α β ta tb := by
  have hC' := hC
  simp only [WF] at hC'
  obtain ⟨hm0, hn0, hCd⟩ := hC'
  have hw : ∀ k < K, w k = w' k := by
    intro k hk
    rw [← GA.cols 0 GA.m0 k hk, ← GB.rows k (by omega) 0 hn0]
    exact (keyD 0 GA.m0 0 hn0 k hk).inner
  have hrow : ∀ i < mA, h i = (C i 0).nRows := by
    intro i hi
    rw [← GA.rows i hi 0 GA.n0]
    exact (keyD i hi 0 hn0 0 GA.n0).rows
  have hcol : ∀ j < n, v j = (C 0 j).nCols := by
    intro j hj
    rw [← GB.cols 0 GB.m0 j hj]
    exact (keyD 0 GA.m0 j hj 0 GA.n0).cols
  have hrest : ∀ i < m, mA ≤ i → (C i 0).nRows = 0 := by
    intro i hi hmi
    have e := hd.rows
    rw [GA.opRows, nRows_hier, psum_congr hrow] at e
    have e1 := psum_le (fun a => (C a 0).nRows) hi
    have e2 := psum_mono (fun a => (C a 0).nRows) hmi
    omega
  have Bw := blockwise (g := C') hC
    (fun x y => α * prodEntry ta tb A B x y + β * (Mat.hier m n C).entry x y) ex
    (fun i hi j hj => by
      refine ⟨(key i hi j hj).1, (key i hi j hj).2.2, fun r hr s hs hP => ?_⟩
      by_cases hmi : i < mA
      · rw [keyE i hmi j hj r (by rw [(hCd i hi j hj).2.1]; exact hr) s
          (by rw [(hCd i hi j hj).2.2]; exact hs) hP]
        show _ = _
        rw [entry_block hi hj hr hs]
        rw [← psum_congr (fun c hc => hrow c (by omega)), ← psum_congr (fun c hc => hcol c (by omega))]
        rw [prodEntry_grid GA GB hK hw hmi hj (by rw [hrow i hmi]; exact hr)
          (by rw [hcol j hj]; exact hs)]
      · rw [hrest i hi (by omega)] at hr
        omega)
  exact ⟨Bw.1, fun i hi j hj => (key i hi j hj).2.1, Bw.2.1, Bw.2.2⟩

/-! ### the block products -/

theorem TransSafe_ff (A B : Mat R) : TransSafe false false A B := by
  induction A generalizing B with
  | dense a => cases B <;> trivial
  | lowRank a => cases B <;> trivial
  | empty => cases B <;> trivial
  | hier p q A ih =>
    cases B <;> first | trivial | exact ⟨rfl, rfl⟩ | skip
    exact fun i hi j hj k hk l hl _ => ih i j _

theorem TransSafe_dense_left {ta tb : Bool} (a : Dense R) (B : Mat R) : TransSafe ta tb (.dense a) B := by
  cases B <;> trivial

theorem TransSafe_dense_right {ta tb : Bool} (A : Mat R) (b : Dense R) : TransSafe ta tb A (.dense b) := by
  cases A <;> trivial

theorem TransSafe_blocks {ta tb : Bool} {p q r s : Nat} {A B : Nat → Nat → Mat R}
    (h : TransSafe ta tb (.hier p q A) (.hier r s B)) {i k j : Nat} (hi : i < opDim0 ta p q)
    (hk : k < opDim1 ta p q) (hk' : k < opDim0 tb r s) (hj : j < opDim1 tb r s) :
    TransSafe ta tb (opBlk ta A i k) (opBlk tb B k j) := by
  cases ta <;> cases tb
  · exact h i hi k hk k hk' j hj rfl
  · exact h i hi k hk j hj k hk' rfl
  · exact h k hk i hi k hk' j hj rfl
  · exact h k hk i hi j hj k hk' rfl

theorem UniformRank_blk {t : Bool} {p q k : Nat} {A : Nat → Nat → Mat R}
    (h : (Mat.hier p q A).UniformRank k) {i j : Nat} (hi : i < opDim0 t p q) (hj : j < opDim1 t p q) :
    (opBlk t A i j).UniformRank k := by
  cases t
  · exact h i hi j hj
  · exact h j hj i hi

theorem RankSafe_blocks {sq : Prop} {ta tb : Bool} {p q r s : Nat} {A B : Nat → Nat → Mat R}
    (h : RankSafe sq (.hier p q A) (.hier r s B)) {i k j : Nat} (hi : i < opDim0 ta p q)
    (hk : k < opDim1 ta p q) (hk' : k < opDim0 tb r s) (hj : j < opDim1 tb r s) :
    RankSafe sq (opBlk ta A i k) (opBlk tb B k j) := by
  intro hs
  obtain ⟨c, h1, h2⟩ := h hs
  exact ⟨c, UniformRank_blk h1 hi hk, UniformRank_blk h2 hk' hj⟩

theorem RankSafe_left {sq : Prop} {t : Bool} {p q : Nat} {A : Nat → Nat → Mat R} {B : Mat R}
    (h : RankSafe sq (.hier p q A) B) {i k : Nat} (hi : i < opDim0 t p q)
    (hk : k < opDim1 t p q) : RankSafe sq (opBlk t A i k) B := by
  intro hs
  obtain ⟨c, h1, h2⟩ := h hs
  exact ⟨c, UniformRank_blk h1 hi hk, h2⟩

theorem RankSafe_right {sq : Prop} {t : Bool} {p q : Nat} {A : Mat R} {B : Nat → Nat → Mat R}
    (h : RankSafe sq A (.hier p q B)) {i k : Nat} (hi : i < opDim0 t p q)
    (hk : k < opDim1 t p q) : RankSafe sq A (opBlk t B i k) := by
  intro hs
  obtain ⟨c, h1, h2⟩ := h hs
  exact ⟨c, h1, UniformRank_blk h2 hi hk⟩

theorem gemmHHH_ok {ex sq : Prop} {g : GemmT R} (hg : GemmOk ex sq g) {p q r s m n : Nat}
    {A B C : Nat → Nat → Mat R} {α β : R} {ta tb : Bool} {C' : Mat R}
    (hA : (Mat.hier p q A).WF) (hB : (Mat.hier r s B).WF) (hC : (Mat.hier m n C).WF)
    (hCs : (Mat.hier m n C).Square) (ht : TransSafe ta tb (.hier p q A) (.hier r s B))
    (hr : RankSafe sq (.hier p q A) (.hier r s B))
    (hd : GemmDims ta tb (.hier p q A) (.hier r s B) (.hier m n C))
    (h : gemmHHH g p q A r s B m n C α β ta tb = .ok C') :
    GemmPost ex (.hier p q A) (.hier r s B) (.hier m n C) C' α β ta tb := by
  simp only [gemmHHH, except_bind_eq_ok, assertM_eq_ok, decide_eq_true_eq] at h
  obtain ⟨-, e1, -, e2, -, e3, D, hD, h⟩ := h
  cases h
  subst e1; subst e3
  have GA := grid_hier (t := ta) hA
  have GB := grid_hier (t := tb) hB
  have hC' := hC
  simp only [WF] at hC'
  have key := fun i hi j hj => loop_post hg (hC'.2.2 i hi j hj).1 (hCs i hi j hj)
    (a := fun k => opBlk ta A i k) (b := fun k => opBlk tb B k j)
    (β := fun k => if k = 0 then β else 1)
    (fun k hk => GA.wf i hi k hk) (fun k hk => GB.wf k (by omega) j hj)
    (fun k hk => TransSafe_blocks ht hi hk (by omega) hj)
    (fun k hk => RankSafe_blocks hr hi hk (by omega) hj)
    (fun k hk c c' hc => hc) (fun k hk => if_neg (by omega)) (collect2_ok hD i hi j hj)
  refine target_post GA GB (by omega) (Nat.le_refl _) hC hd
    (fun i hi j hj => ⟨(key i hi j hj).2.1, (key i hi j hj).2.2.1, (key i hi j hj).2.2.2.1⟩)
    (fun i hi j hj => (key i hi j hj).1) ?_
  intro i hi j hj r hr s hs hP
  rw [(key i hi j hj).2.2.2.2 r hr s hs hP, if_neg (by have := GA.n0; omega)]
  simp

/-- `operator[]` of a block row `op(A)`. -/
theorem vecAt_row {t : Bool} {p q : Nat} {A : Nat → Nat → Mat R} {k : Nat} {x : Mat R}
    (h0 : opDim0 t p q = 1) (h : vecAt p q A k = .ok x) :
    k < opDim1 t p q ∧ x = opBlk t A 0 k := by
  simp only [vecAt, except_bind_eq_ok, assertM_eq_ok, decide_eq_true_eq] at h
  obtain ⟨-, -, -, h1, h⟩ := h
  cases t
  · simp only [opDim0, opDim1, opBlk, Bool.false_eq_true, if_false] at *
    subst h0
    simp at h h1
    exact ⟨h1, h.symm⟩
  · simp only [opDim0, opDim1, opBlk, if_true] at *
    subst h0
    by_cases hp : p = 1
    · subst hp
      simp at h h1
      subst h1
      exact ⟨by omega, h.symm⟩
    · simp [hp] at h h1
      exact ⟨h1, h.symm⟩

/-- `operator[]` of a block column `op(A)`. -/
theorem vecAt_col {t : Bool} {p q : Nat} {A : Nat → Nat → Mat R} {k : Nat} {x : Mat R}
    (h0 : opDim1 t p q = 1) (h : vecAt p q A k = .ok x) :
    k < opDim0 t p q ∧ x = opBlk t A k 0 := by
  have := vecAt_row (t := !t) (A := A) (k := k) (x := x) (p := p) (q := q)
    (by cases t <;> exact h0) h
  cases t <;> exact this

/-- The loop over the blocks of a block row `C`. -/
theorem gemmRowLoop_ok {ex sq : Prop} {g : GemmT R} (hg : GemmOk ex sq g) {r s m n : Nat}
    {A : Mat R} {B C : Nat → Nat → Mat R} {α β : R} {ta tb : Bool} {C' : Mat R}
    (hA : A.WF) (hB : (Mat.hier r s B).WF) (hC : (Mat.hier m n C).WF)
    (hCs : (Mat.hier m n C).Square)
    (ht : ∀ j < opDim1 tb r s, TransSafe ta tb A (opBlk tb B 0 j))
    (hr : RankSafe sq A (.hier r s B))
    (hd : GemmDims ta tb A (.hier r s B) (.hier m n C))
    (hn : opDim1 tb r s = n) (h1 : opDim0 tb r s = 1) (hm : m = 1)
    (h : gemmRowLoop g A r s B m n C α β ta tb = .ok C') :
    GemmPost ex A (.hier r s B) (.hier m n C) C' α β ta tb := by
  simp only [gemmRowLoop, except_bind_eq_ok] at h
  obtain ⟨f, hf, h⟩ := h
  cases h
  subst hn; subst hm
  have GA := grid_one (t := ta) hA
  have GB := grid_hier (t := tb) hB
  have hC' := hC
  simp only [WF] at hC'
  have key : ∀ j < opDim1 tb r s, GemmDims ta tb A (opBlk tb B 0 j) (C 0 j) ∧
      GemmPost ex A (opBlk tb B 0 j) (C 0 j) (f j) α β ta tb := by
    intro j hj
    have := collect_ok hf j hj
    simp only [except_bind_eq_ok] at this
    obtain ⟨b, hb, c, hc, hh⟩ := this
    obtain ⟨-, rfl⟩ := vecAt_row h1 hb
    obtain ⟨-, rfl⟩ := vecAt_row (t := false) rfl hc
    exact hg _ _ _ _ _ _ _ _ hA (GB.wf 0 (by omega) j hj) (hC'.2.2 0 (by omega) j hj).1
      (hCs 0 (by omega) j hj) (ht j hj) (RankSafe_right hr (by omega) hj) hh
  have fj : ∀ i j, j < opDim1 tb r s → (if j < opDim1 tb r s then f j else C i j) = f j :=
    fun i j hj => if_pos hj
  refine target_post GA GB (by omega) (Nat.le_refl _) hC hd ?_ ?_ ?_
  · intro i hi j hj
    have : i = 0 := by omega
    subst this
    rw [fj _ j hj]
    exact ⟨(key j hj).2.wf, (key j hj).2.sqr, (key j hj).2.shape⟩
  · intro i hi j hj k hk
    have : i = 0 := by omega
    subst this
    have : k = 0 := by omega
    subst this
    exact (key j hj).1
  · intro i hi j hj x hx y hy hP
    have : i = 0 := by omega
    subst this
    rw [fj _ j hj, (key j hj).2.ent x hx y hy hP]
    simp

/-- The loop over the blocks of a block column `C`. -/
theorem gemmColLoop_ok {ex sq : Prop} {g : GemmT R} (hg : GemmOk ex sq g) {p q m n : Nat}
    {B : Mat R} {A C : Nat → Nat → Mat R} {α β : R} {ta tb : Bool} {C' : Mat R}
    (hA : (Mat.hier p q A).WF) (hB : B.WF) (hC : (Mat.hier m n C).WF)
    (hCs : (Mat.hier m n C).Square)
    (ht : ∀ i < opDim0 ta p q, TransSafe ta tb (opBlk ta A i 0) B)
    (hr : RankSafe sq (.hier p q A) B)
    (hd : GemmDims ta tb (.hier p q A) B (.hier m n C))
    (h1 : opDim1 ta p q = 1) (hn : n = 1)
    (h : gemmColLoop g p q A B m n C α β ta tb = .ok C') :
    GemmPost ex (.hier p q A) B (.hier m n C) C' α β ta tb := by
  simp only [gemmColLoop, except_bind_eq_ok] at h
  obtain ⟨f, hf, h⟩ := h
  cases h
  subst hn
  have GA := grid_hier (t := ta) hA
  have GB := grid_one (t := tb) hB
  have hC' := hC
  simp only [WF] at hC'
  have key : ∀ i < opDim0 ta p q, i < m ∧ (i < m → GemmDims ta tb (opBlk ta A i 0) B (C i 0) ∧
      GemmPost ex (opBlk ta A i 0) B (C i 0) (f i) α β ta tb) := by
    intro i hi
    have := collect_ok hf i hi
    simp only [except_bind_eq_ok] at this
    obtain ⟨b, hb, c, hc, hh⟩ := this
    obtain ⟨-, rfl⟩ := vecAt_col h1 hb
    obtain ⟨hm, rfl⟩ := vecAt_col (t := false) rfl hc
    refine ⟨hm, fun hm => ?_⟩
    exact hg _ _ _ _ _ _ _ _ (GA.wf i hi 0 (by omega)) hB (hC'.2.2 i hm 0 (by omega)).1
      (hCs i hm 0 (by omega)) (ht i hi) (RankSafe_left hr hi (by omega)) hh
  have hmm : opDim0 ta p q ≤ m := by
    have h0 := GA.m0
    have := (key (opDim0 ta p q - 1) (by omega)).1
    omega
  have fj : ∀ i j, i < opDim0 ta p q → (if i < opDim0 ta p q then f i else C i j) = f i :=
    fun i j hj => if_pos hj
  have fj' : ∀ i j, ¬ i < opDim0 ta p q → (if i < opDim0 ta p q then f i else C i j) = C i j :=
    fun i j hj => if_neg hj
  have key2 : ∀ i < opDim0 ta p q, _ := fun i hi => (key i hi).2 (key i hi).1
  refine target_post GA GB (by omega) hmm hC hd ?_ ?_ ?_
  · intro i hi j hj
    have : j = 0 := by omega
    subst this
    by_cases hi' : i < opDim0 ta p q
    · rw [fj _ _ hi']
      exact ⟨(key2 i hi').2.wf, (key2 i hi').2.sqr, (key2 i hi').2.shape⟩
    · rw [fj' _ _ hi']
      exact ⟨(hC'.2.2 i hi 0 (by omega)).1, hCs i hi 0 (by omega), SameShape.refl _⟩
  · intro i hi j hj k hk
    have : j = 0 := by omega
    subst this
    have : k = 0 := by omega
    subst this
    exact (key2 i hi).1
  · intro i hi j hj x hx y hy hP
    have : j = 0 := by omega
    subst this
    rw [fj _ _ hi, (key2 i hi).2.ent x hx y hy hP]
    simp [h1]

/-! ### operands and targets that are split first -/

theorem split_dense_leaves {a : Dense R} {nr nc : Nat} (hr : 1 ≤ nr) (hc : 1 ≤ nc) {M : Mat R}
    (h : (Mat.dense a).split nr nc = .ok M) :
    ∃ b, M = .hier nr nc b ∧ (Mat.hier nr nc b).WF ∧ SameEntries (.hier nr nc b) (.dense a) ∧
      (∀ i < nr, ∀ j < nc, ∃ d, b i j = .dense d) := by
  obtain ⟨b, rfl, hb⟩ := split_isSplit (A := .dense a) trivial hr hc h
  refine ⟨b, rfl, hb.wf hr hc, hb.same hr hc, ?_⟩
  simp only [split, splitOmm, splitDense] at h
  split at h
  · have h := Except.ok.inj h
    injection h with e1 e2 e3
    intro i _ j _
    rw [← e3]
    exact ⟨_, rfl⟩
  · cases h

theorem dense_uniform {nr nc : Nat} {b : Nat → Nat → Mat R}
    (h : ∀ i < nr, ∀ j < nc, ∃ d, b i j = .dense d) (k : Nat) :
    (Mat.hier nr nc b).UniformRank k := by
  intro i hi j hj
  obtain ⟨d, hd⟩ := h i hi j hj
  rw [hd]; trivial

theorem dense_leaves {nr nc : Nat} {b : Nat → Nat → Mat R}
    (h : ∀ i < nr, ∀ j < nc, ∃ d, b i j = .dense d) : (Mat.hier nr nc b).DenseLeaves := by
  intro i hi j hj
  obtain ⟨d, hd⟩ := h i hi j hj
  rw [hd]; trivial

theorem TransSafe_split_left {ta tb : Bool} {nr nc : Nat} {b : Nat → Nat → Mat R}
    (h : ∀ i < nr, ∀ j < nc, ∃ d, b i j = .dense d) {r s : Nat} {B : Nat → Nat → Mat R} :
    TransSafe ta tb (.hier nr nc b) (.hier r s B) := by
  intro i hi j hj k _ l _ _
  obtain ⟨d, hd⟩ := h i hi j hj
  rw [hd]; exact TransSafe_dense_left _ _

theorem TransSafe_split_right {ta tb : Bool} {nr nc : Nat} {b : Nat → Nat → Mat R}
    (h : ∀ i < nr, ∀ j < nc, ∃ d, b i j = .dense d) {r s : Nat} {A : Nat → Nat → Mat R} :
    TransSafe ta tb (.hier r s A) (.hier nr nc b) := by
  intro i hi j hj k hk l hl _
  obtain ⟨d, hd⟩ := h k hk l hl
  rw [hd]; exact TransSafe_dense_right _ _

theorem SameEntries.refl' (A : Mat R) : SameEntries A A := ⟨rfl, rfl, fun _ _ _ _ => rfl⟩

/-- Recursive call with other representations of the factors. -/
theorem GemmOk.congr {ex sq : Prop} {g : GemmT R} (hg : GemmOk ex sq g) {A A' B B' C C' : Mat R} {α β : R}
    {ta tb : Bool} (hA : SameEntries A' A) (hB : SameEntries B' B) (hd : GemmDims ta tb A B C)
    (wA : A'.WF) (wB : B'.WF) (wC : C.WF) (sC : C.Square) (ht : TransSafe ta tb A' B')
    (hr : RankSafe sq A' B') (h : g A' B' C α β ta tb = .ok C') :
    GemmPost ex A B C C' α β ta tb :=
  (hg _ _ _ _ _ _ _ _ wA wB wC sC ht hr h).2.congr hd (SameEntries.symm' hA) (SameEntries.symm' hB)

theorem asDense_ok {A : Mat R} {d : Dense R} (h : A.asDense = .ok d) : A = .dense d := by
  cases A <;> cases h
  rfl

/-- A dense target updated through its split. -/
theorem joinDense_ok {ex sq : Prop} {g : GemmT R} (hg : GemmOk ex sq g) {A B : Mat R} {c : Dense R}
    {nr nc : Nat} {CH CH' D : Mat R} {α β : R} {ta tb : Bool} (hr1 : 1 ≤ nr) (hc1 : 1 ≤ nc)
    (hA : A.WF) (hB : B.WF) (ht : TransSafe ta tb A B) (hr : RankSafe sq A B)
    (hs : (Mat.dense c).split nr nc = .ok CH) (hgg : g A B CH α β ta tb = .ok CH')
    (hj : joinDense c CH' = .ok D) : GemmPost ex A B (.dense c) D α β ta tb := by
  obtain ⟨b, rfl, w, same, hd⟩ := split_dense_leaves hr1 hc1 hs
  have dl := dense_leaves hd
  obtain ⟨-, P⟩ := hg _ _ _ _ _ _ _ _ hA hB w dl.square ht hr hgg
  have dl' := dl.shape P.shape
  have dims := P.shape.dims w
  cases CH' <;> try cases hj
  rename_i m n blk
  simp only [joinDense, except_bind_eq_ok] at hj
  obtain ⟨e, he, hj⟩ := hj
  cases hj
  refine ⟨trivial, trivial, ⟨rfl, rfl⟩, ?_⟩
  intro i hi j hj _
  have hi2 : i < (Mat.hier nr nc b).nRows := by rw [same.1]; exact hi
  have hj2 : j < (Mat.hier nr nc b).nCols := by rw [same.2.1]; exact hj
  have e1 : (Mat.dense c).entry i j = (Mat.hier nr nc b).entry i j := (same.2.2 i hi2 j hj2).symm
  rw [e1, ← P.ent i hi2 j hj2 (Or.inl (dl.denseAt hi2 hj2 w))]
  rw [← dims.1, nRows_hier] at hi2
  rw [← dims.2, nCols_hier] at hj2
  obtain ⟨p, hp, r, hr, rfl⟩ := exists_block _ _ _ hi2
  obtain ⟨q, hq, s, hs, rfl⟩ := exists_block _ _ _ hj2
  rw [entry_block hp hq hr hs, asDense_ok (collect2_ok he p hp q hq)]
  simp only [entry, joinVal, locate_at (fun a => (blk a 0).nRows) m p r hp hr,
    locate_at (fun a => (blk 0 a).nCols) n q s hq hs]

theorem opDim0_pos {t : Bool} {p q : Nat} {A : Nat → Nat → Mat R} (h : (Mat.hier p q A).WF) :
    1 ≤ opDim0 t p q := (grid_hier (t := t) h).m0
theorem opDim1_pos {t : Bool} {p q : Nat} {A : Nat → Nat → Mat R} (h : (Mat.hier p q A).WF) :
    1 ≤ opDim1 t p q := (grid_hier (t := t) h).n0

theorem gemmHHD_ok {ex sq : Prop} {g : GemmT R} (hg : GemmOk ex sq g) {p q r s : Nat}
    {A B : Nat → Nat → Mat R} {c : Dense R} {α β : R} {ta tb : Bool} {C' : Mat R}
    (hA : (Mat.hier p q A).WF) (hB : (Mat.hier r s B).WF)
    (ht : TransSafe ta tb (.hier p q A) (.hier r s B))
    (hr : RankSafe sq (.hier p q A) (.hier r s B))
    (hd : GemmDims ta tb (.hier p q A) (.hier r s B) (.dense c))
    (h : gemmHHD g p q A r s B c α β ta tb = .ok C') :
    GemmPost ex (.hier p q A) (.hier r s B) (.dense c) C' α β ta tb := by
  simp only [gemmHHD, except_bind_eq_ok, assertM_eq_ok, decide_eq_true_eq] at h
  obtain ⟨-, e, h⟩ := h
  have GA := grid_hier (t := ta) hA
  have GB := grid_hier (t := tb) hB
  split at h
  · rename_i hone
    have key := loop_post hg (C := .dense c) trivial trivial
      (a := fun k => opBlk ta A 0 k) (b := fun k => opBlk tb B k 0)
      (α := α) (β := fun k => if k = 0 then β else 1) (ta := ta) (tb := tb)
      (fun k hk => GA.wf 0 (by omega) k hk) (fun k hk => GB.wf k (by omega) 0 (by omega))
      (fun k hk => TransSafe_blocks ht (by omega) hk (by omega) (by omega))
      (fun k hk => RankSafe_blocks hr (by omega) hk (by omega) (by omega))
      (fun k hk c c' hc => by
        simp only [except_bind_eq_ok] at hc
        obtain ⟨x, hx, y, hy, hc⟩ := hc
        obtain ⟨-, rfl⟩ := vecAt_row hone.1 hx
        obtain ⟨-, rfl⟩ := vecAt_col hone.2 hy
        exact hc) (fun k hk => if_neg (by omega)) h
    obtain ⟨k1, k2, k3, k4, k5⟩ := key
    refine ⟨k2, k3, k4, fun i hi j hj hP => ?_⟩
    rw [k5 i hi j hj hP, if_neg (by have := GA.n0; omega)]
    have := prodEntry_grid GA GB (by omega) (fun k hk => by
      rw [← GA.cols 0 GA.m0 k hk, ← GB.rows k (by omega) 0 GB.n0]
      exact (k1 k hk).inner) (i := 0) (j := 0) (r := i) (s := j) GA.m0 GB.n0
      (by rw [← GA.rows 0 GA.m0 0 GA.n0, (k1 0 GA.n0).rows]; exact hi)
      (by rw [← GB.cols 0 GB.m0 0 GB.n0, (k1 0 GA.n0).cols]; exact hj)
    simp only [psum, Finset.range_zero, Finset.sum_empty, Nat.zero_add] at this
    rw [this]
    simp
  · simp only [except_bind_eq_ok] at h
    obtain ⟨CH, hs, CH', hgg, hj⟩ := h
    exact joinDense_ok hg GA.m0 GB.n0 hA hB ht hr hs hgg hj

theorem one_block {A : Nat → Nat → Mat R} {p q : Nat} (hA : (Mat.hier p q A).WF) (h : p = 1 ∧ q = 1) :
    (A 0 0).WF ∧ SameEntries (A 0 0) (.hier p q A) := by
  obtain ⟨rfl, rfl⟩ := h
  refine ⟨?_, SameEntries.symm' (same_one hA)⟩
  simp only [WF] at hA
  exact (hA.2.2 0 (by omega) 0 (by omega)).1

theorem UniformRank_one {A : Nat → Nat → Mat R} {p q k : Nat} (h : p = 1 ∧ q = 1)
    (hA : (Mat.hier p q A).UniformRank k) : (A 0 0).UniformRank k := by
  obtain ⟨rfl, rfl⟩ := h
  exact hA 0 (by omega) 0 (by omega)

theorem RankSafe.left {sq : Prop} {A A' B : Mat R} (h : RankSafe sq A B)
    (hA : ∀ k, A.UniformRank k → A'.UniformRank k) : RankSafe sq A' B := fun hs => by
  obtain ⟨k, h1, h2⟩ := h hs
  exact ⟨k, hA k h1, h2⟩

theorem RankSafe.right {sq : Prop} {A B B' : Mat R} (h : RankSafe sq A B)
    (hB : ∀ k, B.UniformRank k → B'.UniformRank k) : RankSafe sq A B' := fun hs => by
  obtain ⟨k, h1, h2⟩ := h hs
  exact ⟨k, h1, hB k h2⟩

/-- No block matrix. -/
def NotHier : Mat R → Prop
  | .hier _ _ _ => False
  | _ => True

theorem TransSafe_leaf_hier {ta tb : Bool} {A : Mat R} {r s : Nat} {B : Nat → Nat → Mat R}
    (hA : A.NotHier) (h : TransSafe ta tb A (.hier r s B)) (X : Mat R) : TransSafe ta tb A X := by
  cases A with
  | dense a => exact TransSafe_dense_left _ _
  | lowRank a =>
    cases X <;> trivial
  | hier => exact hA.elim
  | empty => cases X <;> trivial

theorem TransSafe_hier_leaf {ta tb : Bool} {B : Mat R} {r s : Nat} {A : Nat → Nat → Mat R}
    (hB : B.NotHier) (h : TransSafe ta tb (.hier r s A) B) (X : Mat R) : TransSafe ta tb X B := by
  cases B with
  | dense a => exact TransSafe_dense_right _ _
  | lowRank a =>
    obtain ⟨rfl, rfl⟩ := h
    exact TransSafe_ff _ _
  | hier => exact hB.elim
  | empty => cases X <;> trivial

theorem gemmToDense_ok {ex sq : Prop} {g : GemmT R} (hg : GemmOk ex sq g) {A B : Mat R} {c : Dense R}
    {α β : R} {ta tb : Bool} {C' : Mat R} (hA : A.WF) (hB : B.WF) (ht : TransSafe ta tb A B)
    (hr : RankSafe sq A B) (hd : GemmDims ta tb A B (.dense c))
    (h : gemmToDense g A B c α β ta tb = .ok C') : GemmPost ex A B (.dense c) C' α β ta tb := by
  have left : ∀ (r s : Nat) (BB : Nat → Nat → Mat R), A.NotHier → B = .hier r s BB →
      (if r = 1 ∧ s = 1 then g A (BB 0 0) (.dense c) α β ta tb
        else do
          let CH ← (Mat.dense c).split 1 (opDim1 tb r s)
          let CH' ← g A (.hier r s BB) CH α β ta tb
          joinDense c CH') = .ok C' → GemmPost ex A B (.dense c) C' α β ta tb := by
    intro r s BB hl e h'
    clear h
    have h := h'
    subst e
    split at h
    · rename_i hone
      exact hg.congr (SameEntries.refl' A) (one_block hB hone).2 hd hA (one_block hB hone).1 trivial
        trivial (TransSafe_leaf_hier hl ht _) (hr.right (fun k => UniformRank_one hone)) h
    · simp only [except_bind_eq_ok] at h
      obtain ⟨CH, hs, CH', hgg, hj⟩ := h
      exact joinDense_ok hg (by omega) (opDim1_pos hB) hA hB ht hr hs hgg hj
  have right : ∀ (r s : Nat) (AA : Nat → Nat → Mat R), B.NotHier → A = .hier r s AA →
      (if r = 1 ∧ s = 1 then g (AA 0 0) B (.dense c) α β ta tb
        else do
          let CH ← (Mat.dense c).split (opDim0 ta r s) 1
          let CH' ← g (.hier r s AA) B CH α β ta tb
          joinDense c CH') = .ok C' → GemmPost ex A B (.dense c) C' α β ta tb := by
    intro r s AA hl e h'
    clear h left
    have h := h'
    subst e
    split at h
    · rename_i hone
      exact hg.congr (one_block hA hone).2 (SameEntries.refl' B) hd (one_block hA hone).1 hB trivial
        trivial (TransSafe_hier_leaf hl ht _) (hr.left (fun k => UniformRank_one hone)) h
    · simp only [except_bind_eq_ok] at h
      obtain ⟨CH, hs, CH', hgg, hj⟩ := h
      exact joinDense_ok hg (opDim0_pos hA) (by omega) hA hB ht hr hs hgg hj
  cases A with
  | dense a =>
    cases B with
    | dense b =>
      simp only [gemmToDense, except_bind_eq_ok] at h
      obtain ⟨d, hdd, h⟩ := h
      cases h
      obtain ⟨e1, e2, e3, e4, e5, e6⟩ := Dense_gemm_spec hdd
      refine ⟨trivial, trivial, ⟨e4.symm, e5.symm⟩, fun i _ j _ _ => ?_⟩
      rw [prodEntry_dd]
      exact e6 i j
    | lowRank b =>
      simp only [gemmToDense, except_bind_eq_ok] at h
      obtain ⟨d, hdd, h⟩ := h
      cases h
      obtain ⟨e4, e5, e6⟩ := gemmDLrD_ok hB hdd
      exact ⟨trivial, trivial, ⟨e4.symm, e5.symm⟩, fun i _ j _ _ => e6 i j⟩
    | hier r s BB => exact left r s BB trivial rfl h
    | empty => cases h
  | lowRank a =>
    cases B with
    | dense b =>
      simp only [gemmToDense, except_bind_eq_ok] at h
      obtain ⟨d, hdd, h⟩ := h
      cases h
      obtain ⟨e4, e5, e6⟩ := gemmLrDD_ok hA hdd
      exact ⟨trivial, trivial, ⟨e4.symm, e5.symm⟩, fun i _ j _ _ => e6 i j⟩
    | lowRank b =>
      simp only [gemmToDense, except_bind_eq_ok] at h
      obtain ⟨d, hdd, h⟩ := h
      cases h
      obtain ⟨e4, e5, e6⟩ := gemmLrLrD_ok hA hB hdd
      exact ⟨trivial, trivial, ⟨e4.symm, e5.symm⟩, fun i _ j _ _ => e6 i j⟩
    | hier r s BB => exact left r s BB trivial rfl h
    | empty => cases h
  | empty =>
    cases B with
    | hier r s BB => exact left r s BB trivial rfl h
    | _ => cases h
  | hier p q AA =>
    cases B with
    | dense b => exact right p q AA trivial rfl h
    | lowRank b => exact right p q AA trivial rfl h
    | empty => exact right p q AA trivial rfl h
    | hier r s BB => exact gemmHHD_ok hg hA hB ht hr hd h

end Mat
end Verif
