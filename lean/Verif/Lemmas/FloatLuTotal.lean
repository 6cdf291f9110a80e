import Verif.Lemmas.FloatTriTotal
import Verif.Lemmas.GetrfTotal

/-
LU factorization in floating-point arithmetic returns, unless a pivot is zero.
-/

set_option linter.unusedSectionVars false
set_option linter.unusedVariables false
set_option linter.unusedSimpArgs false

namespace Verif
open Finset

/-! ### runs that may be cut short by a zero pivot -/

/-- `x` returns something with `P`, or fails with `ub`. -/
def OkOrUb {α : Type _} (P : α → Prop) (x : Except Err α) : Prop := (∃ a, x = .ok a ∧ P a) ∨ x = .error .ub

/-- `x` is `y`, or fails with `ub`. -/
def CutUb {α : Type _} (x y : Except Err α) : Prop := x = y ∨ x = .error .ub

/-- A result for a failure with `ub`. -/
def fillUb {α : Type _} (x : Except Err α) (d : α) : Except Err α := match x with
  | .error .ub => .ok d
  | r => r

theorem CutUb.fill {α : Type _} (x : Except Err α) (d : α) : CutUb x (fillUb x d) := by
  rcases x with e | a
  · cases e <;> first | exact Or.inl rfl | exact Or.inr rfl
  · exact Or.inl rfl

theorem CutUb.bind {α β : Type _} {x y : Except Err α} {f g : α → Except Err β} (h : CutUb x y)
    (hf : ∀ a, CutUb (f a) (g a)) : CutUb (x >>= f) (y >>= g) := by
  rcases h with rfl | rfl
  · rcases x with e | a
    · exact Or.inl rfl
    · exact hf a
  · exact Or.inr rfl

theorem CutUb.refl {α : Type _} (x : Except Err α) : CutUb x x := Or.inl rfl

theorem CutUb.loop {σ : Type _} {n : Nat} {f g : Nat → σ → Except Err σ} (h : ∀ k s, CutUb (f k s) (g k s)) (s : σ) :
    CutUb (loop n f s) (loop n g s) := by
  induction n with
  | zero => exact Or.inl rfl
  | succ n ih => exact ih.bind (fun s => h n s)

theorem CutUb.collect {α : Type _} [Inhabited α] {n : Nat} {f g : Nat → Except Err α} (h : ∀ k, CutUb (f k) (g k)) :
    CutUb (collect n f) (collect n g) := by
  induction n with
  | zero => exact Or.inl rfl
  | succ n ih => exact ih.bind (fun s => (h n).bind (fun _ => .refl _))

theorem CutUb.okOrUb {α : Type _} {P : α → Prop} {x y : Except Err α} (h : CutUb x y) {a : α} (hy : y = .ok a) (ha : P a) :
    OkOrUb P x := h.imp (fun e => ⟨a, e.trans hy, ha⟩) id

theorem OkOrUb.fill {α : Type _} {P : α → Prop} {x : Except Err α} (h : OkOrUb P x) {d : α} (hd : P d) :
    ∃ a, fillUb x d = .ok a ∧ P a := by
  rcases h with ⟨a, rfl, ha⟩ | rfl
  · exact ⟨a, rfl, ha⟩
  · exact ⟨d, rfl, hd⟩

theorem OkOrUb.bind {α β : Type _} {P : α → Prop} {Q : β → Prop} {x : Except Err α} {f : α → Except Err β} (h : OkOrUb P x)
    (hf : ∀ a, P a → OkOrUb Q (f a)) : OkOrUb Q (x >>= f) := by
  rcases h with ⟨a, rfl, ha⟩ | rfl
  · exact hf a ha
  · exact Or.inr rfl

theorem OkOrUb.loop {σ : Type _} {n : Nat} {body : Nat → σ → Except Err σ} (I : Nat → σ → Prop) {s : σ} (h0 : I 0 s)
    (h : ∀ k < n, ∀ s, I k s → OkOrUb (I (k + 1)) (body k s)) : OkOrUb (I n) (loop n body s) := by
  induction n with
  | zero => exact Or.inl ⟨s, rfl, h0⟩
  | succ n ih => exact (ih (fun k hk => h k (by omega))).bind (fun s hs => h n (by omega) s hs)

theorem OkOrUb.collect {α : Type _} [Inhabited α] {n : Nat} {P : Nat → α → Prop} {f : Nat → Except Err α}
    (h : ∀ k < n, OkOrUb (P k) (f k)) : OkOrUb (fun g => ∀ k < n, P k (g k)) (collect n f) := by
  induction n with
  | zero => exact Or.inl ⟨_, rfl, fun k hk => by omega⟩
  | succ n ih =>
    refine (ih (fun k hk => h k (by omega))).bind (fun g hg => (h n (by omega)).bind (fun x hx => ?_))
    refine Or.inl ⟨_, rfl, fun k hk => ?_⟩
    by_cases e : k = n
    · subst e
      simpa using hx
    · simp only [e, if_false]
      exact hg k (by omega)

theorem OkOrUb.mono {α : Type _} {P Q : α → Prop} {x : Except Err α} (h : OkOrUb P x) (hPQ : ∀ a, P a → Q a) :
    OkOrUb Q x := h.imp (fun ⟨a, e, ha⟩ => ⟨a, e, hPQ a ha⟩) id

namespace Mat

/-! ### trsm -/

theorem trsmHH_cut {g : GemmT ℝ} {t t' : Mat ℝ → Mat ℝ → Except Err (Mat ℝ)} (h : ∀ A B, CutUb (t A B) (t' A B))
    (uplo : Uplo) (side : Side) (p q : Nat) (A : Nat → Nat → Mat ℝ) (r s : Nat) (B : Nat → Nat → Mat ℝ) :
    CutUb (trsmHH g t uplo side p q A r s B) (trsmHH g t' uplo side p q A r s B) := by
  have hs : ∀ (n : Nat) (gm : Nat → Nat → Mat ℝ → Mat ℝ → Except Err (Mat ℝ)) (σ : Nat → Nat) (x : Nat → Mat ℝ),
      CutUb (blockSubst n gm (fun i x => do let a ← blockAt p q A i i; t a x) σ x)
        (blockSubst n gm (fun i x => do let a ← blockAt p q A i i; t' a x) σ x) := by
    intro n gm σ x
    unfold blockSubst
    refine CutUb.loop (fun k s => (CutUb.refl _).bind (fun b => ?_)) _
    exact (((CutUb.refl _).bind (fun a => h a _))).bind (fun _ => .refl _)
  unfold trsmHH
  cases uplo <;> cases side <;> dsimp only
  · by_cases hs1 : s = 1
    · rw [if_pos hs1, if_pos hs1]
      exact (hs _ _ _ _).bind (fun _ => .refl _)
    · rw [if_neg hs1, if_neg hs1]
      exact .refl _
  · exact (CutUb.collect (fun i => hs _ _ _ _)).bind (fun _ => .refl _)
  · exact (CutUb.collect (fun i => hs _ _ _ _)).bind (fun _ => .refl _)
  · exact .refl _

theorem trsmDense_or {F : FlLapack} {uplo : Uplo} {side : Side} {A B : Dense ℝ} :
    OkOrUb (fun X => X.rows = B.rows ∧ X.cols = B.cols) (F.trsmDense uplo side A B) := by
  unfold FlLapack.trsmDense
  dsimp only
  split_ifs
  · exact Or.inl ⟨_, rfl, rfl, rfl⟩
  · exact Or.inl ⟨_, rfl, rfl, rfl⟩
  · exact Or.inr rfl

/-- A triangular solve returns, or reports a zero on the diagonal. -/
theorem fl_trsmWith_or {F : FlLapack} {b d : Nat} {g : GemmT ℝ} (hG : GemmStep (fun _ => False) b d g)
    {uplo : Uplo} {side : Side} (fuel : Nat) :
    ∀ A B : Mat ℝ, A.TriRegular b uplo → A.depth ≤ d →
      B.Target (fun _ => False) → B.depth ≤ d →
      Solvable b uplo side A B → A.nRows = side.pick B.nRows B.nCols → 2 * A.depth + 1 ≤ fuel →
      OkOrUb (fun X => B.SameShape X ∧ X.Target (fun _ => False)) (F.trsmWith g uplo side fuel A B) := by
  induction fuel using Nat.strong_induction_on with
  | _ fuel ih =>
  intro A B hA dA hB dB hS hn hfu
  obtain ⟨f, rfl⟩ : ∃ f, fuel = f + 1 := ⟨fuel - 1, by omega⟩
  simp only [FlLapack.trsmWith]
  cases B with
  | empty => cases A <;> exact hS.elim
  | lowRank l => exact hB.all.elim
  | dense y =>
    cases A with
    | lowRank a => exact hS.elim
    | empty => exact hS.elim
    | dense a =>
      simp only [FlLapack.trsmOmm]
      refine (trsmDense_or (F := F) (uplo := uplo) (side := side) (A := a) (B := y)).bind (fun X dm => ?_)
      exact Or.inl ⟨.dense X, rfl, ⟨dm.1.symm, dm.2.symm⟩, target_dense _ _⟩
    | hier p q A =>
      have hD := hA.sub.diagSquare
      have hq : p = q := hD.1
      have wA := hA.wf
      simp only [WF] at wA
      obtain ⟨eS, -, -⟩ := Even.parts hA.even wA.1 wA.2.1
      have n1 : 1 ≤ side.pick p 1 := by cases side <;> simp [Side.pick] ; omega
      have n2 : 1 ≤ side.pick 1 q := by cases side <;> simp [Side.pick] ; omega
      have d0 : (Mat.hier p q A).depth ≠ 0 := by simp only [depth]; omega
      obtain ⟨f', rfl⟩ : ∃ f', f = f' + 1 := ⟨f - 1, by omega⟩
      obtain ⟨bl, hbl, tb, same, hd⟩ := split_target (Q := fun _ => False) (c := y) n1 n2 (by
        cases side
        · show ESplit y.rows p
          rw [← show (Mat.hier p q A).nRows = y.rows from hn]; exact eS
        · exact esplit_one _) (by
        cases side
        · exact esplit_one _
        · show ESplit y.cols q
          rw [← show (Mat.hier p q A).nRows = y.cols from hn, ← hq]; exact eS)
      have hn' : (Mat.hier p q A).nRows = side.pick (Mat.hier (side.pick p 1) (side.pick 1 q) bl).nRows
          (Mat.hier (side.pick p 1) (side.pick 1 q) bl).nCols := by
        rw [hn]
        obtain ⟨s1, s2, -⟩ := same
        rw [s1, s2]
      have hp' : p = side.pick (side.pick p 1) (side.pick 1 q) := by
        cases side
        · rfl
        · exact hq
      have GD := tri_grid_dims hA.wf hA.even hD tb.wf tb.even hp' hn'
      obtain ⟨X, hX, hXs⟩ := trsm_grid_total hG (t := fun A B => fillUb (F.trsmWith g uplo side f' A B) B) hA dA tb
        (fun i hi j hj => by
          obtain ⟨c, e⟩ := hd i hi j hj
          rw [e]
          exact ⟨regular_dense b c, Nat.zero_le _⟩) hS (by
          rintro ⟨-, rfl⟩; rfl) hp' hn' (fun i hi j hj c hc tc => by
          obtain ⟨e, he⟩ := hd i hi j hj
          have hlt : side.pick i j < p := by
            cases side
            · exact hi
            · show j < p
              rw [hq]; exact hj
          have db := depth_block (blk := A) (br := p) (bc := q) hlt (show side.pick i j < q by omega)
          have dm := hc.dims (tb.block hi hj).wf
          rw [he] at hc
          cases c <;> try exact hc.elim
          refine OkOrUb.fill (ih f' (by omega) _ _ (hA.diag hlt) (by omega) tc (Nat.zero_le _)
            ((hA.diag hlt).sub.solvable_dense hS) ?_ (by omega)) ⟨SameShape.refl _, tc⟩
          rw [(GD.1 _ hlt _ hlt).1, dm.1, dm.2, (GD.2 i hi j hj).1, (GD.2 i hi j hj).2.1]
          cases side <;> rfl)
      have sh : (Mat.hier (side.pick p 1) (side.pick 1 q) bl).SameShape
        (.hier (side.pick p 1) (side.pick 1 q) X) := ⟨rfl, rfl, fun i hi j hj => (hXs i hi j hj).1⟩
      obtain ⟨x, hx⟩ := joinDense_total (c := y) hd sh
      obtain ⟨x', ex, e1, e2, -⟩ := joinDense_entries n1 n2 hbl sh hx
      cases ex
      have hX' : OkOrUb (fun Z => Z = .hier (side.pick p 1) (side.pick 1 q) X)
          (F.trsmWith g uplo side (f' + 1) (.hier p q A) (.hier (side.pick p 1) (side.pick 1 q) bl)) :=
        (trsmHH_cut (fun A B => CutUb.fill _ B) uplo side p q A _ _ bl).okOrUb hX rfl
      simp only [FlLapack.trsmOmm, trsmOmm, hbl, except_bind_ok]
      refine hX'.bind (fun Z hZ => ?_)
      subst hZ
      exact Or.inl ⟨.dense x, hx, ⟨e1.symm, e2.symm⟩, target_dense _ _⟩
  | hier r s B =>
    cases A with
    | lowRank a => exact hS.elim
    | empty => exact hS.elim
    | dense a => exact hS.elim
    | hier p q A =>
      obtain ⟨h1, h2, hp, hS⟩ := hS
      have hD := hA.sub.diagSquare
      have hq : p = q := hD.1
      have GD := tri_grid_dims hA.wf hA.even hD hB.wf hB.even hp hn
      obtain ⟨X, hX, hXs⟩ := trsm_grid_total hG (t := fun A B => fillUb (F.trsmWith g uplo side f A B) B) hA dA hB
        (fun i hi j hj => ⟨(hS i hi j hj).1, by
          have := depth_block (blk := B) hi hj
          omega⟩) h1 h2 hp hn (fun i hi j hj c hc tc => by
          have hlt : side.pick i j < p := by cases side <;> rw [hp] <;> assumption
          have db := depth_block (blk := A) (br := p) (bc := q) hlt (show side.pick i j < q by omega)
          have db' := depth_block (blk := B) hi hj
          have dm := hc.dims (hB.block hi hj).wf
          refine OkOrUb.fill (ih f (by omega) _ _ (hA.diag hlt) (by omega) tc
            (by rw [hc.depth]; omega) ((hS i hi j hj).2.shape hc tc.wf) ?_ (by omega)) ⟨SameShape.refl _, tc⟩
          rw [(GD.1 _ hlt _ hlt).1, dm.1, dm.2, (GD.2 i hi j hj).1, (GD.2 i hi j hj).2.1]
          cases side <;> rfl)
      have sh : (Mat.hier r s B).SameShape (.hier r s X) := ⟨rfl, rfl, fun i hi j hj => (hXs i hi j hj).1⟩
      exact (trsmHH_cut (fun A B => CutUb.fill _ B) uplo side p q A _ _ B).okOrUb hX ⟨sh, hB.same sh⟩

/-! ### getrf -/

/-- The shapes of the factors. -/
structure LuShape (b : Nat) (A L U : Mat ℝ) : Prop where
  low : L.TriRegular b .lower
  up : U.TriRegular b .upper
  ld : DiagShape A L
  ud : DiagShape A U
  lrows : L.nRows = A.nRows
  lcols : L.nCols = A.nCols
  urows : U.nRows = A.nRows
  ucols : U.nCols = A.nCols
  ldep : L.depth ≤ A.depth
  udep : U.depth ≤ A.depth

/-- Shapes during the factorization. -/
structure LuShapes (b n : Nat) (A0 : Nat → Nat → Mat ℝ) (m : Nat) (st : LuState ℝ) : Prop where
  todo : ∀ i < n, ∀ j < n, m ≤ i → m ≤ j → (A0 i j).SameShape (st.2.1 i j) ∧ (st.2.1 i j).Target (fun _ => False)
  diag : ∀ t < n, t < m → LuShape b (A0 t t) (st.1 t t) (st.2.1 t t)
  low : ∀ t < n, t < m → ∀ a < n, t < a → (A0 a t).SameShape (st.1 a t) ∧ (st.1 a t).WF ∧
    st.2.1 a t = .empty (A0 a t).nRows (A0 a t).nCols
  up : ∀ t < n, t < m → ∀ c < n, t < c → (A0 t c).SameShape (st.2.1 t c) ∧ (st.2.1 t c).WF ∧
    st.1 t c = .empty (A0 t c).nRows (A0 t c).nCols

theorem fl_getrfStep_or {b d : Nat} {g : GemmT ℝ} (hG : GemmStep (fun _ => False) b d g)
    {su sl : Mat ℝ → Mat ℝ → Except Err (Mat ℝ)}
    (hsu : ∀ A B : Mat ℝ, A.TriRegular b .upper → A.depth ≤ d → B.Target (fun _ => False) → B.depth ≤ d →
      Solvable b .upper .right A B → A.nRows = B.nCols →
      OkOrUb (fun X => B.SameShape X ∧ X.Target (fun _ => False)) (su A B))
    (hsl : ∀ A B : Mat ℝ, A.TriRegular b .lower → A.depth ≤ d → B.Target (fun _ => False) → B.depth ≤ d →
      Solvable b .lower .left A B → A.nRows = B.nRows →
      OkOrUb (fun X => B.SameShape X ∧ X.Target (fun _ => False)) (sl A B))
    {n : Nat} {A0 : Nat → Nat → Mat ℝ} (hA : (Mat.hier n n A0).Regular b) (dA : (Mat.hier n n A0).depth ≤ d)
    (hS : (Mat.hier n n A0).LuSolvable b)
    {f : Mat ℝ → Except Err (Mat ℝ × Mat ℝ × Bool)}
    (hf : ∀ A : Mat ℝ, A.Regular b → A.Target (fun _ => False) → A.LuSolvable b →
      A.depth + 1 ≤ (Mat.hier n n A0).depth → OkOrUb (fun x => LuShape b A x.1 x.2.1) (f A))
    {m : Nat} (hm : m < n) {st : LuState ℝ} (hI : LuShapes b n A0 m st) :
    OkOrUb (LuShapes b n A0 (m + 1)) (getrfStep g f su sl n n m st) := by
  have hD := hS.luFits.diagSquare
  have hA' := hA.wf
  simp only [WF] at hA'
  obtain ⟨hn0, -, hAd⟩ := hA'
  have hw := hD.widths hA.wf
  have hAb : ∀ i < n, ∀ j < n, (A0 i j).nRows = (A0 i 0).nRows ∧ (A0 i j).nCols = (A0 j 0).nRows :=
    fun i hi j hj => ⟨(hAd i hi j hj).2.1, by rw [(hAd i hi j hj).2.2, hw j hj]⟩
  have dAb : ∀ i < n, ∀ j < n, (A0 i j).depth + 1 ≤ (Mat.hier n n A0).depth :=
    fun i hi j hj => depth_block hi hj
  have td : ∀ i < n, ∀ j < n, m ≤ i → m ≤ j → (A0 i j).SameShape (st.2.1 i j) ∧ (st.2.1 i j).Regular b ∧
      (st.2.1 i j).Target (fun _ => False) ∧
      (st.2.1 i j).nRows = (A0 i 0).nRows ∧ (st.2.1 i j).nCols = (A0 j 0).nRows ∧
      (st.2.1 i j).depth = (A0 i j).depth := by
    intro i hi j hj h1 h2
    obtain ⟨sh, tg⟩ := hI.todo i hi j hj h1 h2
    have dd := sh.dims (hAd i hi j hj).1
    exact ⟨sh, sh.regular tg.wf (hA.block hi hj), tg, dd.1.trans (hAb i hi j hj).1,
      dd.2.trans (hAb i hi j hj).2, sh.depth⟩
  obtain ⟨dsh, dr, dt, d0, d1, dde⟩ := td m hm m hm le_rfl le_rfl
  have dS : (st.2.1 m m).LuSolvable b := (hS.2.1 m hm).shape dsh dr.wf
  unfold getrfStep
  simp only [blockAt, assertM, hm, decide_true, if_true, except_bind_ok]
  refine (hf (st.2.1 m m) dr dt dS (by rw [dde]; exact dAb m hm m hm)).bind (fun x P => ?_)
  have dm := dAb m hm m hm
  have Pl := P.ldep
  have Pu := P.udep
  refine (OkOrUb.collect (P := fun a X => (st.2.1 (m + 1 + a) m).SameShape X ∧ X.Target (fun _ => False))
    (fun a ha => ?_)).bind (fun lc hlc => ?_)
  · obtain ⟨sh, r, t, e0, e1, de⟩ := td (m + 1 + a) (by omega) m hm (by omega) le_rfl
    have db := dAb (m + 1 + a) (by omega) m hm
    refine hsu _ _ P.up (by omega) t (by omega) ?_ ?_
    · exact P.ud.solvable ((dsh.diagShape (hD.2 m hm)).solvable
        ((hS.2.2 m hm _ (by omega) (by omega)).1.shape sh r.wf))
    · rw [P.urows, d0, e1]
  refine (OkOrUb.collect (P := fun a X => (st.2.1 m (m + 1 + a)).SameShape X ∧ X.Target (fun _ => False))
    (fun a ha => ?_)).bind (fun ur hur => ?_)
  · obtain ⟨sh, r, t, e0, e1, de⟩ := td m hm (m + 1 + a) (by omega) le_rfl (by omega)
    have db := dAb m hm (m + 1 + a) (by omega)
    refine hsl _ _ P.low (by omega) t (by omega) ?_ ?_
    · exact P.ld.solvable ((dsh.diagShape (hD.2 m hm)).solvable
        ((hS.2.2 m hm _ (by omega) (by omega)).2.shape sh r.wf))
    · rw [P.lrows, d0, e0]
  refine (OkOrUb.collect (n := n - (m + 1))
    (f := fun i => collect (n - (m + 1)) (fun c => g (lc i) (ur c) (st.2.1 (m + 1 + i) (m + 1 + c)) (-1) 1 false false))
    (P := fun a X => ∀ c < n - (m + 1),
      (st.2.1 (m + 1 + a) (m + 1 + c)).SameShape (X c) ∧ (X c).Target (fun _ => False))
    (fun a ha => OkOrUb.collect (P := fun c X => (st.2.1 (m + 1 + a) (m + 1 + c)).SameShape X ∧
      X.Target (fun _ => False)) (fun c hc => ?_))).bind (fun up hup => ?_)
  · obtain ⟨-, r1, t1, e10, e11, de1⟩ := td (m + 1 + a) (by omega) m hm (by omega) le_rfl
    obtain ⟨-, r2, t2, e20, e21, de2⟩ := td m hm (m + 1 + c) (by omega) le_rfl (by omega)
    obtain ⟨-, r3, t3, e30, e31, de3⟩ := td (m + 1 + a) (by omega) (m + 1 + c) (by omega) (by omega) (by omega)
    have b1 := dAb (m + 1 + a) (by omega) m hm
    have b2 := dAb m hm (m + 1 + c) (by omega)
    have b3 := dAb (m + 1 + a) (by omega) (m + 1 + c) (by omega)
    obtain ⟨s1, g1⟩ := hlc a ha
    obtain ⟨s2, g2⟩ := hur c hc
    have dd1 := s1.dims r1.wf
    have dd2 := s2.dims r2.wf
    refine Or.inl (hG (s1.regular g1.wf r1) (s2.regular g2.wf r2) r3
      (by rw [s1.depth]; omega) (by rw [s2.depth]; omega) (by omega) (SameShape.refl _) t3 ⟨?_, ?_, ?_⟩ _ _)
    · show (lc a).nRows = _
      rw [dd1.1, e10, e30]
    · show (lc a).nCols = (ur c).nRows
      rw [dd1.2, dd2.1, e11, e20]
    · show (ur c).nCols = _
      rw [dd2.2, e21, e31]
  refine Or.inl ⟨_, rfl, ?_, ?_, ?_, ?_⟩
  · intro i hi j hj h1 h2
    dsimp only
    rw [if_neg (by omega), if_neg (by omega), if_neg (by omega), if_pos (by omega)]
    obtain ⟨s, t⟩ := hup (i - (m + 1)) (by omega) (j - (m + 1)) (by omega)
    rw [show m + 1 + (i - (m + 1)) = i by omega, show m + 1 + (j - (m + 1)) = j by omega] at s
    exact ⟨(td i hi j hj (by omega) (by omega)).1.trans s, t⟩
  · intro t ht htm
    dsimp only
    by_cases e : t = m
    · subst e
      rw [if_pos ⟨rfl, rfl⟩, if_pos ⟨rfl, rfl⟩]
      have dd := dsh.dims (hAd t hm t hm).1
      have ds := dsh.diagShape (hD.2 t hm)
      exact ⟨P.low, P.up, ds.trans P.ld, ds.trans P.ud, P.lrows.trans dd.1, P.lcols.trans dd.2, P.urows.trans dd.1,
        P.ucols.trans dd.2, by omega, by omega⟩
    · rw [if_neg (by omega), if_neg (by omega), if_neg (by omega), if_neg (by omega), if_neg (by omega),
        if_neg (by omega), if_neg (by omega)]
      exact hI.diag t ht (by omega)
  · intro t ht htm a ha hta
    dsimp only
    by_cases e : t = m
    · subst e
      rw [if_neg (by omega), if_pos ⟨rfl, hta⟩, if_neg (by omega), if_pos ⟨rfl, hta⟩]
      obtain ⟨s, g1⟩ := hlc (a - (t + 1)) (by omega)
      rw [show t + 1 + (a - (t + 1)) = a by omega] at s
      have q := td a ha t hm (by omega) le_rfl
      refine ⟨q.1.trans s, g1.wf, ?_⟩
      rw [q.2.2.2.1, q.2.2.2.2.1, (hAb a ha t ht).1, (hAb a ha t ht).2]
    · rw [if_neg (by omega), if_neg (by omega), if_neg (by omega), if_neg (by omega), if_neg (by omega),
        if_neg (by omega), if_neg (by omega)]
      exact hI.low t ht (by omega) a ha hta
  · intro t ht htm c hc htc
    dsimp only
    by_cases e : t = m
    · subst e
      rw [if_neg (by omega), if_neg (by omega), if_pos ⟨rfl, htc⟩, if_neg (by omega), if_neg (by omega),
        if_pos ⟨rfl, htc⟩]
      obtain ⟨s, g1⟩ := hur (c - (t + 1)) (by omega)
      rw [show t + 1 + (c - (t + 1)) = c by omega] at s
      have q := td t hm c hc le_rfl (by omega)
      refine ⟨q.1.trans s, g1.wf, ?_⟩
      rw [q.2.2.2.1, q.2.2.2.2.1, (hAb t ht c hc).1, (hAb t ht c hc).2]
    · rw [if_neg (by omega), if_neg (by omega), if_neg (by omega), if_neg (by omega), if_neg (by omega),
        if_neg (by omega), if_neg (by omega)]
      exact hI.up t ht (by omega) c hc htc

theorem fl_getrfWith_or {b d : Nat} {g : GemmT ℝ} (hG : GemmStep (fun _ => False) b d g)
    {su sl : Mat ℝ → Mat ℝ → Except Err (Mat ℝ)}
    (hsu : ∀ A B : Mat ℝ, A.TriRegular b .upper → A.depth ≤ d → B.Target (fun _ => False) → B.depth ≤ d →
      Solvable b .upper .right A B → A.nRows = B.nCols →
      OkOrUb (fun X => B.SameShape X ∧ X.Target (fun _ => False)) (su A B))
    (hsl : ∀ A B : Mat ℝ, A.TriRegular b .lower → A.depth ≤ d → B.Target (fun _ => False) → B.depth ≤ d →
      Solvable b .lower .left A B → A.nRows = B.nRows →
      OkOrUb (fun X => B.SameShape X ∧ X.Target (fun _ => False)) (sl A B))
    (lu : Dense ℝ → Dense ℝ × Bool) (fuel : Nat) :
    ∀ A : Mat ℝ, A.Regular b → A.Target (fun _ => False) → A.LuSolvable b → A.depth ≤ d → A.depth + 1 ≤ fuel →
      OkOrUb (fun x => LuShape b A x.1 x.2.1) (getrfWith lu g su sl fuel A) := by
  induction fuel with
  | zero => intro A _ _ _ _ h; omega
  | succ fuel ih =>
    intro A hA hq hS dA hfu
    cases A with
    | lowRank a => exact hS.elim
    | empty => exact hS.elim
    | dense a =>
      have ha : a.rows = a.cols := hS
      refine Or.inl ⟨(.dense ⟨a.rows, a.cols, fun i j => if j < i then (lu a).1.val i j else if i = j then 1 else 0⟩,
        .dense ⟨a.rows, a.cols, fun i j => if j < i then 0 else (lu a).1.val i j⟩, (lu a).2), ?_,
        ⟨trivial, trivial, ha⟩, ⟨trivial, trivial, ha⟩, ⟨rfl, rfl⟩, ⟨rfl, rfl⟩, rfl, rfl, rfl, rfl, le_rfl, le_rfl⟩
      simp only [getrfWith, getrfDense, assertM, ha, le_refl, decide_true, if_true, except_bind_ok]
    | hier p q A0 =>
      obtain rfl : p = q := hS.1
      have hF := hS.luFits
      have hD := hF.diagSquare
      have hA' := hA.wf
      simp only [WF] at hA'
      obtain ⟨hn0, -, hAd⟩ := hA'
      have dAb : ∀ i < p, ∀ j < p, (A0 i j).depth + 1 ≤ (Mat.hier p p A0).depth :=
        fun i hi j hj => depth_block hi hj
      refine (OkOrUb.loop (LuShapes b p A0)
        (s := ((fun _ _ => .empty 0 0, A0, false) : LuState ℝ))
        ⟨fun i hi j hj _ _ => ⟨SameShape.refl _, hq.block hi hj⟩, fun t _ ht => by omega, fun t _ ht => by omega,
          fun t _ ht => by omega⟩
        (fun m hm st hI => fl_getrfStep_or hG hsu hsl hA dA hS
          (fun A h1 h2 h3 h4 => ih A h1 h2 h3 (by omega) (by omega)) hm hI)).bind (fun st hI => ?_)
      have lb : ∀ i < p, ∀ j < p, (st.1 i j).WF ∧ (st.1 i j).Even ∧ (st.1 i j).nRows = (A0 i j).nRows ∧
          (st.1 i j).nCols = (A0 i j).nCols ∧ (st.1 i j).depth ≤ (Mat.hier p p A0).depth - 1 := by
        intro i hi j hj
        have db := dAb i hi j hj
        rcases Nat.lt_trichotomy i j with hlt | heq | hgt
        · rw [(hI.up i hi hi j hj hlt).2.2]
          exact ⟨trivial, trivial, rfl, rfl, Nat.zero_le _⟩
        · subst heq
          have P := hI.diag i hi hi
          have Pl := P.ldep
          exact ⟨P.low.wf, P.low.even, P.lrows, P.lcols, by omega⟩
        · obtain ⟨h2, h1, -⟩ := hI.low j hj hj i hi hgt
          have dd := h2.dims (hAd i hi j hj).1
          exact ⟨h1, (h2.regular h1 (hA.block hi hj)).even, dd.1, dd.2, by rw [h2.depth]; omega⟩
      have ub : ∀ i < p, ∀ j < p, (st.2.1 i j).WF ∧ (st.2.1 i j).Even ∧ (st.2.1 i j).nRows = (A0 i j).nRows ∧
          (st.2.1 i j).nCols = (A0 i j).nCols ∧ (st.2.1 i j).depth ≤ (Mat.hier p p A0).depth - 1 := by
        intro i hi j hj
        have db := dAb i hi j hj
        rcases Nat.lt_trichotomy i j with hlt | heq | hgt
        · obtain ⟨h2, h1, -⟩ := hI.up i hi hi j hj hlt
          have dd := h2.dims (hAd i hi j hj).1
          exact ⟨h1, (h2.regular h1 (hA.block hi hj)).even, dd.1, dd.2, by rw [h2.depth]; omega⟩
        · subst heq
          have P := hI.diag i hi hi
          have Pl := P.udep
          exact ⟨P.up.wf, P.up.even, P.urows, P.ucols, by omega⟩
        · rw [(hI.low j hj hj i hi hgt).2.2]
          exact ⟨trivial, trivial, rfl, rfl, Nat.zero_le _⟩
      obtain ⟨hpb, -, -⟩ := hA.sub
      have d0 : 1 ≤ (Mat.hier p p A0).depth := by simp only [depth]; omega
      have wf : ∀ B : Nat → Nat → Mat ℝ, (∀ i < p, ∀ j < p, (B i j).WF ∧ (B i j).Even ∧
          (B i j).nRows = (A0 i j).nRows ∧ (B i j).nCols = (A0 i j).nCols ∧
          (B i j).depth ≤ (Mat.hier p p A0).depth - 1) → (Mat.hier p p B).WF ∧ (Mat.hier p p B).Even ∧
          (Mat.hier p p B).nRows = (Mat.hier p p A0).nRows ∧ (Mat.hier p p B).nCols = (Mat.hier p p A0).nCols ∧
          (Mat.hier p p B).depth ≤ (Mat.hier p p A0).depth := by
        intro B h
        refine ⟨⟨hn0, hn0, fun i hi j hj => ⟨(h i hi j hj).1, ?_, ?_⟩⟩,
          hA.even.of_dims hn0 hn0 (fun i hi j hj => ⟨(h i hi j hj).2.1, (h i hi j hj).2.2.1,
            (h i hi j hj).2.2.2.1⟩), ?_, ?_,
          (depth_hier_le (fun i hi j hj => (h i hi j hj).2.2.2.2)).trans (by omega)⟩
        · rw [(h i hi j hj).2.2.1, (h i hi 0 hn0).2.2.1, (hAd i hi j hj).2.1]
        · rw [(h i hi j hj).2.2.2.1, (h 0 hn0 j hj).2.2.2.1, (hAd i hi j hj).2.2]
        · simp only [nRows]
          exact Finset.sum_congr rfl fun i hi => (h i (mem_range.1 hi) 0 hn0).2.2.1
        · simp only [nCols]
          exact Finset.sum_congr rfl fun i hi => (h 0 hn0 i (mem_range.1 hi)).2.2.2.1
      obtain ⟨l1, l2, l3, l4, l5⟩ := wf _ lb
      obtain ⟨u1, u2, u3, u4, u5⟩ := wf _ ub
      refine Or.inl ⟨_, rfl, ⟨l1, l2, ?_⟩, ⟨u1, u2, ?_⟩, ?_, ?_, l3, l4, u3, u4, l5, u5⟩
      · refine ⟨hpb, hpb, fun i hi => (hI.diag i hi hi).low.sub, fun i hi k hk (hik : k < i) => ?_⟩
        obtain ⟨h2, h1, -⟩ := hI.low k hk hk i hi hik
        exact (h2.regular h1 (hA.block hi hk)).sub
      · refine ⟨hpb, hpb, fun i hi => (hI.diag i hi hi).up.sub, fun i hi k hk (hik : i < k) => ?_⟩
        obtain ⟨h2, h1, -⟩ := hI.up i hi hi k hk hik
        exact (h2.regular h1 (hA.block hi hk)).sub
      · exact ⟨rfl, rfl, fun i hi => (hI.diag i hi hi).ld⟩
      · exact ⟨rfl, rfl, fun i hi => (hI.diag i hi hi).ud⟩

/-- LU factorization returns factors of the shapes expected, or reports a zero pivot. -/
theorem fl_getrf_or {F : FlLapack} {b : Nat} (hb : 2 ≤ b) {A : Mat ℝ} (hA : A.Regular b) (hd : A.DenseLeaves)
    (hS : A.LuSolvable b) {fuel : Nat} (hfuel : 6 * A.depth + 2 ≤ fuel) :
    OkOrUb (fun x => LuShape b A x.1 x.2.1) (F.getrf fuel A) := by
  have hG : GemmStep (fun _ => False) b A.depth (F.gemm fuel) := fl_gemmStep F.toFlBlas hb (by omega)
  exact fl_getrfWith_or hG
    (fun X B h1 h2 h3 h4 h5 h6 => fl_trsmWith_or hG fuel X B h1 h2 h3 h4 h5 h6 (by omega))
    (fun X B h1 h2 h3 h4 h5 h6 => fl_trsmWith_or hG fuel X B h1 h2 h3 h4 h5 h6 (by omega))
    _ fuel A hA ⟨hA.wf, hd.noEmpty, hd.square, hA.even, hd.all _⟩ hS le_rfl (by omega)

end Mat
end Verif
