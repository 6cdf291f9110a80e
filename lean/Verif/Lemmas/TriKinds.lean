import Verif.Lemmas.Lu
import Verif.Spec.Dispatch

/-
Triangular solves and LU factorization that return: structure of the operands.
-/

namespace Verif
open Finset

variable {R : Type}

namespace Mat

theorem SameShape.solveLeaf {uplo : Uplo} {side : Side} {A a : Mat R} (h : A.SameShape a)
    (hs : a.SolveLeaf uplo side) : A.SolveLeaf uplo side := by
  induction A generalizing a with
  | dense d => trivial
  | lowRank l => cases a <;> first | exact h.elim | exact hs.elim
  | empty => cases a <;> first | exact h.elim | exact hs.elim
  | hier p q A ih =>
    cases a <;> try exact h.elim
    obtain ⟨rfl, rfl, h⟩ := h
    exact ⟨hs.1, fun i hi hj => ih i i (h i hi i hj) (hs.2 i hi hj)⟩

theorem SameShape.solveKinds {uplo : Uplo} {side : Side} {A a B b : Mat R} (hA : A.SameShape a)
    (hB : B.SameShape b) (hs : SolveKinds uplo side a b) : SolveKinds uplo side A B := by
  induction B generalizing A a b with
  | dense d =>
    cases b <;> try exact hB.elim
    have hs : a.SolveLeaf uplo side := by cases a <;> exact hs
    have := hA.solveLeaf hs
    cases A <;> exact this
  | lowRank d =>
    cases b <;> try exact hB.elim
    have hs : a.SolveLeaf uplo side := by cases a <;> exact hs
    have := hA.solveLeaf hs
    cases A <;> exact this
  | empty =>
    cases b <;> try exact hB.elim
    cases a <;> exact hs.elim
  | hier r s B ih =>
    cases b <;> try exact hB.elim
    cases a <;> try exact hs.elim
    cases A <;> try exact hA.elim
    obtain ⟨rfl, rfl, hB⟩ := hB
    obtain ⟨rfl, rfl, hA⟩ := hA
    obtain ⟨h1, h2, h3, h4, h⟩ := hs
    refine ⟨h1, h2, h3, h4, fun i hi j hj => ih i j (hA _ ?_ _ ?_) (hB i hi j hj) (h i hi j hj)⟩
    · exact lt_of_lt_of_le (by cases side <;> assumption) h3
    · exact lt_of_lt_of_le (by cases side <;> assumption) h4

theorem SameShape.luKinds {A a : Mat R} (h : A.SameShape a) (hs : a.LuKinds) : A.LuKinds := by
  induction A generalizing a with
  | dense d => trivial
  | lowRank l => cases a <;> first | exact h.elim | exact hs.elim
  | empty => cases a <;> first | exact h.elim | exact hs.elim
  | hier p q A ih =>
    cases a <;> try exact h.elim
    obtain ⟨rfl, rfl, h⟩ := h
    obtain ⟨hpq, hs⟩ := hs
    exact ⟨hpq, fun i hi => ⟨ih i i (h i hi i (by omega)) (hs i hi).1,
      fun k hk hik => (h i hi i (by omega)).solveKinds (h k hk i (by omega)) ((hs i hi).2.1 k hk hik),
      fun k hk hik => (h i hi i (by omega)).solveKinds (h i hi k hk) ((hs i hi).2.2 k hk hik)⟩⟩

theorem DiagShape.solveLeaf {uplo : Uplo} {side : Side} {A a : Mat R} (h : DiagShape A a)
    (hs : a.SolveLeaf uplo side) : A.SolveLeaf uplo side := by
  induction A generalizing a with
  | dense d => trivial
  | lowRank l => cases a <;> exact h.elim
  | empty => cases a <;> exact h.elim
  | hier p q A ih =>
    cases a <;> try exact h.elim
    obtain ⟨rfl, rfl, h⟩ := h
    exact ⟨hs.1, fun i hi hj => ih i i (h i hi) (hs.2 i hi hj)⟩

theorem DiagShape.solveKinds {uplo : Uplo} {side : Side} {A a B : Mat R} (hA : DiagShape A a)
    (hs : SolveKinds uplo side a B) : SolveKinds uplo side A B := by
  induction B generalizing A a with
  | dense d =>
    have hs : a.SolveLeaf uplo side := by cases a <;> exact hs
    have := hA.solveLeaf hs
    cases A <;> exact this
  | lowRank d =>
    have hs : a.SolveLeaf uplo side := by cases a <;> exact hs
    have := hA.solveLeaf hs
    cases A <;> exact this
  | empty => cases a <;> exact hs.elim
  | hier r s B ih =>
    cases a <;> try exact hs.elim
    cases A <;> try exact hA.elim
    obtain ⟨rfl, rfl, hA⟩ := hA
    obtain ⟨h1, h2, h3, h4, h⟩ := hs
    refine ⟨h1, h2, h3, h4, fun i hi j hj => ih i j (hA _ ?_) (h i hi j hj)⟩
    exact lt_of_lt_of_le (by cases side <;> assumption) h3

theorem SolveKinds.dense {uplo : Uplo} {side : Side} {A : Mat R} {d : Dense R}
    (h : SolveKinds uplo side A (.dense d)) : A.SolveLeaf uplo side := by
  cases A <;> exact h

section
variable [Field R] [DecidableEq R]

theorem trsmWith_kinds {ex : Prop} {g : GemmT R} (hg : GemmOk ex False g) {side : Side} {uplo : Uplo}
    (fuel : Nat) : ∀ A B B', A.WF → B.WF → B.Square →
      trsmWith g uplo side fuel A B = .ok B' → SolveKinds uplo side A B := by
  induction fuel with
  | zero => intro A B B' _ _ _ h; cases h
  | succ fuel ih =>
    intro A B B' hA hB hBs h
    simp only [trsmWith] at h
    cases B with
    | empty => cases A <;> cases h
    | lowRank b =>
      have h : (do
        let X ← trsmWith g uplo side fuel A (.dense (b.outer side))
        let X ← X.asDense
        .ok (.lowRank (b.setOuter side X))) = Except.ok B' := by
        rw [← h]; cases A <;> rfl
      simp only [except_bind_eq_ok] at h
      obtain ⟨X, hX, d, hd, h⟩ := h
      have := (ih A (.dense (b.outer side)) X hA trivial trivial hX).dense
      cases A <;> exact this
    | dense b =>
      cases A with
      | lowRank a => cases h
      | empty => cases h
      | dense a => trivial
      | hier p q A =>
        have hA0 := hA
        simp only [WF] at hA0
        simp only [trsmOmm, except_bind_eq_ok] at h
        obtain ⟨BH, hBH, BH', hBH', h⟩ := h
        have h1 : 1 ≤ side.pick p 1 := by cases side <;> simp [Side.pick] ; omega
        have h2 : 1 ≤ side.pick 1 q := by cases side <;> simp [Side.pick] ; omega
        obtain ⟨bl, rfl, w, -, dl⟩ := split_dense_leaves h1 h2 hBH
        have K := ih _ _ _ hA w (dense_leaves dl).square hBH'
        refine ⟨K.1, fun i hi hj => ?_⟩
        have key : ∀ x < side.pick p 1, ∀ y < side.pick 1 q, side.pick x y = i →
            (A i i).SolveLeaf uplo side := by
          intro x hx y hy e
          have := K.2.2.2.2 x hx y hy
          obtain ⟨d, hd⟩ := dl x hx y hy
          rw [hd, e] at this
          exact this.dense
        cases side
        · exact key i hi 0 Nat.one_pos rfl
        · exact key 0 Nat.one_pos i hj rfl
    | hier r s B =>
      cases A with
      | lowRank a => cases h
      | empty => cases h
      | dense a => cases h
      | hier p q A =>
        have hA0 := hA
        simp only [WF] at hA0
        obtain ⟨X, -, -, b1, b2, key⟩ := trsmHH_shape hg (trsmWith_shape hg fuel) hA hB hBs h
        simp only [trsmOmm, trsmHH] at h
        refine ⟨?_, ?_, b1, b2, fun i hi j hj => ?_⟩
        · rintro ⟨rfl, rfl⟩
          cases h
        · rintro ⟨rfl, rfl⟩
          by_contra hs
          simp only [hs, if_false] at h
          cases h
        · obtain ⟨b, -, bw, bs, bsh, -, hb⟩ := key i hi j hj
          have hp : side.pick i j < p := lt_of_lt_of_le (by cases side <;> assumption) b1
          have hq : side.pick i j < q := lt_of_lt_of_le (by cases side <;> assumption) b2
          exact (SameShape.refl _).solveKinds bsh (ih _ _ _ (hA0.2.2 _ hp _ hq).1 bw bs hb)

/-- What is known of the factors of a factorization that returned. -/
structure LuKindsPost (A L U : Mat R) : Prop where
  kinds : A.LuKinds
  lwf : L.WF
  uwf : U.WF
  ld : DiagShape A L
  ud : DiagShape A U
  ldim : L.nRows = A.nRows ∧ L.nCols = A.nCols
  udim : U.nRows = A.nRows ∧ U.nCols = A.nCols

structure LuKindsInv (p q : Nat) (A0 : Nat → Nat → Mat R) (m : Nat) (st : LuState R) : Prop where
  todo : ∀ a < p, ∀ b < q, m ≤ a → m ≤ b → (st.2.1 a b).WF ∧ (st.2.1 a b).Square ∧
    (A0 a b).SameShape (st.2.1 a b)
  done : ∀ a < p, ∀ b < q, a < m ∨ b < m → (st.1 a b).WF ∧ (st.2.1 a b).WF ∧
    ((st.1 a b).nRows = (A0 a b).nRows ∧ (st.1 a b).nCols = (A0 a b).nCols) ∧
    ((st.2.1 a b).nRows = (A0 a b).nRows ∧ (st.2.1 a b).nCols = (A0 a b).nCols)
  diag : ∀ t < p, t < m → t < q ∧ DiagShape (A0 t t) (st.1 t t) ∧ DiagShape (A0 t t) (st.2.1 t t)
  kinds : ∀ t < p, t < m → (A0 t t).LuKinds ∧
      (∀ k < p, t < k → SolveKinds .upper .right (A0 t t) (A0 k t)) ∧
      ∀ k < q, t < k → SolveKinds .lower .left (A0 t t) (A0 t k)

omit [Field R] [DecidableEq R] in
theorem SameShape.diagShape' {A B C : Mat R} (h : A.SameShape B) (hd : DiagShape B C) (hk : A.LuKinds) :
    DiagShape A C := by
  induction A generalizing B C with
  | dense d =>
    cases B <;> try exact h.elim
    cases C <;> try exact hd.elim
    exact ⟨h.1.trans hd.1, h.2.trans hd.2⟩
  | lowRank l => exact hk.elim
  | empty => exact hk.elim
  | hier p q A ih =>
    cases B <;> try exact h.elim
    cases C <;> try exact hd.elim
    obtain ⟨rfl, rfl, h⟩ := h
    obtain ⟨rfl, rfl, hd⟩ := hd
    obtain ⟨hpq, hk⟩ := hk
    exact ⟨rfl, rfl, fun i hi => ih i i (h i hi i (by omega)) (hd i hi) (hk i hi).1⟩

theorem getrfStep_kinds {ex : Prop} {g : GemmT R} (hg : GemmOk ex False g) {p q : Nat}
    {A0 : Nat → Nat → Mat R} (hA : (Mat.hier p q A0).WF)
    {f : Mat R → Except Err (Mat R × Mat R × Bool)}
    (hf : ∀ A r, A.WF → A.Square → f A = .ok r → LuKindsPost A r.1 r.2.1) {fs : Nat}
    {i : Nat} (hi : i < p) {st st' : LuState R} (hI : LuKindsInv p q A0 i st)
    (h : getrfStep g f (trsmWith g .upper .right fs) (trsmWith g .lower .left fs) p q i st = .ok st') :
    LuKindsInv p q A0 (i + 1) st' := by
  obtain ⟨Lc, Ac, fl⟩ := st
  simp only [getrfStep, except_bind_eq_ok] at h
  obtain ⟨d, hd, x, hx, lc, hlc, ur, hur, up, hup, h⟩ := h
  cases h
  obtain ⟨-, hiq, rfl⟩ := blockAt_ok hd
  simp only [WF] at hA
  obtain ⟨-, -, hAd⟩ := hA
  obtain ⟨dw, ds, dsh⟩ := hI.todo i hi i hiq le_rfl le_rfl
  simp only at dw ds dsh
  have P := hf _ _ dw ds hx
  have hk := dsh.luKinds P.kinds
  have dl := dsh.diagShape' P.ld hk
  have du := dsh.diagShape' P.ud hk
  have dd := dsh.dims (hAd i hi i hiq).1
  have lcP : ∀ a < p, i < a → (lc (a - (i + 1))).WF ∧ (lc (a - (i + 1))).Square ∧
      (A0 a i).SameShape (lc (a - (i + 1))) ∧ SolveKinds .upper .right (A0 i i) (A0 a i) := by
    intro a ha hia
    have e := collect_ok hlc (a - (i + 1)) (by omega)
    rw [show i + 1 + (a - (i + 1)) = a by omega] at e
    obtain ⟨bw, bs, bsh⟩ := hI.todo a ha i hiq (by omega) le_rfl
    have S := trsmWith_shape hg fs _ _ _ P.uwf bw bs e
    exact ⟨S.1, S.2.1, bsh.trans S.2.2,
      (SameShape.refl _).solveKinds bsh (du.solveKinds (trsmWith_kinds hg fs _ _ _ P.uwf bw bs e))⟩
  have urP : ∀ b < q, i < b → (ur (b - (i + 1))).WF ∧ (ur (b - (i + 1))).Square ∧
      (A0 i b).SameShape (ur (b - (i + 1))) ∧ SolveKinds .lower .left (A0 i i) (A0 i b) := by
    intro b hb hib
    have e := collect_ok hur (b - (i + 1)) (by omega)
    rw [show i + 1 + (b - (i + 1)) = b by omega] at e
    obtain ⟨bw, bs, bsh⟩ := hI.todo i hi b hb le_rfl (by omega)
    have S := trsmWith_shape hg fs _ _ _ P.lwf bw bs e
    exact ⟨S.1, S.2.1, bsh.trans S.2.2,
      (SameShape.refl _).solveKinds bsh (dl.solveKinds (trsmWith_kinds hg fs _ _ _ P.lwf bw bs e))⟩
  have upP : ∀ a < p, i < a → ∀ b < q, i < b → (up (a - (i + 1)) (b - (i + 1))).WF ∧
      (up (a - (i + 1)) (b - (i + 1))).Square ∧ (A0 a b).SameShape (up (a - (i + 1)) (b - (i + 1))) := by
    intro a ha hia b hb hib
    have e := collect2_ok hup (a - (i + 1)) (by omega) (b - (i + 1)) (by omega)
    rw [show i + 1 + (a - (i + 1)) = a by omega, show i + 1 + (b - (i + 1)) = b by omega] at e
    obtain ⟨bw, bs, bsh⟩ := hI.todo a ha b hb (by omega) (by omega)
    have G := (hg _ _ _ _ _ _ _ _ (lcP a ha hia).1 (urP b hb hib).1 bw bs (TransSafe_ff _ _)
      (fun h => h.elim) e).2
    exact ⟨G.wf, G.sqr, bsh.trans G.shape⟩
  refine ⟨?_, ?_, ?_, ?_⟩
  · intro a ha b hb hia hib
    simp only
    rw [if_neg (by omega), if_neg (by omega), if_neg (by omega), if_pos (by omega)]
    exact upP a ha (by omega) b hb (by omega)
  · intro a ha b hb hab
    simp only
    by_cases c1 : a = i ∧ b = i
    · obtain ⟨rfl, rfl⟩ := c1
      rw [if_pos ⟨rfl, rfl⟩, if_pos ⟨rfl, rfl⟩]
      exact ⟨P.lwf, P.uwf, ⟨P.ldim.1.trans dd.1, P.ldim.2.trans dd.2⟩,
        ⟨P.udim.1.trans dd.1, P.udim.2.trans dd.2⟩⟩
    rw [if_neg c1, if_neg c1]
    by_cases c2 : b = i ∧ i < a
    · obtain ⟨rfl, hia⟩ := c2
      rw [if_pos ⟨rfl, hia⟩, if_pos ⟨rfl, hia⟩]
      obtain ⟨w, -, sh, -⟩ := lcP a ha hia
      have e := sh.dims (hAd a ha b hb).1
      have e' := (hI.todo a ha b hb (by omega) le_rfl).2.2.dims (hAd a ha b hb).1
      exact ⟨w, trivial, e, e'⟩
    rw [if_neg c2, if_neg c2]
    by_cases c3 : a = i ∧ i < b
    · obtain ⟨rfl, hib⟩ := c3
      rw [if_pos ⟨rfl, hib⟩, if_pos ⟨rfl, hib⟩]
      obtain ⟨w, -, sh, -⟩ := urP b hb hib
      have e := sh.dims (hAd a ha b hb).1
      have e' := (hI.todo a ha b hb le_rfl (by omega)).2.2.dims (hAd a ha b hb).1
      exact ⟨trivial, w, e', e⟩
    rw [if_neg c3, if_neg c3, if_neg (by omega)]
    exact hI.done a ha b hb (by omega)
  · intro t ht hti
    simp only
    by_cases e : t = i
    · subst e
      rw [if_pos ⟨rfl, rfl⟩, if_pos ⟨rfl, rfl⟩]
      exact ⟨hiq, dl, du⟩
    · rw [if_neg (by omega), if_neg (by omega), if_neg (by omega), if_neg (by omega), if_neg (by omega),
        if_neg (by omega), if_neg (by omega)]
      exact hI.diag t ht (by omega)
  · intro t ht hti
    by_cases e : t = i
    · subst e
      exact ⟨hk, fun k hk hik => (lcP k hk hik).2.2.2, fun k hk hik => (urP k hk hik).2.2.2⟩
    · exact hI.kinds t ht (by omega)

theorem getrfWith_kinds {ex : Prop} {lu : Dense R → Dense R × Bool} {g : GemmT R} (hg : GemmOk ex False g)
    {fs : Nat} (fuel : Nat) : ∀ A r, A.WF → A.Square →
      getrfWith lu g (trsmWith g .upper .right fs) (trsmWith g .lower .left fs) fuel A = .ok r →
      LuKindsPost A r.1 r.2.1 := by
  induction fuel with
  | zero => intro A r _ _ h; cases h
  | succ fuel ih =>
    intro A r hA hs h
    cases A with
    | lowRank a => cases h
    | empty => cases h
    | dense a =>
      simp only [getrfWith, getrfDense, except_bind_eq_ok] at h
      obtain ⟨-, -, h⟩ := h
      cases h
      exact ⟨trivial, trivial, trivial, ⟨rfl, rfl⟩, ⟨rfl, rfl⟩, ⟨rfl, rfl⟩, ⟨rfl, rfl⟩⟩
    | hier p q A =>
      simp only [getrfWith, except_bind_eq_ok] at h
      obtain ⟨st, hst, h⟩ := h
      cases h
      have hA' := hA
      simp only [WF] at hA'
      obtain ⟨hp, hq, hAd⟩ := hA'
      have I := loop_inv (LuKindsInv p q A) ⟨fun a ha b hb _ _ =>
          ⟨(hAd a ha b hb).1, hs a ha b hb, SameShape.refl _⟩, fun a ha b hb h => absurd h (by omega),
          fun t _ h => absurd h (by omega), fun t _ h => absurd h (by omega)⟩
        (fun i hi a b hI e => getrfStep_kinds hg hA ih hi hI e) hst
      have hpq : p ≤ q := by
        have := (I.diag (p - 1) (by omega) (by omega)).1
        omega
      have G1 := hier_grid (blk := st.1) (h := fun a => (A a 0).nRows) (w := fun b => (A 0 b).nCols) hp hq
        (fun i hi j hj => by
          have := I.done i hi j hj (Or.inl hi)
          exact ⟨this.1, this.2.2.1.1.trans (hAd i hi j hj).2.1, this.2.2.1.2.trans (hAd i hi j hj).2.2⟩)
      have G2 := hier_grid (blk := st.2.1) (h := fun a => (A a 0).nRows) (w := fun b => (A 0 b).nCols) hp hq
        (fun i hi j hj => by
          have := I.done i hi j hj (Or.inl hi)
          exact ⟨this.2.1, this.2.2.2.1.trans (hAd i hi j hj).2.1, this.2.2.2.2.trans (hAd i hi j hj).2.2⟩)
      refine ⟨⟨hpq, fun i hi => I.kinds i hi hi⟩, G1.1, G2.1, ⟨rfl, rfl, fun i hi => (I.diag i hi hi).2.1⟩,
        ⟨rfl, rfl, fun i hi => (I.diag i hi hi).2.2⟩, ?_, ?_⟩
      · rw [nRows_hier p q A, nCols_hier p q A]
        exact ⟨G1.2.1, G1.2.2.1⟩
      · rw [nRows_hier p q A, nCols_hier p q A]
        exact ⟨G2.2.1, G2.2.2.1⟩

end

end Mat
end Verif
