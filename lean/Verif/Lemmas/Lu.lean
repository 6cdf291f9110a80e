import Verif.Lemmas.Trsm

set_option linter.unusedSectionVars false
set_option linter.unusedVariables false

namespace Verif
open Finset

variable {R : Type}

namespace Mat

/-! ### structures -/

/-- Same structure along the diagonal. -/
def DiagShape : Mat R → Mat R → Prop
  | .dense a, .dense b => a.rows = b.rows ∧ a.cols = b.cols
  | .hier p q A, .hier p' q' B => p = p' ∧ q = q' ∧ ∀ i < p, DiagShape (A i i) (B i i)
  | _, _ => False

theorem DiagShape.trans {A B C : Mat R} (h1 : DiagShape A B) (h2 : DiagShape B C) : DiagShape A C := by
  induction A generalizing B C with
  | dense d =>
    cases B <;> try exact h1.elim
    cases C <;> try exact h2.elim
    exact ⟨h1.1.trans h2.1, h1.2.trans h2.2⟩
  | lowRank l => cases B <;> exact h1.elim
  | empty => cases B <;> exact h1.elim
  | hier p q A ih =>
    cases B <;> try exact h1.elim
    cases C <;> try exact h2.elim
    obtain ⟨rfl, rfl, h1⟩ := h1
    obtain ⟨rfl, rfl, h2⟩ := h2
    exact ⟨rfl, rfl, fun i hi => ih i i (h1 i hi) (h2 i hi)⟩

theorem SameShape.diagShape {A B : Mat R} (h : A.SameShape B) (hA : A.DiagSquare) : DiagShape A B := by
  induction A generalizing B with
  | dense d => cases B <;> first | exact h.elim | exact h
  | lowRank l => exact hA.elim
  | empty => exact hA.elim
  | hier p q A ih =>
    cases B <;> try exact h.elim
    obtain ⟨rfl, rfl, h⟩ := h
    obtain ⟨rfl, hA⟩ := hA
    exact ⟨rfl, rfl, fun i hi => ih i i (h i hi i hi) (hA i hi)⟩

theorem DiagShape.diagSquare {A B : Mat R} (h : DiagShape A B) (hA : A.DiagSquare) : B.DiagSquare := by
  induction A generalizing B with
  | dense d =>
    cases B <;> try exact h.elim
    exact h.1.symm.trans (Eq.trans hA h.2)
  | lowRank l => exact hA.elim
  | empty => exact hA.elim
  | hier p q A ih =>
    cases B <;> try exact h.elim
    obtain ⟨rfl, rfl, h⟩ := h
    obtain ⟨rfl, hA⟩ := hA
    exact ⟨rfl, fun i hi => ih i i (h i hi) (hA i hi)⟩

theorem DiagShape.triFits {side : Side} {A A' B : Mat R} (h : DiagShape A A') (hT : TriFits side A B) :
    TriFits side A' B := by
  induction A generalizing A' B with
  | dense d => cases A' <;> first | exact h.elim | (cases B <;> trivial)
  | lowRank l => cases A' <;> exact h.elim
  | empty => cases A' <;> exact h.elim
  | hier p q A ih =>
    cases A' <;> try exact h.elim
    obtain ⟨rfl, rfl, h⟩ := h
    cases B <;> try trivial
    obtain ⟨e, hT⟩ := hT
    refine ⟨e, fun i hi j hj => ih _ _ (h _ ?_) (hT i hi j hj)⟩
    rw [e]
    cases side <;> simpa [Side.pick]

theorem LuFits.diagSquare {A : Mat R} (h : A.LuFits) : A.DiagSquare := by
  induction A with
  | dense d => exact h
  | lowRank l => exact h.elim
  | empty => exact h.elim
  | hier p q A ih => exact ⟨h.1, fun i hi => ih i i (h.2.1 i hi)⟩

theorem LuFits.shape [CommRing R] {A B : Mat R} (h : A.LuFits) (hs : A.SameShape B) : B.LuFits := by
  induction A generalizing B with
  | dense d =>
    cases B <;> try exact hs.elim
    exact hs.1.symm.trans (Eq.trans h hs.2)
  | lowRank l => exact h.elim
  | empty => exact h.elim
  | hier p q A ih =>
    cases B <;> try exact hs.elim
    obtain ⟨rfl, rfl, hs⟩ := hs
    obtain ⟨rfl, h1, h2⟩ := h
    refine ⟨rfl, fun i hi => ih i i (h1 i hi) (hs i hi i hi), fun i hi k hk hik => ?_⟩
    have D := (hs i hi i hi).diagShape (h1 i hi).diagSquare
    exact ⟨D.triFits ((h2 i hi k hk hik).1.shape (hs k hk i hi)),
      D.triFits ((h2 i hi k hk hik).2.shape (hs i hi k hk))⟩

section
variable [Field R]

/-! ### result of the factorization -/

structure LuPost (ex : Prop) (flag : Bool) (A L U : Mat R) : Prop where
  lwf : L.WF
  uwf : U.WF
  lsq : L.Square
  usq : U.Square
  ld : DiagShape A L
  ud : DiagShape A U
  lrows : L.nRows = A.nRows
  lcols : L.nCols = A.nCols
  urows : U.nRows = A.nRows
  ucols : U.nCols = A.nCols
  low : ∀ i < A.nRows, ∀ j < A.nCols, L.entry i j = triEntry .lower true L i j
  up : ∀ i < A.nRows, ∀ j < A.nCols, U.entry i j = triEntry .upper false U i j
  ent : flag = false → ∀ i < A.nRows, ∀ j < A.nCols, (A.denseAt i j ∨ ex) →
    prodEntry false false L U i j = A.entry i j

/-- State of the elimination after `m` steps. -/
structure LuInv (ex : Prop) (n : Nat) (A0 : Nat → Nat → Mat R) (m : Nat) (st : LuState R) : Prop where
  todo : ∀ a < n, ∀ b < n, m ≤ a → m ≤ b → (st.2.1 a b).WF ∧ (st.2.1 a b).Square ∧
    (A0 a b).SameShape (st.2.1 a b) ∧
    ∀ x < (A0 a b).nRows, ∀ y < (A0 a b).nCols, ((A0 a b).denseAt x y ∨ ex) →
      (st.2.1 a b).entry x y = (A0 a b).entry x y -
        ∑ t ∈ range m, prodEntry false false (st.1 a t) (st.2.1 t b) x y
  diag : ∀ t < n, t < m → ∃ S, (A0 t t).SameShape S ∧ S.WF ∧ LuPost ex true S (st.1 t t) (st.2.1 t t)
  low : ∀ t < n, t < m → ∀ a < n, t < a → (st.1 a t).WF ∧ (st.1 a t).Square ∧
    (A0 a t).SameShape (st.1 a t) ∧ st.2.1 a t = .empty (A0 a t).nRows (A0 a t).nCols
  up : ∀ t < n, t < m → ∀ b < n, t < b → (st.2.1 t b).WF ∧ (st.2.1 t b).Square ∧
    (A0 t b).SameShape (st.2.1 t b) ∧ st.1 t b = .empty (A0 t b).nRows (A0 t b).nCols
  ent : st.2.2 = false → ∀ a < n, ∀ b < n, min a b < m →
    ∀ x < (A0 a b).nRows, ∀ y < (A0 a b).nCols, ((A0 a b).denseAt x y ∨ ex) →
      ∑ t ∈ range (min a b + 1), prodEntry false false (st.1 a t) (st.2.1 t b) x y = (A0 a b).entry x y

theorem LuPost.weaken {ex : Prop} {flag : Bool} {A L U : Mat R} (h : LuPost ex flag A L U) :
    LuPost ex true A L U :=
  ⟨h.lwf, h.uwf, h.lsq, h.usq, h.ld, h.ud, h.lrows, h.lcols, h.urows, h.ucols, h.low, h.up,
    fun e => by cases e⟩

/-- One elimination step. -/
theorem getrfStep_inv {ex : Prop} {g : GemmT R} (hg : GemmOk ex False g) {n : Nat}
    {A0 : Nat → Nat → Mat R} (hA : (Mat.hier n n A0).WF) (hF : (Mat.hier n n A0).LuFits)
    {f : Mat R → Except Err (Mat R × Mat R × Bool)}
    (hf : ∀ A r, A.WF → A.Square → A.LuFits → f A = .ok r → LuPost ex r.2.2 A r.1 r.2.1)
    {su sl : Mat R → Mat R → Except Err (Mat R)}
    (hsu : ∀ A B B', A.WF → B.WF → B.Square → A.DiagSquare → TriFits .right A B → A.nRows = B.nCols →
      su A B = .ok B' → TrsmPost ex .right (triEntry .upper false A) A.nRows B B')
    (hsl : ∀ A B B', A.WF → B.WF → B.Square → A.DiagSquare → TriFits .left A B → A.nRows = B.nRows →
      sl A B = .ok B' → TrsmPost ex .left (triEntry .lower true A) A.nRows B B')
    {i : Nat} (hi : i < n) {st st' : LuState R} (hI : LuInv ex n A0 i st)
    (h : getrfStep g f su sl n n i st = .ok st') : LuInv ex n A0 (i + 1) st' := by
  obtain ⟨Lc, Ac, fl⟩ := st
  simp only [getrfStep, except_bind_eq_ok] at h
  obtain ⟨d, hd, x, hx, lc, hlc, ur, hur, up, hup, h⟩ := h
  cases h
  obtain ⟨-, -, rfl⟩ := blockAt_ok hd
  have hA' := hA
  simp only [WF] at hA'
  obtain ⟨hn0, -, hAd⟩ := hA'
  have hFd : ∀ t < n, (A0 t t).DiagSquare := hF.diagSquare.2
  -- the pivot block
  obtain ⟨dw, ds, dsh, dent⟩ := hI.todo i hi i hi le_rfl le_rfl
  simp only at dw ds dsh dent
  have P := hf _ _ dw ds ((hF.2.1 i hi).shape dsh) hx
  have dd := dsh.dims (hAd i hi i hi).1
  have dsq : (Ac i i).DiagSquare := (dsh.diagShape (hFd i hi)).diagSquare (hFd i hi)
  have dn := dsq.dims dw
  have udsq := P.ud.diagSquare dsq
  have ldsq := P.ld.diagSquare dsq
  -- block column of `L`
  have lcP : ∀ a < n, i < a → TrsmPost ex .right (triEntry .upper false x.2.1) x.2.1.nRows (Ac a i)
      (lc (a - (i + 1))) := by
    intro a ha hia
    have e := collect_ok hlc (a - (i + 1)) (by omega)
    rw [show i + 1 + (a - (i + 1)) = a by omega] at e
    obtain ⟨bw, bs, bsh, -⟩ := hI.todo a ha i hi (by omega) le_rfl
    have bd := bsh.dims (hAd a ha i hi).1
    refine hsu _ _ _ P.uwf bw bs udsq ?_ ?_ e
    · exact P.ud.triFits ((dsh.diagShape (hFd i hi)).triFits ((hF.2.2 i hi a ha hia).1.shape bsh))
    · show x.2.1.nRows = (Ac a i).nCols
      rw [P.urows, dn, bd.2, (hAd a ha i hi).2.2, dd.2, (hAd i hi i hi).2.2]
  -- block row of `U`
  have urP : ∀ b < n, i < b → TrsmPost ex .left (triEntry .lower true x.1) x.1.nRows (Ac i b)
      (ur (b - (i + 1))) := by
    intro b hb hib
    have e := collect_ok hur (b - (i + 1)) (by omega)
    rw [show i + 1 + (b - (i + 1)) = b by omega] at e
    obtain ⟨bw, bs, bsh, -⟩ := hI.todo i hi b hb le_rfl (by omega)
    have bd := bsh.dims (hAd i hi b hb).1
    refine hsl _ _ _ P.lwf bw bs ldsq ?_ ?_ e
    · exact P.ld.triFits ((dsh.diagShape (hFd i hi)).triFits ((hF.2.2 i hi b hb hib).2.shape bsh))
    · show x.1.nRows = (Ac i b).nRows
      rw [P.lrows, bd.1, (hAd i hi b hb).2.1, dd.1, (hAd i hi i hi).2.1]
  -- trailing blocks
  have upP : ∀ a < n, i < a → ∀ b < n, i < b → GemmPost ex (lc (a - (i + 1))) (ur (b - (i + 1))) (Ac a b)
      (up (a - (i + 1)) (b - (i + 1))) (-1) 1 false false := by
    intro a ha hia b hb hib
    have e := collect2_ok hup (a - (i + 1)) (by omega) (b - (i + 1)) (by omega)
    rw [show i + 1 + (a - (i + 1)) = a by omega, show i + 1 + (b - (i + 1)) = b by omega] at e
    obtain ⟨bw, bs, -, -⟩ := hI.todo a ha b hb (by omega) (by omega)
    exact (hg _ _ _ _ _ _ _ _ (lcP a ha hia).wf (urP b hb hib).wf bw bs (TransSafe_ff _ _)
      (fun h => h.elim) e).2
  -- the new state
  generalize hL : (fun a b => if a = i ∧ b = i then x.1
      else if b = i ∧ i < a then lc (a - (i + 1))
      else if a = i ∧ i < b then .empty (Ac a b).nRows (Ac a b).nCols
      else Lc a b) = L'
  generalize hU : (fun a b => if a = i ∧ b = i then x.2.1
      else if b = i ∧ i < a then .empty (Ac a b).nRows (Ac a b).nCols
      else if a = i ∧ i < b then ur (b - (i + 1))
      else if i < a ∧ i < b then up (a - (i + 1)) (b - (i + 1))
      else Ac a b) = U'
  have Lold : ∀ a b, a < i ∨ b < i → L' a b = Lc a b := by
    intro a b hab
    rw [← hL]
    simp only
    rw [if_neg (by omega), if_neg (by omega), if_neg (by omega)]
  have Uold : ∀ a b, a < i ∨ b < i → U' a b = Ac a b := by
    intro a b hab
    rw [← hU]
    simp only
    rw [if_neg (by omega), if_neg (by omega), if_neg (by omega), if_neg (by omega)]
  have Ldiag : L' i i = x.1 := by
    rw [← hL]
    simp
  have Udiag : U' i i = x.2.1 := by
    rw [← hU]
    simp
  have Llow : ∀ a, i < a → L' a i = lc (a - (i + 1)) := by
    intro a ha
    rw [← hL]
    simp only
    rw [if_neg (by omega), if_pos ⟨trivial, ha⟩]
  have Lup : ∀ b, i < b → L' i b = .empty (Ac i b).nRows (Ac i b).nCols := by
    intro b hb
    rw [← hL]
    simp only
    rw [if_neg (by omega), if_neg (by omega), if_pos ⟨trivial, hb⟩]
  have Ulow : ∀ a, i < a → U' a i = .empty (Ac a i).nRows (Ac a i).nCols := by
    intro a ha
    rw [← hU]
    simp only
    rw [if_neg (by omega), if_pos ⟨trivial, ha⟩]
  have Uup : ∀ b, i < b → U' i b = ur (b - (i + 1)) := by
    intro b hb
    rw [← hU]
    simp only
    rw [if_neg (by omega), if_neg (by omega), if_pos ⟨trivial, hb⟩]
  have Utr : ∀ a b, i < a → i < b → U' a b = up (a - (i + 1)) (b - (i + 1)) := by
    intro a b ha hb
    rw [← hU]
    simp only
    rw [if_neg (by omega), if_neg (by omega), if_neg (by omega), if_pos ⟨ha, hb⟩]
  -- sums over earlier steps
  have sums : ∀ a b m u v, m ≤ i → ∑ t ∈ range m, prodEntry false false (L' a t) (U' t b) u v =
      ∑ t ∈ range m, prodEntry false false (Lc a t) (Ac t b) u v := by
    intro a b m u v hm
    refine Finset.sum_congr rfl (fun t ht => ?_)
    have := mem_range.1 ht
    rw [Lold a t (by omega), Uold t b (by omega)]
  refine ⟨?_, ?_, ?_, ?_, ?_⟩
  · intro a ha b hb hia hib
    obtain ⟨bw, bs, bsh, be⟩ := hI.todo a ha b hb (by omega) (by omega)
    simp only at bw bs bsh be ⊢
    have G := upP a ha (by omega) b hb (by omega)
    rw [Utr a b (by omega) (by omega)]
    have bd := bsh.dims (hAd a ha b hb).1
    refine ⟨G.wf, G.sqr, bsh.trans G.shape, fun u hu v hv hP => ?_⟩
    rw [G.ent u (by rw [bd.1]; exact hu) v (by rw [bd.2]; exact hv)
      (by rwa [bsh.denseAt (hAd a ha b hb).1 hu hv]), be u hu v hv hP, Finset.sum_range_succ,
      sums a b i u v le_rfl, Llow a (by omega), Uup b (by omega)]
    ring
  · intro t htn ht
    by_cases e : t = i
    · subst e
      exact ⟨_, dsh, dw, by simp only; rw [Ldiag, Udiag]; exact P.weaken⟩
    · obtain ⟨S, h1, h2, h3⟩ := hI.diag t htn (by omega)
      refine ⟨S, h1, h2, ?_⟩
      simp only at h3 ⊢
      rw [Lold t t (by omega), Uold t t (by omega)]
      exact h3
  · intro t htn ht a ha hta
    by_cases e : t = i
    · subst e
      obtain ⟨bw, bs, bsh, -⟩ := hI.todo a ha t htn (by omega) le_rfl
      have bd := bsh.dims (hAd a ha t htn).1
      have T := lcP a ha hta
      simp only
      rw [Llow a hta, Ulow a hta]
      simp only at bd
      refine ⟨T.wf, T.sqr, bsh.trans T.shape, ?_⟩
      rw [bd.1, bd.2]
    · have := hI.low t htn (by omega) a ha hta
      simp only at this ⊢
      rw [Lold a t (by omega), Uold a t (by omega)]
      exact this
  · intro t htn ht b hb htb
    by_cases e : t = i
    · subst e
      obtain ⟨bw, bs, bsh, -⟩ := hI.todo t htn b hb le_rfl (by omega)
      have bd := bsh.dims (hAd t htn b hb).1
      have T := urP b hb htb
      simp only
      rw [Uup b htb, Lup b htb]
      simp only at bd
      refine ⟨T.wf, T.sqr, bsh.trans T.shape, ?_⟩
      rw [bd.1, bd.2]
    · have := hI.up t htn (by omega) b hb htb
      simp only at this ⊢
      rw [Lold t b (by omega), Uold t b (by omega)]
      exact this
  · intro hfl a ha b hb hab u hu v hv hP
    simp only [Bool.or_eq_false_iff] at hfl
    simp only
    by_cases e : min a b = i
    · rw [e, Finset.sum_range_succ, sums a b i u v le_rfl]
      obtain ⟨bw, bs, bsh, be⟩ := hI.todo a ha b hb (by omega) (by omega)
      simp only at bw bs bsh be
      have bd := bsh.dims (hAd a ha b hb).1
      have hP' : (Ac a b).denseAt u v ∨ ex := by rwa [bsh.denseAt (hAd a ha b hb).1 hu hv]
      have last : prodEntry false false (L' a i) (U' i b) u v = (Ac a b).entry u v := by
        rcases Nat.lt_trichotomy a b with hlt | heq | hgt
        · -- row of `U`
          have hai : a = i := by omega
          subst hai
          rw [Ldiag, Uup b hlt]
          have T := urP b hb hlt
          rw [← T.ent u (by rw [bd.1]; exact hu) v (by rw [bd.2]; exact hv) hP']
          show ∑ l ∈ range x.1.nCols, x.1.entry u l * (ur (b - (a + 1))).entry l v = _
          rw [P.lcols, ← dn, ← P.lrows]
          refine Finset.sum_congr rfl (fun l hl => ?_)
          have hl := mem_range.1 hl
          rw [P.low u (by rw [dd.1, (hAd a ha a ha).2.1, ← (hAd a ha b hb).2.1]; exact hu) l
            (by rw [← dn, ← P.lrows]; exact hl)]
        · have hai : a = i := by omega
          subst hai
          subst heq
          rw [Ldiag, Udiag]
          exact P.ent hfl.2 u (by rw [bd.1]; exact hu) v (by rw [bd.2]; exact hv) hP'
        · have hbi : b = i := by omega
          subst hbi
          rw [Udiag, Llow a hgt]
          have T := lcP a ha hgt
          rw [← T.ent u (by rw [bd.1]; exact hu) v (by rw [bd.2]; exact hv) hP']
          have td := T.shape.dims bw
          show ∑ l ∈ range (lc (a - (b + 1))).nCols, (lc (a - (b + 1))).entry u l * x.2.1.entry l v = _
          have : (lc (a - (b + 1))).nCols = x.2.1.nRows := by
            rw [td.2, bd.2, (hAd a ha b hb).2.2, P.urows, dn, dd.2, (hAd b hb b hb).2.2]
          rw [this]
          refine Finset.sum_congr rfl (fun l hl => ?_)
          have hl := mem_range.1 hl
          rw [P.up l (by rw [← P.urows]; exact hl) v
            (by rw [dd.2, (hAd b hb b hb).2.2, ← (hAd a ha b hb).2.2]; exact hv)]
      rw [last, be u hu v hv hP]
      ring
    · rw [sums a b (min a b + 1) u v (by omega)]
      exact hI.ent hfl.1 a ha b hb (by omega) u hu v hv hP

/-- After the last step. -/
theorem LuInv.post {ex : Prop} {n : Nat} {A0 : Nat → Nat → Mat R} (hA : (Mat.hier n n A0).WF)
    (hF : (Mat.hier n n A0).LuFits) {st : LuState R} (hI : LuInv ex n A0 n st) :
    LuPost ex st.2.2 (.hier n n A0) (.hier n n st.1) (.hier n n st.2.1) := by
  have hA' := hA
  simp only [WF] at hA'
  obtain ⟨hn0, -, hAd⟩ := hA'
  have hD := hF.diagSquare
  have hw := hD.widths hA
  have hFd : ∀ t < n, (A0 t t).DiagSquare := hD.2
  have lb : ∀ a < n, ∀ b < n, (st.1 a b).WF ∧ (st.1 a b).nRows = (A0 a 0).nRows ∧
      (st.1 a b).nCols = (A0 b 0).nRows := by
    intro a ha b hb
    rw [← hw b hb, ← (hAd a ha b hb).2.1, ← (hAd a ha b hb).2.2]
    rcases Nat.lt_trichotomy a b with hlt | heq | hgt
    · rw [(hI.up a ha ha b hb hlt).2.2.2]
      exact ⟨trivial, rfl, rfl⟩
    · subst heq
      obtain ⟨S, h1, h2, h3⟩ := hI.diag a ha ha
      have dd := h1.dims (hAd a ha a ha).1
      exact ⟨h3.lwf, h3.lrows.trans dd.1, h3.lcols.trans dd.2⟩
    · obtain ⟨h1, -, h2, -⟩ := hI.low b hb hb a ha hgt
      have dd := h2.dims (hAd a ha b hb).1
      exact ⟨h1, dd.1, dd.2⟩
  have ub : ∀ a < n, ∀ b < n, (st.2.1 a b).WF ∧ (st.2.1 a b).nRows = (A0 a 0).nRows ∧
      (st.2.1 a b).nCols = (A0 b 0).nRows := by
    intro a ha b hb
    rw [← hw b hb, ← (hAd a ha b hb).2.1, ← (hAd a ha b hb).2.2]
    rcases Nat.lt_trichotomy a b with hlt | heq | hgt
    · obtain ⟨h1, -, h2, -⟩ := hI.up a ha ha b hb hlt
      have dd := h2.dims (hAd a ha b hb).1
      exact ⟨h1, dd.1, dd.2⟩
    · subst heq
      obtain ⟨S, h1, h2, h3⟩ := hI.diag a ha ha
      have dd := h1.dims (hAd a ha a ha).1
      exact ⟨h3.uwf, h3.urows.trans dd.1, h3.ucols.trans dd.2⟩
    · rw [(hI.low b hb hb a ha hgt).2.2.2]
      exact ⟨trivial, rfl, rfl⟩
  have GL := hier_grid (blk := st.1) (h := fun a => (A0 a 0).nRows) (w := fun b => (A0 b 0).nRows) hn0 hn0 lb
  have GU := hier_grid (blk := st.2.1) (h := fun a => (A0 a 0).nRows) (w := fun b => (A0 b 0).nRows) hn0 hn0 ub
  have GA := hier_grid (blk := A0) (h := fun a => (A0 a 0).nRows) (w := fun b => (A0 b 0).nRows) hn0 hn0
    (fun a ha b hb => ⟨(hAd a ha b hb).1, (hAd a ha b hb).2.1, (hAd a ha b hb).2.2.trans (hw b hb)⟩)
  have ld : DiagShape (.hier n n A0) (.hier n n st.1) := ⟨rfl, rfl, fun i hi => by
    obtain ⟨S, h1, h2, h3⟩ := hI.diag i hi hi
    exact (h1.diagShape (hFd i hi)).trans h3.ld⟩
  have ud : DiagShape (.hier n n A0) (.hier n n st.2.1) := ⟨rfl, rfl, fun i hi => by
    obtain ⟨S, h1, h2, h3⟩ := hI.diag i hi hi
    exact (h1.diagShape (hFd i hi)).trans h3.ud⟩
  have lpsum : ∀ a ≤ n, psum (fun k => (A0 k 0).nRows) a = psum (fun k => (st.1 k 0).nRows) a :=
    fun a ha => psum_congr (fun k hk => ((lb k (by omega) 0 hn0).2.1).symm)
  have upsum : ∀ a ≤ n, psum (fun k => (A0 k 0).nRows) a = psum (fun k => (st.2.1 k 0).nRows) a :=
    fun a ha => psum_congr (fun k hk => ((ub k (by omega) 0 hn0).2.1).symm)
  refine ⟨GL.1, GU.1, ?_, ?_, ld, ud, GL.2.1.trans GA.2.1.symm, GL.2.2.1.trans GA.2.2.1.symm,
    GU.2.1.trans GA.2.1.symm, GU.2.2.1.trans GA.2.2.1.symm, ?_, ?_, ?_⟩
  · intro a ha b hb
    rcases Nat.lt_trichotomy a b with hlt | heq | hgt
    · rw [(hI.up a ha ha b hb hlt).2.2.2]
      trivial
    · subst heq
      obtain ⟨S, h1, h2, h3⟩ := hI.diag a ha ha
      exact h3.lsq
    · exact (hI.low b hb hb a ha hgt).2.1
  · intro a ha b hb
    rcases Nat.lt_trichotomy a b with hlt | heq | hgt
    · exact (hI.up a ha ha b hb hlt).2.1
    · subst heq
      obtain ⟨S, h1, h2, h3⟩ := hI.diag a ha ha
      exact h3.usq
    · rw [(hI.low b hb hb a ha hgt).2.2.2]
      trivial
  · intro i hi j hj
    rw [GA.2.1] at hi
    rw [GA.2.2.1] at hj
    obtain ⟨a, ha, x, hx, rfl⟩ := exists_block _ _ _ hi
    obtain ⟨b, hb, y, hy, rfl⟩ := exists_block _ _ _ hj
    rw [(GL.2.2.2 a ha b hb x hx y hy).1, lpsum a (by omega), lpsum b (by omega),
      triEntry_block (ld.diagSquare hD) GL.1 .lower true ha hb
        (by rw [(lb a ha 0 hn0).2.1]; exact hx) (by rw [(lb b hb 0 hn0).2.1]; exact hy)]
    rcases Nat.lt_trichotomy a b with hlt | heq | hgt
    · have hs : strictB .lower .left a b = false := decide_eq_false (by omega)
      rw [if_neg (by omega), hs, (hI.up a ha ha b hb hlt).2.2.2]
      simp [entry]
    · subst heq
      rw [if_pos rfl]
      obtain ⟨S, h1, h2, h3⟩ := hI.diag a ha ha
      have dd := h1.dims (hAd a ha a ha).1
      exact h3.low x (by rw [dd.1, (hAd a ha a ha).2.1]; exact hx) y
        (by rw [dd.2, (hAd a ha a ha).2.2, hw a ha]; exact hy)
    · have hs : strictB .lower .left a b = true := decide_eq_true (by omega)
      rw [if_neg (by omega), hs, if_pos rfl]
  · intro i hi j hj
    rw [GA.2.1] at hi
    rw [GA.2.2.1] at hj
    obtain ⟨a, ha, x, hx, rfl⟩ := exists_block _ _ _ hi
    obtain ⟨b, hb, y, hy, rfl⟩ := exists_block _ _ _ hj
    rw [(GU.2.2.2 a ha b hb x hx y hy).1, upsum a (by omega), upsum b (by omega),
      triEntry_block (ud.diagSquare hD) GU.1 .upper false ha hb
        (by rw [(ub a ha 0 hn0).2.1]; exact hx) (by rw [(ub b hb 0 hn0).2.1]; exact hy)]
    rcases Nat.lt_trichotomy a b with hlt | heq | hgt
    · have hs : strictB .upper .left a b = true := decide_eq_true (by omega)
      rw [if_neg (by omega), hs, if_pos rfl]
    · subst heq
      rw [if_pos rfl]
      obtain ⟨S, h1, h2, h3⟩ := hI.diag a ha ha
      have dd := h1.dims (hAd a ha a ha).1
      exact h3.up x (by rw [dd.1, (hAd a ha a ha).2.1]; exact hx) y
        (by rw [dd.2, (hAd a ha a ha).2.2, hw a ha]; exact hy)
    · have hs : strictB .upper .left a b = false := decide_eq_false (by omega)
      rw [if_neg (by omega), hs, (hI.low b hb hb a ha hgt).2.2.2]
      simp [entry]
  · intro hfl i hi j hj hP
    rw [GA.2.1] at hi
    rw [GA.2.2.1] at hj
    obtain ⟨a, ha, x, hx, rfl⟩ := exists_block _ _ _ hi
    obtain ⟨b, hb, y, hy, rfl⟩ := exists_block _ _ _ hj
    have E := hI.ent hfl a ha b hb (by omega) x (by rw [(hAd a ha b hb).2.1]; exact hx) y
      (by rw [(hAd a ha b hb).2.2, hw b hb]; exact hy)
      (by rwa [← (GA.2.2.2 a ha b hb x hx y hy).2.1])
    rw [(GA.2.2.2 a ha b hb x hx y hy).1, ← E, prodEntry_ff, GL.2.2.1, sum_blocks]
    have all : ∀ t < n, ∑ l ∈ range ((fun b => (A0 b 0).nRows) t),
        (Mat.hier n n st.1).entry (psum (fun a => (A0 a 0).nRows) a + x)
          (psum (fun a => (A0 a 0).nRows) t + l) *
        (Mat.hier n n st.2.1).entry (psum (fun a => (A0 a 0).nRows) t + l)
          (psum (fun a => (A0 a 0).nRows) b + y) =
        if t < min a b + 1 then prodEntry false false (st.1 a t) (st.2.1 t b) x y else 0 := by
      intro t ht
      have e : ∑ l ∈ range ((fun b => (A0 b 0).nRows) t),
          (Mat.hier n n st.1).entry (psum (fun a => (A0 a 0).nRows) a + x)
            (psum (fun a => (A0 a 0).nRows) t + l) *
          (Mat.hier n n st.2.1).entry (psum (fun a => (A0 a 0).nRows) t + l)
            (psum (fun a => (A0 a 0).nRows) b + y) = prodEntry false false (st.1 a t) (st.2.1 t b) x y := by
        rw [prodEntry_ff, (lb a ha t ht).2.2]
        refine Finset.sum_congr rfl (fun l hl => ?_)
        have hl := mem_range.1 hl
        rw [(GL.2.2.2 a ha t ht x hx l hl).1, (GU.2.2.2 t ht b hb l hl y hy).1]
      rw [e]
      split
      · rfl
      · rename_i hnt
        by_cases hat : a < t
        · rw [(hI.up a ha ha t ht hat).2.2.2, prodEntry_ff]
          exact Finset.sum_eq_zero (fun l _ => by simp [entry])
        · rw [(hI.low b hb hb t ht (by omega)).2.2.2, prodEntry_ff]
          exact Finset.sum_eq_zero (fun l _ => by simp [entry])
    rw [Finset.sum_congr rfl (fun t ht => all t (mem_range.1 ht)), sum_below (by omega)]

variable [DecidableEq R]

theorem getrfDense_ok {ex : Prop} {lu : Dense R → Dense R × Bool} (hlu : LuContract lu) {a : Dense R}
    (ha : a.rows = a.cols) {r : Mat R × Mat R × Bool} (h : getrfDense lu a = .ok r) :
    LuPost ex r.2.2 (.dense a) r.1 r.2.1 := by
  simp only [getrfDense, except_bind_eq_ok, assertM_eq_ok] at h
  obtain ⟨-, -, h⟩ := h
  cases h
  refine ⟨trivial, trivial, trivial, trivial, ⟨rfl, rfl⟩, ⟨rfl, rfl⟩, rfl, rfl, rfl, rfl, ?_, ?_, ?_⟩
  · intro i hi j hj
    simp only [entry, triEntry, if_true]
    by_cases h1 : j < i
    · rw [if_pos h1, if_neg (by omega), if_pos h1]
    · by_cases h2 : i = j
      · rw [if_neg h1, if_pos h2, if_pos h2]
      · rw [if_neg h1, if_neg h2, if_neg h2, if_neg h1]
  · intro i hi j hj
    simp only [entry, triEntry, Bool.false_eq_true, if_false]
    by_cases h1 : j < i
    · rw [if_pos h1, if_neg (by omega), if_neg (by omega)]
    · by_cases h2 : i = j
      · rw [if_neg h1, if_pos h2]
      · rw [if_neg h1, if_neg h2, if_pos (by omega)]
  · intro hfl i hi j hj _
    have := hlu a ha hfl i hi j hj
    rw [prodEntry_ff]
    simp only [nCols, entry]
    rw [← ha]
    exact this

theorem getrfWith_ok {ex : Prop} {lu : Dense R → Dense R × Bool} (hlu : LuContract lu) {g : GemmT R}
    (hg : GemmOk ex False g) {su sl : Mat R → Mat R → Except Err (Mat R)}
    (hsu : ∀ A B B', A.WF → B.WF → B.Square → A.DiagSquare → TriFits .right A B → A.nRows = B.nCols →
      su A B = .ok B' → TrsmPost ex .right (triEntry .upper false A) A.nRows B B')
    (hsl : ∀ A B B', A.WF → B.WF → B.Square → A.DiagSquare → TriFits .left A B → A.nRows = B.nRows →
      sl A B = .ok B' → TrsmPost ex .left (triEntry .lower true A) A.nRows B B') (fuel : Nat) :
    ∀ A r, A.WF → A.Square → A.LuFits → getrfWith lu g su sl fuel A = .ok r →
      LuPost ex r.2.2 A r.1 r.2.1 := by
  induction fuel with
  | zero => intro A r _ _ _ h; cases h
  | succ fuel ih =>
    intro A r hA hs hF h
    cases A with
    | lowRank => exact hF.elim
    | empty => exact hF.elim
    | dense a => exact getrfDense_ok hlu hF h
    | hier p q A =>
      have hpq : p = q := hF.1
      subst hpq
      simp only [getrfWith, except_bind_eq_ok] at h
      obtain ⟨st, hst, h⟩ := h
      cases h
      have hA' := hA
      simp only [WF] at hA'
      refine LuInv.post hA hF (loop_inv (LuInv ex p A) ?_ (fun i hi a b hI hb =>
        getrfStep_inv hg hA hF ih hsu hsl hi hI hb) hst)
      refine ⟨fun a ha b hb _ _ => ⟨(hA'.2.2 a ha b hb).1, hs a ha b hb, SameShape.refl _,
        fun x _ y _ _ => by simp⟩, fun t _ h => by omega, fun t _ h => by omega, fun t _ h => by omega,
        fun _ a _ b _ h => by omega⟩

theorem getrf_ok {lu : Dense R → Dense R × Bool} (hlu : LuContract lu) {o : LrOps R} (hf : o.Fits False)
    (fuel : Nat) {A L U : Mat R} {flag : Bool} (hA : A.WF) (hs : A.Square) (hF : A.LuFits)
    (h : getrf lu o fuel A = .ok (L, U, flag)) : LuPost (o.Exact False) flag A L U :=
  getrfWith_ok hlu (gemmBoth_ok hf fuel).1
    (fun A B B' h1 h2 h3 h4 h5 h6 h7 => by
      have := trsmWith_ok (gemmBoth_ok hf fuel).1 (side := .right) (uplo := .upper) fuel A B B' h1 h2 h3 h4 h5 h6 h7
      exact this)
    (fun A B B' h1 h2 h3 h4 h5 h6 h7 => by
      have := trsmWith_ok (gemmBoth_ok hf fuel).1 (side := .left) (uplo := .lower) fuel A B B' h1 h2 h3 h4 h5 h6 h7
      exact this) fuel A _ hA hs hF h

end
end Mat
end Verif
