import Verif.Lemmas.ErrTri

set_option linter.unusedSectionVars false
set_option linter.unusedVariables false

/-
Truncation errors of an LU factorization add up.
-/

namespace Verif
open Finset

namespace Mat

variable {K : Type} [Field K] [LinearOrder K] [IsStrictOrderedRing K]

/-- Result of a factorization whose low-rank operations truncate. -/
structure LuErr (τ : K) (flag : Bool) (A L U : Mat K) : Prop where
  lfill : L.Filled
  ufill : U.Filled
  ent : flag = false → ∀ i < A.nRows, ∀ j < A.nCols,
    |prodEntry false false L U i j - A.entry i j| ≤ 2 * (A.nRows : K) * τ

/-- State of the elimination after `m` steps. -/
structure LuErrInv (τ : K) (n : Nat) (A0 : Nat → Nat → Mat K) (m : Nat) (st : LuState K) : Prop where
  todo : ∀ a < n, ∀ b < n, m ≤ a → m ≤ b → ∀ x < (A0 a b).nRows, ∀ y < (A0 a b).nCols,
      |(st.2.1 a b).entry x y - ((A0 a b).entry x y -
        ∑ t ∈ range m, prodEntry false false (st.1 a t) (st.2.1 t b) x y)| ≤
        2 * (psum (fun t => (A0 t 0).nRows) m : K) * τ
  fill : ∀ t < n, t < m → (st.1 t t).Filled ∧ (st.2.1 t t).Filled
  ent : st.2.2 = false → ∀ a < n, ∀ b < n, min a b < m →
    ∀ x < (A0 a b).nRows, ∀ y < (A0 a b).nCols,
      |∑ t ∈ range (min a b + 1), prodEntry false false (st.1 a t) (st.2.1 t b) x y -
        (A0 a b).entry x y| ≤ 2 * (psum (fun t => (A0 t 0).nRows) (min a b + 1) : K) * τ

/-- What one elimination step does, whatever happened before: the new factors reproduce
the blocks of the remaining matrix up to the truncation errors of this step. -/
structure LuStep (ex : Prop) (τ : K) (n : Nat) (A0 : Nat → Nat → Mat K) (i : Nat) (st st' : LuState K)
    (fl : Bool) : Prop where
  piv : LuPost ex fl (st.2.1 i i) (st'.1 i i) (st'.2.1 i i)
  fill : (st'.1 i i).Filled ∧ (st'.2.1 i i).Filled
  flag : st'.2.2 = (st.2.2 || fl)
  old : ∀ a b, a < i ∨ b < i → st'.1 a b = st.1 a b ∧ st'.2.1 a b = st.2.1 a b
  loc : ∀ a < n, ∀ b < n, i ≤ a → i ≤ b → (a = i → b = i → fl = false) →
    ∀ u < (A0 a b).nRows, ∀ v < (A0 a b).nCols,
      |prodEntry false false (st'.1 a i) (st'.2.1 i b) u v +
        (if i < a ∧ i < b then (st'.2.1 a b).entry u v else 0) - (st.2.1 a b).entry u v| ≤
        2 * ((A0 i 0).nRows : K) * τ

theorem getrfStep_local {ex : Prop} {g : GemmT K} (hg : GemmOk ex False g) {τ : K} (hτ : 0 ≤ τ)
    (he : GemmErr τ g) {n : Nat}
    {A0 : Nat → Nat → Mat K} (hA : (Mat.hier n n A0).WF) (hF : (Mat.hier n n A0).LuFits)
    (hFl : (Mat.hier n n A0).Filled)
    {f : Mat K → Except Err (Mat K × Mat K × Bool)}
    (hf : ∀ A r, A.WF → A.Square → A.LuFits → f A = .ok r → LuPost ex r.2.2 A r.1 r.2.1)
    (hfe : ∀ A r, A.WF → A.Square → A.LuFits → A.Filled → f A = .ok r → LuErr τ r.2.2 A r.1 r.2.1)
    {su sl : Mat K → Mat K → Except Err (Mat K)}
    (hsu : ∀ A B B', A.WF → B.WF → B.Square → A.DiagSquare → TriFits .right A B → A.nRows = B.nCols →
      su A B = .ok B' → TrsmPost ex .right (triEntry .upper false A) A.nRows B B')
    (hsl : ∀ A B B', A.WF → B.WF → B.Square → A.DiagSquare → TriFits .left A B → A.nRows = B.nRows →
      sl A B = .ok B' → TrsmPost ex .left (triEntry .lower true A) A.nRows B B')
    (hsue : ∀ A B B', A.WF → B.WF → B.Square → A.DiagSquare → TriFits .right A B → A.nRows = B.nCols →
      A.Filled → B.Filled → su A B = .ok B' → ∀ i < B.nRows, ∀ j < B.nCols,
        |sideProd .right A.nRows (triEntry .upper false A) B' i j - B.entry i j| ≤ 2 * (A.nRows : K) * τ)
    (hsle : ∀ A B B', A.WF → B.WF → B.Square → A.DiagSquare → TriFits .left A B → A.nRows = B.nRows →
      A.Filled → B.Filled → sl A B = .ok B' → ∀ i < B.nRows, ∀ j < B.nCols,
        |sideProd .left A.nRows (triEntry .lower true A) B' i j - B.entry i j| ≤ 2 * (A.nRows : K) * τ)
    {i : Nat} (hi : i < n) {st st' : LuState K} (hI : LuInv ex n A0 i st)
    (h : getrfStep g f su sl n n i st = .ok st') :
    ∃ fl, f (st.2.1 i i) = .ok (st'.1 i i, st'.2.1 i i, fl) ∧ LuStep ex τ n A0 i st st' fl := by
  obtain ⟨Lc, Ac, fl⟩ := st
  simp only [getrfStep, except_bind_eq_ok] at h
  obtain ⟨d, hd, x, hx, lc, hlc, ur, hur, up, hup, h⟩ := h
  cases h
  obtain ⟨-, -, rfl⟩ := blockAt_ok hd
  have hA' := hA
  simp only [WF] at hA'
  obtain ⟨hn0, -, hAd⟩ := hA'
  have hFd : ∀ t < n, (A0 t t).DiagSquare := hF.diagSquare.2
  -- the pivot block
  obtain ⟨dw, ds, dsh, dent⟩ := hI.todo i hi i hi le_rfl le_rfl
  simp only at dw ds dsh dent
  have P := hf _ _ dw ds ((hF.2.1 i hi).shape dsh) hx
  have dd := dsh.dims (hAd i hi i hi).1
  have dsq : (Ac i i).DiagSquare := (dsh.diagShape (hFd i hi)).diagSquare (hFd i hi)
  have dn := dsq.dims dw
  have udsq := P.ud.diagSquare dsq
  have ldsq := P.ld.diagSquare dsq
  -- block column of `L`
  have lcP : ∀ a < n, i < a → TrsmPost ex .right (triEntry .upper false x.2.1) x.2.1.nRows (Ac a i)
      (lc (a - (i + 1))) := by
    intro a ha hia
    have e := collect_ok hlc (a - (i + 1)) (by omega)
    rw [show i + 1 + (a - (i + 1)) = a by omega] at e
    obtain ⟨bw, bs, bsh, -⟩ := hI.todo a ha i hi (by omega) le_rfl
    have bd := bsh.dims (hAd a ha i hi).1
    refine hsu _ _ _ P.uwf bw bs udsq ?_ ?_ e
    · exact P.ud.triFits ((dsh.diagShape (hFd i hi)).triFits ((hF.2.2 i hi a ha hia).1.shape bsh))
    · show x.2.1.nRows = (Ac a i).nCols
      rw [P.urows, dn, bd.2, (hAd a ha i hi).2.2, dd.2, (hAd i hi i hi).2.2]
  -- block row of `U`
  have urP : ∀ b < n, i < b → TrsmPost ex .left (triEntry .lower true x.1) x.1.nRows (Ac i b)
      (ur (b - (i + 1))) := by
    intro b hb hib
    have e := collect_ok hur (b - (i + 1)) (by omega)
    rw [show i + 1 + (b - (i + 1)) = b by omega] at e
    obtain ⟨bw, bs, bsh, -⟩ := hI.todo i hi b hb le_rfl (by omega)
    have bd := bsh.dims (hAd i hi b hb).1
    refine hsl _ _ _ P.lwf bw bs ldsq ?_ ?_ e
    · exact P.ld.triFits ((dsh.diagShape (hFd i hi)).triFits ((hF.2.2 i hi b hb hib).2.shape bsh))
    · show x.1.nRows = (Ac i b).nRows
      rw [P.lrows, bd.1, (hAd i hi b hb).2.1, dd.1, (hAd i hi i hi).2.1]
  -- trailing blocks
  have upP : ∀ a < n, i < a → ∀ b < n, i < b → GemmPost ex (lc (a - (i + 1))) (ur (b - (i + 1))) (Ac a b)
      (up (a - (i + 1)) (b - (i + 1))) (-1) 1 false false := by
    intro a ha hia b hb hib
    have e := collect2_ok hup (a - (i + 1)) (by omega) (b - (i + 1)) (by omega)
    rw [show i + 1 + (a - (i + 1)) = a by omega, show i + 1 + (b - (i + 1)) = b by omega] at e
    obtain ⟨bw, bs, -, -⟩ := hI.todo a ha b hb (by omega) (by omega)
    exact (hg _ _ _ _ _ _ _ _ (lcP a ha hia).wf (urP b hb hib).wf bw bs (TransSafe_ff _ _)
      (fun h => h.elim) e).2
  -- the new state
  generalize hL : (fun a b => if a = i ∧ b = i then x.1
      else if b = i ∧ i < a then lc (a - (i + 1))
      else if a = i ∧ i < b then .empty (Ac a b).nRows (Ac a b).nCols
      else Lc a b) = L'
  generalize hU : (fun a b => if a = i ∧ b = i then x.2.1
      else if b = i ∧ i < a then .empty (Ac a b).nRows (Ac a b).nCols
      else if a = i ∧ i < b then ur (b - (i + 1))
      else if i < a ∧ i < b then up (a - (i + 1)) (b - (i + 1))
      else Ac a b) = U'
  have Lold : ∀ a b, a < i ∨ b < i → L' a b = Lc a b := by
    intro a b hab
    rw [← hL]
    simp only
    rw [if_neg (by omega), if_neg (by omega), if_neg (by omega)]
  have Uold : ∀ a b, a < i ∨ b < i → U' a b = Ac a b := by
    intro a b hab
    rw [← hU]
    simp only
    rw [if_neg (by omega), if_neg (by omega), if_neg (by omega), if_neg (by omega)]
  have Ldiag : L' i i = x.1 := by
    rw [← hL]
    simp
  have Udiag : U' i i = x.2.1 := by
    rw [← hU]
    simp
  have Llow : ∀ a, i < a → L' a i = lc (a - (i + 1)) := by
    intro a ha
    rw [← hL]
    simp only
    rw [if_neg (by omega), if_pos ⟨trivial, ha⟩]
  have Lup : ∀ b, i < b → L' i b = .empty (Ac i b).nRows (Ac i b).nCols := by
    intro b hb
    rw [← hL]
    simp only
    rw [if_neg (by omega), if_neg (by omega), if_pos ⟨trivial, hb⟩]
  have Ulow : ∀ a, i < a → U' a i = .empty (Ac a i).nRows (Ac a i).nCols := by
    intro a ha
    rw [← hU]
    simp only
    rw [if_neg (by omega), if_pos ⟨trivial, ha⟩]
  have Uup : ∀ b, i < b → U' i b = ur (b - (i + 1)) := by
    intro b hb
    rw [← hU]
    simp only
    rw [if_neg (by omega), if_neg (by omega), if_pos ⟨trivial, hb⟩]
  have Utr : ∀ a b, i < a → i < b → U' a b = up (a - (i + 1)) (b - (i + 1)) := by
    intro a b ha hb
    rw [← hU]
    simp only
    rw [if_neg (by omega), if_neg (by omega), if_neg (by omega), if_pos ⟨ha, hb⟩]
  have fillA : ∀ a < n, ∀ b < n, i ≤ a → i ≤ b → (Ac a b).Filled := fun a ha b hb h1 h2 =>
    (hFl.block ha hb).shape (hI.todo a ha b hb h1 h2).2.2.1
  have Pe := hfe _ _ dw ds ((hF.2.1 i hi).shape dsh) (fillA i hi i hi le_rfl le_rfl) hx
  have hsz : (Ac i i).nRows = (A0 i 0).nRows := dd.1.trans (hAd i hi i hi).2.1
  have lcE : ∀ a < n, i < a → ∀ u < (Ac a i).nRows, ∀ v < (Ac a i).nCols,
      |sideProd .right x.2.1.nRows (triEntry .upper false x.2.1) (lc (a - (i + 1))) u v -
        (Ac a i).entry u v| ≤ 2 * ((A0 i 0).nRows : K) * τ := by
    intro a ha hia
    have e := collect_ok hlc (a - (i + 1)) (by omega)
    rw [show i + 1 + (a - (i + 1)) = a by omega] at e
    obtain ⟨bw, bs, bsh, -⟩ := hI.todo a ha i hi (by omega) le_rfl
    have bd := bsh.dims (hAd a ha i hi).1
    have R := hsue _ _ _ P.uwf bw bs udsq ?_ ?_ Pe.ufill (fillA a ha i hi (by omega) le_rfl) e
    · rw [P.urows, hsz] at R
      rw [P.urows, hsz]
      exact R
    · exact P.ud.triFits ((dsh.diagShape (hFd i hi)).triFits ((hF.2.2 i hi a ha hia).1.shape bsh))
    · show x.2.1.nRows = (Ac a i).nCols
      rw [P.urows, dn, bd.2, (hAd a ha i hi).2.2, dd.2, (hAd i hi i hi).2.2]
  have urE : ∀ b < n, i < b → ∀ u < (Ac i b).nRows, ∀ v < (Ac i b).nCols,
      |sideProd .left x.1.nRows (triEntry .lower true x.1) (ur (b - (i + 1))) u v -
        (Ac i b).entry u v| ≤ 2 * ((A0 i 0).nRows : K) * τ := by
    intro b hb hib
    have e := collect_ok hur (b - (i + 1)) (by omega)
    rw [show i + 1 + (b - (i + 1)) = b by omega] at e
    obtain ⟨bw, bs, bsh, -⟩ := hI.todo i hi b hb le_rfl (by omega)
    have bd := bsh.dims (hAd i hi b hb).1
    have R := hsle _ _ _ P.lwf bw bs ldsq ?_ ?_ Pe.lfill (fillA i hi b hb le_rfl (by omega)) e
    · rw [P.lrows, hsz] at R
      rw [P.lrows, hsz]
      exact R
    · exact P.ld.triFits ((dsh.diagShape (hFd i hi)).triFits ((hF.2.2 i hi b hb hib).2.shape bsh))
    · show x.1.nRows = (Ac i b).nRows
      rw [P.lrows, bd.1, (hAd i hi b hb).2.1, dd.1, (hAd i hi i hi).2.1]
  have upE : ∀ a < n, i < a → ∀ b < n, i < b → ∀ u < (Ac a b).nRows, ∀ v < (Ac a b).nCols,
      |(up (a - (i + 1)) (b - (i + 1))).entry u v - ((Ac a b).entry u v -
        prodEntry false false (lc (a - (i + 1))) (ur (b - (i + 1))) u v)| ≤
        2 * ((A0 i 0).nRows : K) * τ := by
    intro a ha hia b hb hib u hu v hv
    have e := collect2_ok hup (a - (i + 1)) (by omega) (b - (i + 1)) (by omega)
    rw [show i + 1 + (a - (i + 1)) = a by omega, show i + 1 + (b - (i + 1)) = b by omega] at e
    obtain ⟨bw, bs, -, -⟩ := hI.todo a ha b hb (by omega) (by omega)
    have R := he _ _ _ _ _ _ _ _ (lcP a ha hia).wf (urP b hb hib).wf bw bs (TransSafe_ff _ _)
      (Wide.innr ((fillA a ha i hi (by omega) le_rfl).1.shape (lcP a ha hia).shape)
        ((fillA i hi b hb le_rfl (by omega)).2.shape (urP b hb hib).shape)) e u hu v hv
    have w : (lc (a - (i + 1))).opCols false = (A0 i 0).nRows := by
      obtain ⟨bw, bs, bsh, -⟩ := hI.todo a ha i hi (by omega) le_rfl
      have bd := bsh.dims (hAd a ha i hi).1
      have ld := (lcP a ha hia).shape.dims bw
      show (lc (a - (i + 1))).nCols = _
      rw [ld.2, bd.2, (hAd a ha i hi).2.2, ← hsz, dn, dd.2, (hAd i hi i hi).2.2]
    rw [w] at R
    rw [show (Ac a b).entry u v - prodEntry false false (lc (a - (i + 1))) (ur (b - (i + 1))) u v =
      -1 * prodEntry false false (lc (a - (i + 1))) (ur (b - (i + 1))) u v + 1 * (Ac a b).entry u v by ring]
    exact R
  refine ⟨x.2.2, ?_, ?_, ?_, rfl, fun a b hab => ⟨Lold a b hab, Uold a b hab⟩, ?_⟩
  · simp only
    rw [Ldiag, Udiag]
    exact hx
  · simp only
    rw [Ldiag, Udiag]
    exact P
  · simp only
    rw [Ldiag, Udiag]
    exact ⟨Pe.lfill, Pe.ufill⟩
  · intro a ha b hb hia hib hfl u hu v hv
    simp only
    obtain ⟨bw, bs, bsh, be⟩ := hI.todo a ha b hb hia hib
    simp only at bw bs bsh be
    have bd := bsh.dims (hAd a ha b hb).1
    by_cases hab : i < a ∧ i < b
    · rw [if_pos hab, Llow a hab.1, Uup b hab.2, Utr a b hab.1 hab.2]
      have G := upE a ha hab.1 b hb hab.2 u (by rw [bd.1]; exact hu) v (by rw [bd.2]; exact hv)
      refine le_trans (le_of_eq ?_) G
      congr 1
      ring
    rw [if_neg hab, add_zero]
    have e : min a b = i := by omega
    rcases Nat.lt_trichotomy a b with hlt | heq | hgt
    · have hai : a = i := by omega
      subst hai
      rw [Ldiag, Uup b hlt]
      refine le_trans (le_of_eq ?_)
        (urE b hb hlt u (by rw [bd.1]; exact hu) v (by rw [bd.2]; exact hv))
      congr 2
      show ∑ l ∈ range x.1.nCols, x.1.entry u l * (ur (b - (a + 1))).entry l v = _
      rw [P.lcols, ← dn, ← P.lrows]
      refine Finset.sum_congr rfl (fun l hl => ?_)
      have hl := mem_range.1 hl
      rw [P.low u (by rw [dd.1, (hAd a ha a ha).2.1, ← (hAd a ha b hb).2.1]; exact hu) l
        (by rw [← dn, ← P.lrows]; exact hl)]
    · have hai : a = i := by omega
      subst hai
      subst heq
      rw [Ldiag, Udiag, ← hsz]
      exact Pe.ent (hfl rfl rfl) u (by rw [bd.1]; exact hu) v (by rw [bd.2]; exact hv)
    · have hbi : b = i := by omega
      subst hbi
      rw [Udiag, Llow a hgt]
      have td := (lcP a ha hgt).shape.dims bw
      refine le_trans (le_of_eq ?_)
        (lcE a ha hgt u (by rw [bd.1]; exact hu) v (by rw [bd.2]; exact hv))
      congr 2
      show ∑ l ∈ range (lc (a - (b + 1))).nCols, (lc (a - (b + 1))).entry u l * x.2.1.entry l v = _
      have : (lc (a - (b + 1))).nCols = x.2.1.nRows := by
        rw [td.2, bd.2, (hAd a ha b hb).2.2, P.urows, dn, dd.2, (hAd b hb b hb).2.2]
      rw [this]
      refine Finset.sum_congr rfl (fun l hl => ?_)
      have hl := mem_range.1 hl
      rw [P.up l (by rw [← P.urows]; exact hl) v
        (by rw [dd.2, (hAd b hb b hb).2.2, ← (hAd a ha b hb).2.2]; exact hv)]

/-- One elimination step. -/
theorem getrfStep_err {ex : Prop} {g : GemmT K} (hg : GemmOk ex False g) {τ : K} (hτ : 0 ≤ τ)
    (he : GemmErr τ g) {n : Nat}
    {A0 : Nat → Nat → Mat K} (hA : (Mat.hier n n A0).WF) (hF : (Mat.hier n n A0).LuFits)
    (hFl : (Mat.hier n n A0).Filled)
    {f : Mat K → Except Err (Mat K × Mat K × Bool)}
    (hf : ∀ A r, A.WF → A.Square → A.LuFits → f A = .ok r → LuPost ex r.2.2 A r.1 r.2.1)
    (hfe : ∀ A r, A.WF → A.Square → A.LuFits → A.Filled → f A = .ok r → LuErr τ r.2.2 A r.1 r.2.1)
    {su sl : Mat K → Mat K → Except Err (Mat K)}
    (hsu : ∀ A B B', A.WF → B.WF → B.Square → A.DiagSquare → TriFits .right A B → A.nRows = B.nCols →
      su A B = .ok B' → TrsmPost ex .right (triEntry .upper false A) A.nRows B B')
    (hsl : ∀ A B B', A.WF → B.WF → B.Square → A.DiagSquare → TriFits .left A B → A.nRows = B.nRows →
      sl A B = .ok B' → TrsmPost ex .left (triEntry .lower true A) A.nRows B B')
    (hsue : ∀ A B B', A.WF → B.WF → B.Square → A.DiagSquare → TriFits .right A B → A.nRows = B.nCols →
      A.Filled → B.Filled → su A B = .ok B' → ∀ i < B.nRows, ∀ j < B.nCols,
        |sideProd .right A.nRows (triEntry .upper false A) B' i j - B.entry i j| ≤ 2 * (A.nRows : K) * τ)
    (hsle : ∀ A B B', A.WF → B.WF → B.Square → A.DiagSquare → TriFits .left A B → A.nRows = B.nRows →
      A.Filled → B.Filled → sl A B = .ok B' → ∀ i < B.nRows, ∀ j < B.nCols,
        |sideProd .left A.nRows (triEntry .lower true A) B' i j - B.entry i j| ≤ 2 * (A.nRows : K) * τ)
    {i : Nat} (hi : i < n) {st st' : LuState K} (hI : LuInv ex n A0 i st) (hE : LuErrInv τ n A0 i st)
    (h : getrfStep g f su sl n n i st = .ok st') : LuErrInv τ n A0 (i + 1) st' := by
  obtain ⟨fl, -, S⟩ := getrfStep_local hg hτ he hA hF hFl hf hfe hsu hsl hsue hsle hi hI h
  have sums : ∀ a b m u v, m ≤ i → ∑ t ∈ range m, prodEntry false false (st'.1 a t) (st'.2.1 t b) u v =
      ∑ t ∈ range m, prodEntry false false (st.1 a t) (st.2.1 t b) u v := by
    intro a b m u v hm
    refine Finset.sum_congr rfl (fun t ht => ?_)
    have := mem_range.1 ht
    rw [(S.old a t (by omega)).1, (S.old t b (by omega)).2]
  refine ⟨?_, ?_, ?_⟩
  · intro a ha b hb hia hib u hu v hv
    have T := hE.todo a ha b hb (by omega) (by omega) u hu v hv
    have G := S.loc a ha b hb (by omega) (by omega) (fun h => by omega) u hu v hv
    rw [if_pos (by omega)] at G
    rw [Finset.sum_range_succ, sums a b i u v le_rfl, psum_succ]
    have tri := abs_add_le (prodEntry false false (st'.1 a i) (st'.2.1 i b) u v +
        (st'.2.1 a b).entry u v - (st.2.1 a b).entry u v)
      ((st.2.1 a b).entry u v - ((A0 a b).entry u v -
        ∑ t ∈ range i, prodEntry false false (st.1 a t) (st.2.1 t b) u v))
    refine le_trans (le_of_eq ?_) (tri.trans ((add_le_add G T).trans (le_of_eq ?_)))
    · congr 1; ring
    · push_cast; ring
  · intro t htn ht
    by_cases e : t = i
    · subst e
      exact S.fill
    · rw [(S.old t t (by omega)).1, (S.old t t (by omega)).2]
      exact hE.fill t htn (by omega)
  · intro hfl a ha b hb hab u hu v hv
    rw [S.flag, Bool.or_eq_false_iff] at hfl
    by_cases e : min a b = i
    · rw [e, Finset.sum_range_succ, sums a b i u v le_rfl]
      have T := hE.todo a ha b hb (by omega) (by omega) u hu v hv
      have last := S.loc a ha b hb (by omega) (by omega) (fun _ _ => hfl.2) u hu v hv
      rw [if_neg (by omega), add_zero] at last
      have tri := abs_add_le (prodEntry false false (st'.1 a i) (st'.2.1 i b) u v - (st.2.1 a b).entry u v)
        ((st.2.1 a b).entry u v - ((A0 a b).entry u v -
          ∑ t ∈ range i, prodEntry false false (st.1 a t) (st.2.1 t b) u v))
      rw [psum_succ]
      refine le_trans (le_of_eq ?_) (tri.trans ((add_le_add last T).trans (le_of_eq ?_)))
      · congr 1; ring
      · push_cast; ring
    · rw [sums a b (min a b + 1) u v (by omega)]
      exact hE.ent hfl.1 a ha b hb (by omega) u hu v hv

/-- The product of the factors, block by block. -/
theorem LuInv.prod {ex : Prop} {n : Nat} {A0 : Nat → Nat → Mat K} (hA : (Mat.hier n n A0).WF)
    (hF : (Mat.hier n n A0).LuFits) {st : LuState K} (hI : LuInv ex n A0 n st) {a b x y : Nat}
    (ha : a < n) (hb : b < n) (hx : x < (A0 a 0).nRows) (hy : y < (A0 b 0).nRows) :
    prodEntry false false (.hier n n st.1) (.hier n n st.2.1)
      (psum (fun k => (A0 k 0).nRows) a + x) (psum (fun k => (A0 k 0).nRows) b + y) =
    ∑ t ∈ range (min a b + 1), prodEntry false false (st.1 a t) (st.2.1 t b) x y := by
  have hA' := hA
  simp only [WF] at hA'
  obtain ⟨hn0, -, hAd⟩ := hA'
  have hD := hF.diagSquare
  have hw := hD.widths hA
  have hFd : ∀ t < n, (A0 t t).DiagSquare := hD.2
  have lb : ∀ a < n, ∀ b < n, (st.1 a b).WF ∧ (st.1 a b).nRows = (A0 a 0).nRows ∧
      (st.1 a b).nCols = (A0 b 0).nRows := by
    intro a ha b hb
    rw [← hw b hb, ← (hAd a ha b hb).2.1, ← (hAd a ha b hb).2.2]
    rcases Nat.lt_trichotomy a b with hlt | heq | hgt
    · rw [(hI.up a ha ha b hb hlt).2.2.2]
      exact ⟨trivial, rfl, rfl⟩
    · subst heq
      obtain ⟨S, h1, h2, h3⟩ := hI.diag a ha ha
      have dd := h1.dims (hAd a ha a ha).1
      exact ⟨h3.lwf, h3.lrows.trans dd.1, h3.lcols.trans dd.2⟩
    · obtain ⟨h1, -, h2, -⟩ := hI.low b hb hb a ha hgt
      have dd := h2.dims (hAd a ha b hb).1
      exact ⟨h1, dd.1, dd.2⟩
  have ub : ∀ a < n, ∀ b < n, (st.2.1 a b).WF ∧ (st.2.1 a b).nRows = (A0 a 0).nRows ∧
      (st.2.1 a b).nCols = (A0 b 0).nRows := by
    intro a ha b hb
    rw [← hw b hb, ← (hAd a ha b hb).2.1, ← (hAd a ha b hb).2.2]
    rcases Nat.lt_trichotomy a b with hlt | heq | hgt
    · obtain ⟨h1, -, h2, -⟩ := hI.up a ha ha b hb hlt
      have dd := h2.dims (hAd a ha b hb).1
      exact ⟨h1, dd.1, dd.2⟩
    · subst heq
      obtain ⟨S, h1, h2, h3⟩ := hI.diag a ha ha
      have dd := h1.dims (hAd a ha a ha).1
      exact ⟨h3.uwf, h3.urows.trans dd.1, h3.ucols.trans dd.2⟩
    · rw [(hI.low b hb hb a ha hgt).2.2.2]
      exact ⟨trivial, rfl, rfl⟩
  have GL := hier_grid (blk := st.1) (h := fun a => (A0 a 0).nRows) (w := fun b => (A0 b 0).nRows) hn0 hn0 lb
  have GU := hier_grid (blk := st.2.1) (h := fun a => (A0 a 0).nRows) (w := fun b => (A0 b 0).nRows) hn0 hn0 ub
  have GA := hier_grid (blk := A0) (h := fun a => (A0 a 0).nRows) (w := fun b => (A0 b 0).nRows) hn0 hn0
    (fun a ha b hb => ⟨(hAd a ha b hb).1, (hAd a ha b hb).2.1, (hAd a ha b hb).2.2.trans (hw b hb)⟩)
  rw [prodEntry_ff, GL.2.2.1, sum_blocks]
  have all : ∀ t < n, ∑ l ∈ range ((fun b => (A0 b 0).nRows) t),
      (Mat.hier n n st.1).entry (psum (fun a => (A0 a 0).nRows) a + x)
        (psum (fun a => (A0 a 0).nRows) t + l) *
      (Mat.hier n n st.2.1).entry (psum (fun a => (A0 a 0).nRows) t + l)
        (psum (fun a => (A0 a 0).nRows) b + y) =
      if t < min a b + 1 then prodEntry false false (st.1 a t) (st.2.1 t b) x y else 0 := by
    intro t ht
    have e : ∑ l ∈ range ((fun b => (A0 b 0).nRows) t),
        (Mat.hier n n st.1).entry (psum (fun a => (A0 a 0).nRows) a + x)
          (psum (fun a => (A0 a 0).nRows) t + l) *
        (Mat.hier n n st.2.1).entry (psum (fun a => (A0 a 0).nRows) t + l)
          (psum (fun a => (A0 a 0).nRows) b + y) = prodEntry false false (st.1 a t) (st.2.1 t b) x y := by
      rw [prodEntry_ff, (lb a ha t ht).2.2]
      refine Finset.sum_congr rfl (fun l hl => ?_)
      have hl := mem_range.1 hl
      rw [(GL.2.2.2 a ha t ht x hx l hl).1, (GU.2.2.2 t ht b hb l hl y hy).1]
    rw [e]
    split
    · rfl
    · rename_i hnt
      by_cases hat : a < t
      · rw [(hI.up a ha ha t ht hat).2.2.2, prodEntry_ff]
        exact Finset.sum_eq_zero (fun l _ => by simp [entry])
      · rw [(hI.low b hb hb t ht (by omega)).2.2.2, prodEntry_ff]
        exact Finset.sum_eq_zero (fun l _ => by simp [entry])
  rw [Finset.sum_congr rfl (fun t ht => all t (mem_range.1 ht)), sum_below (by omega)]

/-- After the last step. -/
theorem LuErrInv.post {ex : Prop} {τ : K} (hτ : 0 ≤ τ) {n : Nat} {A0 : Nat → Nat → Mat K}
    (hA : (Mat.hier n n A0).WF)
    (hF : (Mat.hier n n A0).LuFits) (hFl : (Mat.hier n n A0).Filled) {st : LuState K}
    (hI : LuInv ex n A0 n st) (hE : LuErrInv τ n A0 n st) :
    LuErr τ st.2.2 (.hier n n A0) (.hier n n st.1) (.hier n n st.2.1) := by
  have hA' := hA
  simp only [WF] at hA'
  obtain ⟨hn0, -, hAd⟩ := hA'
  have hD := hF.diagSquare
  have hw := hD.widths hA
  have fE : ∀ a < n, ∀ b < n, (Mat.empty (A0 a b).nRows (A0 a b).nCols : Mat K).Filled :=
    fun a ha b hb => by
      have h1 := Wide.pos (hAd a ha b hb).1 (hFl.block ha hb).1
      have h2 := Wide.pos (hAd a ha b hb).1 (hFl.block ha hb).2
      exact ⟨h1, h2⟩
  have fL : ∀ a < n, ∀ b < n, (st.1 a b).Filled := by
    intro a ha b hb
    rcases Nat.lt_trichotomy a b with hlt | heq | hgt
    · rw [(hI.up a ha ha b hb hlt).2.2.2]
      exact fE a ha b hb
    · subst heq
      exact (hE.fill a ha ha).1
    · exact (hFl.block ha hb).shape (hI.low b hb hb a ha hgt).2.2.1
  have fU : ∀ a < n, ∀ b < n, (st.2.1 a b).Filled := by
    intro a ha b hb
    rcases Nat.lt_trichotomy a b with hlt | heq | hgt
    · exact (hFl.block ha hb).shape (hI.up a ha ha b hb hlt).2.2.1
    · subst heq
      exact (hE.fill a ha ha).2
    · rw [(hI.low b hb hb a ha hgt).2.2.2]
      exact fE a ha b hb
  refine ⟨⟨fun a ha b hb => (fL a ha b hb).1, fun a ha b hb => (fL a ha b hb).2⟩,
    ⟨fun a ha b hb => (fU a ha b hb).1, fun a ha b hb => (fU a ha b hb).2⟩, ?_⟩
  intro hfl i hi j hj
  have GA := hier_grid (blk := A0) (h := fun a => (A0 a 0).nRows) (w := fun b => (A0 b 0).nRows) hn0 hn0
    (fun a ha b hb => ⟨(hAd a ha b hb).1, (hAd a ha b hb).2.1, (hAd a ha b hb).2.2.trans (hw b hb)⟩)
  rw [GA.2.1] at hi
  rw [GA.2.2.1] at hj
  obtain ⟨a, ha, x, hx, rfl⟩ := exists_block _ _ _ hi
  obtain ⟨b, hb, y, hy, rfl⟩ := exists_block _ _ _ hj
  have E := hE.ent hfl a ha b hb (by omega) x (by rw [(hAd a ha b hb).2.1]; exact hx) y
    (by rw [(hAd a ha b hb).2.2, hw b hb]; exact hy)
  rw [(GA.2.2.2 a ha b hb x hx y hy).1, LuInv.prod hA hF hI ha hb hx hy, GA.2.1]
  refine E.trans ?_
  have m : psum (fun k => (A0 k 0).nRows) (min a b + 1) ≤ psum (fun k => (A0 k 0).nRows) n :=
    psum_mono _ (by omega)
  have m' : (psum (fun k => (A0 k 0).nRows) (min a b + 1) : K) ≤ (psum (fun k => (A0 k 0).nRows) n : K) := by
    exact_mod_cast m
  have := mul_le_mul_of_nonneg_right m' hτ
  linarith

theorem getrfWith_err {ex : Prop} {lu : Dense K → Dense K × Bool} (hlu : LuContract lu) {g : GemmT K}
    (hg : GemmOk ex False g) {τ : K} (hτ : 0 ≤ τ) (he : GemmErr τ g)
    {su sl : Mat K → Mat K → Except Err (Mat K)}
    (hsu : ∀ A B B', A.WF → B.WF → B.Square → A.DiagSquare → TriFits .right A B → A.nRows = B.nCols →
      su A B = .ok B' → TrsmPost ex .right (triEntry .upper false A) A.nRows B B')
    (hsl : ∀ A B B', A.WF → B.WF → B.Square → A.DiagSquare → TriFits .left A B → A.nRows = B.nRows →
      sl A B = .ok B' → TrsmPost ex .left (triEntry .lower true A) A.nRows B B')
    (hsue : ∀ A B B', A.WF → B.WF → B.Square → A.DiagSquare → TriFits .right A B → A.nRows = B.nCols →
      A.Filled → B.Filled → su A B = .ok B' → ∀ i < B.nRows, ∀ j < B.nCols,
        |sideProd .right A.nRows (triEntry .upper false A) B' i j - B.entry i j| ≤ 2 * (A.nRows : K) * τ)
    (hsle : ∀ A B B', A.WF → B.WF → B.Square → A.DiagSquare → TriFits .left A B → A.nRows = B.nRows →
      A.Filled → B.Filled → sl A B = .ok B' → ∀ i < B.nRows, ∀ j < B.nCols,
        |sideProd .left A.nRows (triEntry .lower true A) B' i j - B.entry i j| ≤ 2 * (A.nRows : K) * τ)
    (fuel : Nat) :
    ∀ A r, A.WF → A.Square → A.LuFits → A.Filled → getrfWith lu g su sl fuel A = .ok r →
      LuErr τ r.2.2 A r.1 r.2.1 := by
  induction fuel with
  | zero => intro A r _ _ _ _ h; cases h
  | succ fuel ih =>
    intro A r hA hs hF hFl h
    have P := getrfWith_ok hlu hg hsu hsl (fuel + 1) A r hA hs hF h
    cases A with
    | lowRank => exact hF.elim
    | empty => exact hF.elim
    | dense a =>
      have P' : LuPost True r.2.2 (.dense a) r.1 r.2.1 := getrfDense_ok hlu hF h
      refine ⟨?_, ?_, fun hfl i hi j hj => ?_⟩
      · simp only [getrfWith, getrfDense, except_bind_eq_ok, assertM_eq_ok] at h
        obtain ⟨-, -, h⟩ := h
        cases h
        exact hFl
      · simp only [getrfWith, getrfDense, except_bind_eq_ok, assertM_eq_ok] at h
        obtain ⟨-, -, h⟩ := h
        cases h
        exact hFl
      · rw [P'.ent hfl i hi j hj (Or.inr trivial), sub_self, abs_zero]
        positivity
    | hier p q A =>
      have hpq : p = q := hF.1
      subst hpq
      simp only [getrfWith, except_bind_eq_ok] at h
      obtain ⟨st, hst, h⟩ := h
      cases h
      have hA' := hA
      simp only [WF] at hA'
      have I := loop_inv (fun m st => LuInv ex p A m st ∧ LuErrInv τ p A m st) ?_
        (fun i hi a b hI hb => ⟨getrfStep_inv hg hA hF (getrfWith_ok hlu hg hsu hsl fuel) hsu hsl hi hI.1 hb,
          getrfStep_err hg hτ he hA hF hFl (getrfWith_ok hlu hg hsu hsl fuel) ih hsu hsl hsue hsle hi
            hI.1 hI.2 hb⟩) hst
      · exact LuErrInv.post hτ hA hF hFl I.1 I.2
      refine ⟨⟨fun a ha b hb _ _ => ⟨(hA'.2.2 a ha b hb).1, hs a ha b hb, SameShape.refl _,
        fun x _ y _ _ => by simp⟩, fun t _ h => by omega, fun t _ h => by omega, fun t _ h => by omega,
        fun _ a _ b _ h => by omega⟩, ⟨fun a ha b hb _ _ x _ y _ => by simp [psum], fun t _ h => by omega,
        fun _ a _ b _ h => by omega⟩⟩

theorem trsm_err {o : LrOps K} (hf : o.Fits False) {τ : K} (hτ : 0 ≤ τ) (hw : o.Within τ) {uplo : Uplo}
    {side : Side} (fuel : Nat) {A B B' : Mat K} (hA : A.WF) (hB : B.WF) (hBs : B.Square)
    (hD : A.DiagSquare) (hT : TriFits side A B) (hn : A.nRows = side.pick B.nRows B.nCols)
    (hAf : A.Filled) (hBf : B.Filled) (h : trsm o fuel A B uplo side = .ok B') :
    ∀ i < B.nRows, ∀ j < B.nCols,
      |sideProd side A.nRows (triEntry uplo (decide (uplo = .lower)) A) B' i j - B.entry i j| ≤
        2 * (A.nRows : K) * τ :=
  trsmWith_err (gemmBoth_ok hf fuel).1 hτ (gemmBoth_err hf hτ hw fuel) fuel A B B' hA hB hBs hD hT hn
    (by cases side; exacts [hAf.1, hAf.2]) (by cases side; exacts [hBf.2, hBf.1]) h

theorem getrf_err {lu : Dense K → Dense K × Bool} (hlu : LuContract lu) {o : LrOps K} (hf : o.Fits False)
    {τ : K} (hτ : 0 ≤ τ) (hw : o.Within τ)
    (fuel : Nat) {A L U : Mat K} {flag : Bool} (hA : A.WF) (hs : A.Square) (hF : A.LuFits) (hFl : A.Filled)
    (h : getrf lu o fuel A = .ok (L, U, flag)) : LuErr τ flag A L U :=
  getrfWith_err hlu (gemmBoth_ok hf fuel).1 hτ (gemmBoth_err hf hτ hw fuel)
    (fun A B B' h1 h2 h3 h4 h5 h6 h7 => by
      have := trsmWith_ok (gemmBoth_ok hf fuel).1 (side := .right) (uplo := .upper) fuel A B B' h1 h2 h3 h4 h5 h6 h7
      exact this)
    (fun A B B' h1 h2 h3 h4 h5 h6 h7 => by
      have := trsmWith_ok (gemmBoth_ok hf fuel).1 (side := .left) (uplo := .lower) fuel A B B' h1 h2 h3 h4 h5 h6 h7
      exact this)
    (fun A B B' h1 h2 h3 h4 h5 h6 h7 h8 h9 => by
      have := trsm_err hf hτ hw (side := .right) (uplo := .upper) fuel h1 h2 h3 h4 h5 h6 h7 h8 h9
      exact this)
    (fun A B B' h1 h2 h3 h4 h5 h6 h7 h8 h9 => by
      have := trsm_err hf hτ hw (side := .left) (uplo := .lower) fuel h1 h2 h3 h4 h5 h6 h7 h8 h9
      exact this)
    fuel A _ hA hs hF hFl h

end Mat
end Verif
