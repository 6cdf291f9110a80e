import Verif.Lemmas.FloatTri
import Verif.Lemmas.ErrLu
import Verif.Spec.FloatNorm

set_option linter.unusedVariables false

/-
LU factorization of matrices without low-rank blocks in floating-point arithmetic.
-/

namespace Verif
open Finset

namespace Mat

theorem DenseLeaves.noLowRank {A : Mat ℝ} (h : A.DenseLeaves) : A.NoLowRank := by
  induction A with
  | dense d => trivial
  | lowRank l => exact h.elim
  | empty => exact h.elim
  | hier p q A ih => exact fun i hi j hj => ih i j (h i hi j hj)

theorem abs_entry_plain {A : Mat ℝ} (hA : A.WF) (hd : A.NoLowRank) {i j : Nat} (hi : i < A.nRows)
    (hj : j < A.nCols) : A.abs.entry i j = |A.entry i j| := by
  induction A generalizing i j with
  | dense d => rfl
  | lowRank l => exact hd.elim
  | empty => exact abs_zero.symm
  | hier br bc blk ih =>
    have hA' := hA
    simp only [WF] at hA'
    rw [nRows_hier] at hi
    rw [nCols_hier] at hj
    obtain ⟨p, hp, r, hr, rfl⟩ := exists_block _ _ _ hi
    obtain ⟨q, hq, s, hs, rfl⟩ := exists_block _ _ _ hj
    have e := entry_block (blk := fun i j => (blk i j).abs) (r := r) (s := s) hp hq
      (by simpa using hr) (by simpa using hs)
    simp only [nRows_abs, nCols_abs] at e
    rw [abs, e, entry_block hp hq hr hs]
    exact ih p q (hA'.2.2 p hp q hq).1 (hd p hp q hq) (by rw [(hA'.2.2 p hp q hq).2.1]; exact hr)
      (by rw [(hA'.2.2 p hp q hq).2.2]; exact hs)

theorem lag_plain {A : Mat ℝ} (h : A.NoLowRank) : A.lag = 0 := by
  induction A with
  | dense d => rfl
  | lowRank l => exact h.elim
  | empty => rfl
  | hier br bc blk ih =>
    simp only [lag]
    refine Nat.le_zero.1 (Finset.sup_le fun i hi => Finset.sup_le fun j hj => ?_)
    rw [ih i j (h i (mem_range.1 hi) j (mem_range.1 hj))]

theorem triEntry_abs {A : Mat ℝ} (hA : A.WF) (hd : A.NoLowRank) (uplo : Uplo) (unit : Bool) {i j : Nat}
    (hi : i < A.nRows) (hj : j < A.nCols) : A.abs.triEntry uplo unit i j = |A.triEntry uplo unit i j| := by
  unfold triEntry
  rw [abs_entry_plain hA hd hi hj]
  split
  · split
    · exact abs_one.symm
    · rfl
  · cases uplo
    · show (if i < j then |A.entry i j| else 0) = |if i < j then A.entry i j else 0|
      split
      · rfl
      · exact abs_zero.symm
    · show (if j < i then |A.entry i j| else 0) = |if j < i then A.entry i j else 0|
      split
      · rfl
      · exact abs_zero.symm

theorem SameShape.abs {A B : Mat ℝ} (h : A.SameShape B) : A.abs.SameShape B.abs := by
  induction A generalizing B with
  | dense d => cases B <;> first | exact h.elim | exact h
  | lowRank l => cases B <;> first | exact h.elim | exact h
  | empty => cases B <;> first | exact h.elim | exact h
  | hier p q A ih =>
    cases B <;> try exact h.elim
    obtain ⟨rfl, rfl, h⟩ := h
    exact ⟨rfl, rfl, fun i hi j hj => ih i j (h i hi j hj)⟩

theorem DiagShape.abs {A B : Mat ℝ} (h : DiagShape A B) : DiagShape A.abs B.abs := by
  induction A generalizing B with
  | dense d => cases B <;> first | exact h.elim | exact h
  | lowRank l => cases B <;> exact h.elim
  | empty => cases B <;> exact h.elim
  | hier p q A ih =>
    cases B <;> try exact h.elim
    obtain ⟨rfl, rfl, h⟩ := h
    exact ⟨rfl, rfl, fun i hi => ih i i (h i hi)⟩

theorem Square.abs {A : Mat ℝ} (h : A.Square) : A.abs.Square := by
  induction A with
  | dense d => trivial
  | lowRank l => exact h
  | empty => trivial
  | hier p q A ih => exact fun i hi j hj => ih i j (h i hi j hj)

theorem LuPost.abs {A L U : Mat ℝ} (h : LuPost False true A L U) (hL : L.NoLowRank) (hU : U.NoLowRank) :
    LuPost False true A.abs L.abs U.abs := by
  refine ⟨WF_abs h.lwf, WF_abs h.uwf, Square.abs h.lsq, Square.abs h.usq, h.ld.abs, h.ud.abs, by simp [h.lrows],
    by simp [h.lcols], by simp [h.urows], by simp [h.ucols], ?_, ?_, fun e => (nomatch e)⟩
  · intro i hi j hj
    rw [nRows_abs] at hi
    rw [nCols_abs] at hj
    rw [triEntry_abs h.lwf hL _ _ (by rw [h.lrows]; exact hi) (by rw [h.lcols]; exact hj),
      abs_entry_plain h.lwf hL (by rw [h.lrows]; exact hi) (by rw [h.lcols]; exact hj), h.low i hi j hj]
  · intro i hi j hj
    rw [nRows_abs] at hi
    rw [nCols_abs] at hj
    rw [triEntry_abs h.uwf hU _ _ (by rw [h.urows]; exact hi) (by rw [h.ucols]; exact hj),
      abs_entry_plain h.uwf hU (by rw [h.urows]; exact hi) (by rw [h.ucols]; exact hj), h.up i hi j hj]

theorem triFits_abs {side : Side} {A B : Mat ℝ} (h : TriFits side A B) : TriFits side A.abs B.abs := by
  induction A generalizing B with
  | dense d => cases B <;> trivial
  | lowRank l => cases B <;> exact h
  | empty => cases B <;> exact h
  | hier p q A ih =>
    cases B with
    | hier r s B => exact ⟨h.1, fun i hi j hj => ih _ _ (h.2 i hi j hj)⟩
    | _ => trivial

theorem luFits_abs {A : Mat ℝ} (h : A.LuFits) : A.abs.LuFits := by
  induction A with
  | dense d => exact h
  | lowRank l => exact h.elim
  | empty => exact h.elim
  | hier p q A ih => exact ⟨h.1, fun i hi => ih i i (h.2.1 i hi), fun i hi k hk hik =>
      ⟨triFits_abs (h.2.2 i hi k hk hik).1, triFits_abs (h.2.2 i hi k hk hik).2⟩⟩

variable {u : ℝ}

/-- Result of a factorization in floating-point arithmetic. -/
structure FlLu (u : ℝ) (flag : Bool) (A L U : Mat ℝ) : Prop where
  pos : LuPost False true A L U
  lfill : L.Filled
  ufill : U.Filled
  lplain : L.NoLowRank
  uplain : U.NoLowRank
  ent : flag = false → ∀ i < A.nRows, ∀ j < A.nCols,
    |prodEntry false false L U i j - A.entry i j| ≤ ((1 + u) ^ (A.nRows * 3) - 1) *
      (prodEntry false false L.abs U.abs i j + A.abs.entry i j)

/-- State of the elimination after `m` steps. -/
structure FlLuInv (u : ℝ) (n : Nat) (A0 : Nat → Nat → Mat ℝ) (m : Nat) (st : LuState ℝ) : Prop where
  todo : ∀ a < n, ∀ b < n, m ≤ a → m ≤ b → (st.2.1 a b).WF ∧ (A0 a b).SameShape (st.2.1 a b) ∧
    ∀ x < (A0 a b).nRows, ∀ y < (A0 a b).nCols,
      FlNear u (psum (fun t => (A0 t 0).nRows) m * 3) ((st.2.1 a b).entry x y)
        ((A0 a b).entry x y - ∑ t ∈ range m, prodEntry false false (st.1 a t) (st.2.1 t b) x y)
        (∑ t ∈ range m, prodEntry false false (st.1 a t).abs (st.2.1 t b).abs x y + (A0 a b).abs.entry x y)
  diag : ∀ t < n, t < m → ∃ S, (A0 t t).SameShape S ∧ S.WF ∧ LuPost False true S (st.1 t t) (st.2.1 t t) ∧
    (st.1 t t).Filled ∧ (st.2.1 t t).Filled ∧ (st.1 t t).NoLowRank ∧ (st.2.1 t t).NoLowRank
  low : ∀ t < n, t < m → ∀ a < n, t < a → (st.1 a t).WF ∧
    (A0 a t).SameShape (st.1 a t) ∧ st.2.1 a t = .empty (A0 a t).nRows (A0 a t).nCols
  up : ∀ t < n, t < m → ∀ b < n, t < b → (st.2.1 t b).WF ∧
    (A0 t b).SameShape (st.2.1 t b) ∧ st.1 t b = .empty (A0 t b).nRows (A0 t b).nCols
  ent : st.2.2 = false → ∀ a < n, ∀ b < n, min a b < m →
    ∀ x < (A0 a b).nRows, ∀ y < (A0 a b).nCols,
      |∑ t ∈ range (min a b + 1), prodEntry false false (st.1 a t) (st.2.1 t b) x y - (A0 a b).entry x y| ≤
      ((1 + u) ^ (psum (fun t => (A0 t 0).nRows) (min a b + 1) * 3) - 1) *
      (∑ t ∈ range (min a b + 1), prodEntry false false (st.1 a t).abs (st.2.1 t b).abs x y +
        (A0 a b).abs.entry x y)

/-- One elimination step. -/
theorem getrfStep_fl (u0 : 0 ≤ u) {g : GemmT ℝ} (hg : GemmFl u g) {n : Nat}
    {A0 : Nat → Nat → Mat ℝ} (hA : (Mat.hier n n A0).WF) (hF : (Mat.hier n n A0).LuFits)
    (hFl : (Mat.hier n n A0).Filled) (hDl : (Mat.hier n n A0).DenseLeaves)
    {f : Mat ℝ → Except Err (Mat ℝ × Mat ℝ × Bool)}
    (hf : ∀ A r, A.WF → A.DenseLeaves → A.LuFits → A.Filled → f A = .ok r → FlLu u r.2.2 A r.1 r.2.1)
    {su sl : Mat ℝ → Mat ℝ → Except Err (Mat ℝ)}
    (hsu : ∀ A B B', A.WF → B.WF → B.DenseLeaves → A.DiagSquare → TriFits .right A B → A.nRows = B.nCols →
      A.Filled → B.Filled → A.NoLowRank → su A B = .ok B' → TrsmFl u 3 .upper .right A B B')
    (hsl : ∀ A B B', A.WF → B.WF → B.DenseLeaves → A.DiagSquare → TriFits .left A B → A.nRows = B.nRows →
      A.Filled → B.Filled → A.NoLowRank → sl A B = .ok B' → TrsmFl u 3 .lower .left A B B')
    {i : Nat} (hi : i < n) {st st' : LuState ℝ} (hI : FlLuInv u n A0 i st)
    (h : getrfStep g f su sl n n i st = .ok st') : FlLuInv u n A0 (i + 1) st' := by
  obtain ⟨Lc, Ac, fl⟩ := st
  simp only [getrfStep, except_bind_eq_ok] at h
  obtain ⟨d, hd, x, hx, lc, hlc, ur, hur, up, hup, h⟩ := h
  cases h
  obtain ⟨-, -, rfl⟩ := blockAt_ok hd
  have hA' := hA
  simp only [WF] at hA'
  obtain ⟨hn0, -, hAd⟩ := hA'
  have hFd : ∀ t < n, (A0 t t).DiagSquare := hF.diagSquare.2
  have fillA : ∀ a < n, ∀ b < n, i ≤ a → i ≤ b → (Ac a b).Filled := fun a ha b hb h1 h2 =>
    (hFl.block ha hb).shape (hI.todo a ha b hb h1 h2).2.1
  have leafA : ∀ a < n, ∀ b < n, i ≤ a → i ≤ b → (Ac a b).DenseLeaves := fun a ha b hb h1 h2 =>
    (hDl a ha b hb).shape (hI.todo a ha b hb h1 h2).2.1
  -- the pivot block
  obtain ⟨dw, dsh, dent⟩ := hI.todo i hi i hi le_rfl le_rfl
  simp only at dw dsh dent
  have Q := hf _ _ dw (leafA i hi i hi le_rfl le_rfl) ((hF.2.1 i hi).shape dsh)
    (fillA i hi i hi le_rfl le_rfl) hx
  have P := Q.pos
  have PA := P.abs Q.lplain Q.uplain
  have dd := dsh.dims (hAd i hi i hi).1
  have dsq : (Ac i i).DiagSquare := (dsh.diagShape (hFd i hi)).diagSquare (hFd i hi)
  have dn := dsq.dims dw
  have udsq := P.ud.diagSquare dsq
  have ldsq := P.ld.diagSquare dsq
  have hsz : (Ac i i).nRows = (A0 i 0).nRows := dd.1.trans (hAd i hi i hi).2.1
  -- block column of `L`
  have lcP : ∀ a < n, i < a → TrsmFl u 3 .upper .right x.2.1 (Ac a i) (lc (a - (i + 1))) := by
    intro a ha hia
    have e := collect_ok hlc (a - (i + 1)) (by omega)
    rw [show i + 1 + (a - (i + 1)) = a by omega] at e
    obtain ⟨bw, bsh, -⟩ := hI.todo a ha i hi (by omega) le_rfl
    have bd := bsh.dims (hAd a ha i hi).1
    refine hsu _ _ _ P.uwf bw (leafA a ha i hi (by omega) le_rfl) udsq ?_ ?_ Q.ufill
      (fillA a ha i hi (by omega) le_rfl) Q.uplain e
    · exact P.ud.triFits ((dsh.diagShape (hFd i hi)).triFits ((hF.2.2 i hi a ha hia).1.shape bsh))
    · show x.2.1.nRows = (Ac a i).nCols
      rw [P.urows, dn, bd.2, (hAd a ha i hi).2.2, dd.2, (hAd i hi i hi).2.2]
  -- block row of `U`
  have urP : ∀ b < n, i < b → TrsmFl u 3 .lower .left x.1 (Ac i b) (ur (b - (i + 1))) := by
    intro b hb hib
    have e := collect_ok hur (b - (i + 1)) (by omega)
    rw [show i + 1 + (b - (i + 1)) = b by omega] at e
    obtain ⟨bw, bsh, -⟩ := hI.todo i hi b hb le_rfl (by omega)
    have bd := bsh.dims (hAd i hi b hb).1
    refine hsl _ _ _ P.lwf bw (leafA i hi b hb le_rfl (by omega)) ldsq ?_ ?_ Q.lfill
      (fillA i hi b hb le_rfl (by omega)) Q.lplain e
    · exact P.ld.triFits ((dsh.diagShape (hFd i hi)).triFits ((hF.2.2 i hi b hb hib).2.shape bsh))
    · show x.1.nRows = (Ac i b).nRows
      rw [P.lrows, bd.1, (hAd i hi b hb).2.1, dd.1, (hAd i hi i hi).2.1]
  -- trailing blocks
  have lcw : ∀ a < n, i < a → (lc (a - (i + 1))).nCols = (A0 i 0).nRows := by
    intro a ha hia
    obtain ⟨bw, bsh, -⟩ := hI.todo a ha i hi (by omega) le_rfl
    have bd := bsh.dims (hAd a ha i hi).1
    have ld := (lcP a ha hia).shape.dims bw
    rw [ld.2, bd.2, (hAd a ha i hi).2.2, ← hsz, dn, dd.2, (hAd i hi i hi).2.2]
  have upP : ∀ a < n, i < a → ∀ b < n, i < b → FlPost u 3 (lc (a - (i + 1))) (ur (b - (i + 1))) (Ac a b)
      (up (a - (i + 1)) (b - (i + 1))) (-1) 1 false false := by
    intro a ha hia b hb hib
    have e := collect2_ok hup (a - (i + 1)) (by omega) (b - (i + 1)) (by omega)
    rw [show i + 1 + (a - (i + 1)) = a by omega, show i + 1 + (b - (i + 1)) = b by omega] at e
    obtain ⟨bw, -, -⟩ := hI.todo a ha b hb (by omega) (by omega)
    refine (hg _ _ _ _ _ _ _ _ _ (lcP a ha hia).wf (urP b hb hib).wf bw
      (leafA a ha b hb (by omega) (by omega)) (TransSafe_ff _ _)
      (Wide.innr ((fillA a ha i hi (by omega) le_rfl).1.shape (lcP a ha hia).shape)
        ((fillA i hi b hb le_rfl (by omega)).2.shape (urP b hb hib).shape)) ?_ e).2
    rw [lag_leaves ((leafA a ha i hi (by omega) le_rfl).shape (lcP a ha hia).shape),
      lag_leaves ((leafA i hi b hb le_rfl (by omega)).shape (urP b hb hib).shape)]
  -- the new state
  generalize hL : (fun a b => if a = i ∧ b = i then x.1
      else if b = i ∧ i < a then lc (a - (i + 1))
      else if a = i ∧ i < b then .empty (Ac a b).nRows (Ac a b).nCols
      else Lc a b) = L'
  generalize hU : (fun a b => if a = i ∧ b = i then x.2.1
      else if b = i ∧ i < a then .empty (Ac a b).nRows (Ac a b).nCols
      else if a = i ∧ i < b then ur (b - (i + 1))
      else if i < a ∧ i < b then up (a - (i + 1)) (b - (i + 1))
      else Ac a b) = U'
  have Lold : ∀ a b, a < i ∨ b < i → L' a b = Lc a b := by
    intro a b hab
    rw [← hL]
    simp only
    rw [if_neg (by omega), if_neg (by omega), if_neg (by omega)]
  have Uold : ∀ a b, a < i ∨ b < i → U' a b = Ac a b := by
    intro a b hab
    rw [← hU]
    simp only
    rw [if_neg (by omega), if_neg (by omega), if_neg (by omega), if_neg (by omega)]
  have Ldiag : L' i i = x.1 := by
    rw [← hL]
    simp
  have Udiag : U' i i = x.2.1 := by
    rw [← hU]
    simp
  have Llow : ∀ a, i < a → L' a i = lc (a - (i + 1)) := by
    intro a ha
    rw [← hL]
    simp only
    rw [if_neg (by omega), if_pos ⟨trivial, ha⟩]
  have Lup : ∀ b, i < b → L' i b = .empty (Ac i b).nRows (Ac i b).nCols := by
    intro b hb
    rw [← hL]
    simp only
    rw [if_neg (by omega), if_neg (by omega), if_pos ⟨trivial, hb⟩]
  have Ulow : ∀ a, i < a → U' a i = .empty (Ac a i).nRows (Ac a i).nCols := by
    intro a ha
    rw [← hU]
    simp only
    rw [if_neg (by omega), if_pos ⟨trivial, ha⟩]
  have Uup : ∀ b, i < b → U' i b = ur (b - (i + 1)) := by
    intro b hb
    rw [← hU]
    simp only
    rw [if_neg (by omega), if_neg (by omega), if_pos ⟨trivial, hb⟩]
  have Utr : ∀ a b, i < a → i < b → U' a b = up (a - (i + 1)) (b - (i + 1)) := by
    intro a b ha hb
    rw [← hU]
    simp only
    rw [if_neg (by omega), if_neg (by omega), if_neg (by omega), if_pos ⟨ha, hb⟩]
  -- sums over earlier steps
  have sums : ∀ a b m u v, m ≤ i → ∑ t ∈ range m, prodEntry false false (L' a t) (U' t b) u v =
      ∑ t ∈ range m, prodEntry false false (Lc a t) (Ac t b) u v := by
    intro a b m u v hm
    refine Finset.sum_congr rfl (fun t ht => ?_)
    have := mem_range.1 ht
    rw [Lold a t (by omega), Uold t b (by omega)]
  have sumsA : ∀ a b m u v, m ≤ i → ∑ t ∈ range m, prodEntry false false (L' a t).abs (U' t b).abs u v =
      ∑ t ∈ range m, prodEntry false false (Lc a t).abs (Ac t b).abs u v := by
    intro a b m u v hm
    refine Finset.sum_congr rfl (fun t ht => ?_)
    have := mem_range.1 ht
    rw [Lold a t (by omega), Uold t b (by omega)]
  refine ⟨?_, ?_, ?_, ?_, ?_⟩
  · intro a ha b hb hia hib
    obtain ⟨bw, bsh, be⟩ := hI.todo a ha b hb (by omega) (by omega)
    simp only at bw bsh be ⊢
    have G := upP a ha (by omega) b hb (by omega)
    rw [Utr a b (by omega) (by omega)]
    have bd := bsh.dims (hAd a ha b hb).1
    refine ⟨G.wf, bsh.trans G.shape, fun y hy v hv => ?_⟩
    have E := near_acc u0 (G.ent y (by rw [bd.1]; exact hy) v (by rw [bd.2]; exact hv)) (be y hy v hv)
    have w : (lc (a - (i + 1))).opCols false = (A0 i 0).nRows := lcw a ha (by omega)
    rw [w] at E
    rw [Finset.sum_range_succ, Finset.sum_range_succ, sums a b i y v le_rfl, sumsA a b i y v le_rfl,
      Llow a (by omega), Uup b (by omega), psum_succ, add_mul]
    convert E using 1
    · ring
    · rw [abs_neg, abs_one]; ring
  · intro t htn ht
    by_cases e : t = i
    · subst e
      exact ⟨_, dsh, dw, by simp only; rw [Ldiag, Udiag]; exact ⟨P, Q.lfill, Q.ufill, Q.lplain, Q.uplain⟩⟩
    · obtain ⟨S, h1, h2, h3⟩ := hI.diag t htn (by omega)
      refine ⟨S, h1, h2, ?_⟩
      simp only at h3 ⊢
      rw [Lold t t (by omega), Uold t t (by omega)]
      exact h3
  · intro t htn ht a ha hta
    by_cases e : t = i
    · subst e
      obtain ⟨bw, bsh, -⟩ := hI.todo a ha t htn (by omega) le_rfl
      have bd := bsh.dims (hAd a ha t htn).1
      have T := lcP a ha hta
      simp only
      rw [Llow a hta, Ulow a hta]
      simp only at bd
      refine ⟨T.wf, bsh.trans T.shape, ?_⟩
      rw [bd.1, bd.2]
    · have := hI.low t htn (by omega) a ha hta
      simp only at this ⊢
      rw [Lold a t (by omega), Uold a t (by omega)]
      exact this
  · intro t htn ht b hb htb
    by_cases e : t = i
    · subst e
      obtain ⟨bw, bsh, -⟩ := hI.todo t htn b hb le_rfl (by omega)
      have bd := bsh.dims (hAd t htn b hb).1
      have T := urP b hb htb
      simp only
      rw [Uup b htb, Lup b htb]
      simp only at bd
      refine ⟨T.wf, bsh.trans T.shape, ?_⟩
      rw [bd.1, bd.2]
    · have := hI.up t htn (by omega) b hb htb
      simp only at this ⊢
      rw [Lold t b (by omega), Uold t b (by omega)]
      exact this
  · intro hfl a ha b hb hab y hy v hv
    simp only [Bool.or_eq_false_iff] at hfl
    simp only
    by_cases e : min a b = i
    · rw [e, Finset.sum_range_succ, Finset.sum_range_succ, sums a b i y v le_rfl, sumsA a b i y v le_rfl]
      obtain ⟨bw, bsh, be⟩ := hI.todo a ha b hb (by omega) (by omega)
      simp only at bw bsh be
      have bd := bsh.dims (hAd a ha b hb).1
      have last : |prodEntry false false (L' a i) (U' i b) y v - (Ac a b).entry y v| ≤
          ((1 + u) ^ ((A0 i 0).nRows * 3) - 1) *
          (prodEntry false false (L' a i).abs (U' i b).abs y v + (Ac a b).abs.entry y v) := by
        rcases Nat.lt_trichotomy a b with hlt | heq | hgt
        · have hai : a = i := by omega
          subst hai
          rw [Ldiag, Uup b hlt]
          have T := (urP b hb hlt).ent y (by rw [bd.1]; exact hy) v (by rw [bd.2]; exact hv)
          rw [P.lrows, hsz] at T
          have hyl : y < (Ac a a).nRows := by
            rw [dd.1, (hAd a ha a ha).2.1, ← (hAd a ha b hb).2.1]; exact hy
          have e1 : prodEntry false false x.1 (ur (b - (a + 1))) y v =
              sideProd .left (A0 a 0).nRows (triEntry .lower (decide (Uplo.lower = .lower)) x.1)
                (ur (b - (a + 1))) y v := by
            rw [prodEntry_ff, P.lcols, ← dn, hsz]
            refine Finset.sum_congr rfl (fun l hl => ?_)
            have hl := mem_range.1 hl
            rw [P.low y hyl l (by rw [← dn, hsz]; exact hl)]
            rfl
          have e2 : prodEntry false false x.1.abs (ur (b - (a + 1))).abs y v =
              sideProd .left (A0 a 0).nRows (triEntry .lower (decide (Uplo.lower = .lower)) x.1.abs)
                (ur (b - (a + 1))).abs y v := by
            rw [prodEntry_ff, PA.lcols, nCols_abs, ← dn, hsz]
            refine Finset.sum_congr rfl (fun l hl => ?_)
            have hl := mem_range.1 hl
            rw [PA.low y (by rw [nRows_abs]; exact hyl) l (by rw [nCols_abs, ← dn, hsz]; exact hl)]
            rfl
          rw [e1, e2]
          exact T
        · have hai : a = i := by omega
          subst hai
          subst heq
          rw [Ldiag, Udiag, ← hsz]
          exact Q.ent hfl.2 y (by rw [bd.1]; exact hy) v (by rw [bd.2]; exact hv)
        · have hbi : b = i := by omega
          subst hbi
          rw [Udiag, Llow a hgt]
          have T := (lcP a ha hgt).ent y (by rw [bd.1]; exact hy) v (by rw [bd.2]; exact hv)
          rw [P.urows, hsz] at T
          have hvl : v < (Ac b b).nCols := by
            rw [dd.2, (hAd b hb b hb).2.2, ← (hAd a ha b hb).2.2]; exact hv
          have e1 : prodEntry false false (lc (a - (b + 1))) x.2.1 y v =
              sideProd .right (A0 b 0).nRows (triEntry .upper (decide (Uplo.upper = .lower)) x.2.1)
                (lc (a - (b + 1))) y v := by
            rw [prodEntry_ff, lcw a ha hgt]
            refine Finset.sum_congr rfl (fun l hl => ?_)
            have hl := mem_range.1 hl
            rw [P.up l (by rw [hsz]; exact hl) v hvl]
            rfl
          have e2 : prodEntry false false (lc (a - (b + 1))).abs x.2.1.abs y v =
              sideProd .right (A0 b 0).nRows (triEntry .upper (decide (Uplo.upper = .lower)) x.2.1.abs)
                (lc (a - (b + 1))).abs y v := by
            rw [prodEntry_ff, nCols_abs, lcw a ha hgt]
            refine Finset.sum_congr rfl (fun l hl => ?_)
            have hl := mem_range.1 hl
            rw [PA.up l (by rw [nRows_abs, hsz]; exact hl) v (by rw [nCols_abs]; exact hvl)]
            rfl
          rw [e1, e2]
          exact T
      have B := be y hy v hv
      have hb' : (Ac a b).abs.entry y v ≤ (1 + u) ^ (psum (fun t => (A0 t 0).nRows) i * 3) *
          (∑ t ∈ range i, prodEntry false false (Lc a t).abs (Ac t b).abs y v + (A0 a b).abs.entry y v) := by
        rw [abs_entry bw (leafA a ha b hb (by omega) (by omega)) (by rw [bd.1]; exact hy)
          (by rw [bd.2]; exact hv)]
        exact B.abs_le
      have p0 : 0 ≤ prodEntry false false (L' a i).abs (U' i b).abs y v :=
        (abs_nonneg _).trans (prod_abs_le _ _ _ _ _ _)
      have R := near_solve u0 last B hb' p0
      rw [psum_succ, add_mul]
      refine le_trans (le_of_eq ?_) (R.trans (le_of_eq ?_))
      · congr 1; ring
      · ring
    · rw [sums a b (min a b + 1) y v (by omega), sumsA a b (min a b + 1) y v (by omega)]
      exact hI.ent hfl.1 a ha b hb (by omega) y hy v hv

/-- After the last step. -/
theorem FlLuInv.post (u0 : 0 ≤ u) {n : Nat} {A0 : Nat → Nat → Mat ℝ}
    (hA : (Mat.hier n n A0).WF) (hF : (Mat.hier n n A0).LuFits) (hFl : (Mat.hier n n A0).Filled)
    (hDl : (Mat.hier n n A0).DenseLeaves) {st : LuState ℝ} (hI : FlLuInv u n A0 n st) :
    FlLu u st.2.2 (.hier n n A0) (.hier n n st.1) (.hier n n st.2.1) := by
  have hA' := hA
  simp only [WF] at hA'
  obtain ⟨hn0, -, hAd⟩ := hA'
  have hD := hF.diagSquare
  have hw := hD.widths hA
  have I : LuInv False n A0 n (st.1, st.2.1, true) :=
    ⟨fun a ha b hb h _ => by omega,
      fun t ht _ => by
        obtain ⟨S, h1, h2, h3, -⟩ := hI.diag t ht ht
        exact ⟨S, h1, h2, h3⟩,
      fun t ht _ a ha hta => by
        obtain ⟨h1, h2, h3⟩ := hI.low t ht ht a ha hta
        exact ⟨h1, ((hDl a ha t ht).shape h2).square, h2, h3⟩,
      fun t ht _ b hb htb => by
        obtain ⟨h1, h2, h3⟩ := hI.up t ht ht b hb htb
        exact ⟨h1, ((hDl t ht b hb).shape h2).square, h2, h3⟩,
      fun e => (nomatch e)⟩
  have IA : LuInv False n (fun a b => (A0 a b).abs) n
      ((fun a b => (st.1 a b).abs), (fun a b => (st.2.1 a b).abs), true) :=
    ⟨fun a ha b hb h _ => by omega,
      fun t ht _ => by
        obtain ⟨S, h1, h2, h3, -, -, h4, h5⟩ := hI.diag t ht ht
        exact ⟨S.abs, h1.abs, WF_abs h2, h3.abs h4 h5⟩,
      fun t ht _ a ha hta => by
        obtain ⟨h1, h2, h3⟩ := hI.low t ht ht a ha hta
        refine ⟨WF_abs h1, Square.abs ((hDl a ha t ht).shape h2).square, h2.abs, ?_⟩
        simp only [h3, abs, nRows_abs, nCols_abs],
      fun t ht _ b hb htb => by
        obtain ⟨h1, h2, h3⟩ := hI.up t ht ht b hb htb
        refine ⟨WF_abs h1, Square.abs ((hDl t ht b hb).shape h2).square, h2.abs, ?_⟩
        simp only [h3, abs, nRows_abs, nCols_abs],
      fun e => (nomatch e)⟩
  have fE : ∀ a < n, ∀ b < n, (Mat.empty (A0 a b).nRows (A0 a b).nCols : Mat ℝ).Filled :=
    fun a ha b hb => by
      have h1 := Wide.pos (hAd a ha b hb).1 (hFl.block ha hb).1
      have h2 := Wide.pos (hAd a ha b hb).1 (hFl.block ha hb).2
      exact ⟨h1, h2⟩
  have fL : ∀ a < n, ∀ b < n, (st.1 a b).Filled ∧ (st.1 a b).NoLowRank := by
    intro a ha b hb
    rcases Nat.lt_trichotomy a b with hlt | heq | hgt
    · rw [(hI.up a ha ha b hb hlt).2.2]
      exact ⟨fE a ha b hb, trivial⟩
    · subst heq
      obtain ⟨S, -, -, -, h1, -, h2, -⟩ := hI.diag a ha ha
      exact ⟨h1, h2⟩
    · have h := (hI.low b hb hb a ha hgt).2.1
      exact ⟨(hFl.block ha hb).shape h, ((hDl a ha b hb).shape h).noLowRank⟩
  have fU : ∀ a < n, ∀ b < n, (st.2.1 a b).Filled ∧ (st.2.1 a b).NoLowRank := by
    intro a ha b hb
    rcases Nat.lt_trichotomy a b with hlt | heq | hgt
    · have h := (hI.up a ha ha b hb hlt).2.1
      exact ⟨(hFl.block ha hb).shape h, ((hDl a ha b hb).shape h).noLowRank⟩
    · subst heq
      obtain ⟨S, -, -, -, -, h1, -, h2⟩ := hI.diag a ha ha
      exact ⟨h1, h2⟩
    · rw [(hI.low b hb hb a ha hgt).2.2]
      exact ⟨fE a ha b hb, trivial⟩
  refine ⟨I.post hA hF,
    ⟨fun a ha b hb => (fL a ha b hb).1.1, fun a ha b hb => (fL a ha b hb).1.2⟩,
    ⟨fun a ha b hb => (fU a ha b hb).1.1, fun a ha b hb => (fU a ha b hb).1.2⟩,
    fun a ha b hb => (fL a ha b hb).2, fun a ha b hb => (fU a ha b hb).2, ?_⟩
  intro hfl i hi j hj
  have GA := hier_grid (blk := A0) (h := fun a => (A0 a 0).nRows) (w := fun b => (A0 b 0).nRows) hn0 hn0
    (fun a ha b hb => ⟨(hAd a ha b hb).1, (hAd a ha b hb).2.1, (hAd a ha b hb).2.2.trans (hw b hb)⟩)
  have FA : (Mat.hier n n fun a b => (A0 a b).abs).LuFits := luFits_abs hF
  rw [abs_entry hA hDl hi hj]
  rw [GA.2.1] at hi
  rw [GA.2.2.1] at hj
  obtain ⟨a, ha, x, hx, rfl⟩ := exists_block _ _ _ hi
  obtain ⟨b, hb, y, hy, rfl⟩ := exists_block _ _ _ hj
  have hx' : x < (A0 a b).nRows := by rw [(hAd a ha b hb).2.1]; exact hx
  have hy' : y < (A0 a b).nCols := by rw [(hAd a ha b hb).2.2, hw b hb]; exact hy
  have E := hI.ent hfl a ha b hb (by omega) x hx' y hy'
  have pA := LuInv.prod (A0 := fun a b => (A0 a b).abs) (WF_abs hA) FA IA (x := x) (y := y) ha hb
    (by rw [nRows_abs]; exact hx) (by rw [nRows_abs]; exact hy)
  simp only [nRows_abs] at pA
  rw [(GA.2.2.2 a ha b hb x hx y hy).1, LuInv.prod hA hF I ha hb hx hy, GA.2.1]
  rw [show prodEntry false false (Mat.hier n n st.1).abs (Mat.hier n n st.2.1).abs
    (psum (fun a => (A0 a 0).nRows) a + x) (psum (fun a => (A0 a 0).nRows) b + y) = _ from pA]
  rw [← abs_entry (hAd a ha b hb).1 (hDl a ha b hb) hx' hy']
  refine E.trans (mul_le_mul_of_nonneg_right ?_ ?_)
  · have m : psum (fun k => (A0 k 0).nRows) (min a b + 1) * 3 ≤ psum (fun k => (A0 k 0).nRows) n * 3 :=
      Nat.mul_le_mul_right _ (psum_mono _ (by omega))
    have := pow_le_pow_right₀ (by linarith : (1 : ℝ) ≤ 1 + u) m
    linarith
  · exact add_nonneg (Finset.sum_nonneg fun t _ => (abs_nonneg _).trans (prod_abs_le _ _ _ _ _ _))
      ((abs_nonneg _).trans (abs_entry_le _ _ _))

theorem getrfDense_fl {F : FlLapack} (hF : F.Sound u) {a : Dense ℝ} (ha : a.rows = a.cols)
    (hfl : (Mat.dense a).Filled) {r : Mat ℝ × Mat ℝ × Bool} (h : getrfDense F.dgetrf a = .ok r) :
    FlLu u r.2.2 (.dense a) r.1 r.2.1 := by
  have u0 := hF.u0
  simp only [getrfDense, except_bind_eq_ok, assertM_eq_ok] at h
  obtain ⟨-, -, h⟩ := h
  cases h
  refine ⟨⟨trivial, trivial, trivial, trivial, ⟨rfl, rfl⟩, ⟨rfl, rfl⟩, rfl, rfl, rfl, rfl, ?_, ?_,
    fun e => (nomatch e)⟩, hfl, hfl, trivial, trivial, ?_⟩
  · intro i hi j hj
    simp only [entry, triEntry, if_true]
    by_cases h1 : j < i
    · rw [if_pos h1, if_neg (by omega), if_pos h1]
    · by_cases h2 : i = j
      · rw [if_neg h1, if_pos h2, if_pos h2]
      · rw [if_neg h1, if_neg h2, if_neg h2, if_neg h1]
  · intro i hi j hj
    simp only [entry, triEntry]
    by_cases h1 : j < i
    · rw [if_pos h1, if_neg (by omega), if_neg (by omega)]
    · by_cases h2 : i = j
      · rw [if_neg h1, if_pos h2]; simp
      · rw [if_neg h1, if_neg h2, if_pos (by omega)]
  · intro hflag i hi j hj
    have R := hF.dgetrf a ha hflag i hi j hj
    rw [prodEntry_ff, prodEntry_ff]
    simp only [abs, nCols, nRows, entry, Dense.abs] at R ⊢
    rw [← ha]
    refine R.trans (mul_le_mul_of_nonneg_right ?_ (by positivity))
    have m : a.rows + 2 ≤ a.rows * 3 := by
      have : 0 < a.rows := by
        have := hfl.2
        simpa [Wide, opCols, nRows] using this
      omega
    have := pow_le_pow_right₀ (by linarith : (1 : ℝ) ≤ 1 + u) m
    linarith

theorem getrfWith_fl {F : FlLapack} (hF : F.Sound u) {g : GemmT ℝ} (hg : GemmFl u g)
    {su sl : Mat ℝ → Mat ℝ → Except Err (Mat ℝ)}
    (hsu : ∀ A B B', A.WF → B.WF → B.DenseLeaves → A.DiagSquare → TriFits .right A B → A.nRows = B.nCols →
      A.Filled → B.Filled → A.NoLowRank → su A B = .ok B' → TrsmFl u 3 .upper .right A B B')
    (hsl : ∀ A B B', A.WF → B.WF → B.DenseLeaves → A.DiagSquare → TriFits .left A B → A.nRows = B.nRows →
      A.Filled → B.Filled → A.NoLowRank → sl A B = .ok B' → TrsmFl u 3 .lower .left A B B')
    (fuel : Nat) : ∀ A r, A.WF → A.DenseLeaves → A.LuFits → A.Filled →
      getrfWith F.dgetrf g su sl fuel A = .ok r → FlLu u r.2.2 A r.1 r.2.1 := by
  induction fuel with
  | zero => intro A r _ _ _ _ h; cases h
  | succ fuel ih =>
    intro A r hA hd hL hFl h
    cases A with
    | lowRank => exact hL.elim
    | empty => exact hL.elim
    | dense a => exact getrfDense_fl hF hL hFl h
    | hier p q A =>
      have hpq : p = q := hL.1
      subst hpq
      simp only [getrfWith, except_bind_eq_ok] at h
      obtain ⟨st, hst, h⟩ := h
      cases h
      have hA' := hA
      simp only [WF] at hA'
      have I := loop_inv (fun m st => FlLuInv u p A m st) ?_
        (fun i hi a b hI hb => getrfStep_fl hF.u0 hg hA hL hFl hd ih hsu hsl hi hI hb) hst
      · exact FlLuInv.post hF.u0 hA hL hFl hd I
      refine ⟨fun a ha b hb _ _ => ⟨(hA'.2.2 a ha b hb).1, SameShape.refl _, fun x hx y hy => ?_⟩,
        fun t _ h => by omega, fun t _ h => by omega, fun t _ h => by omega, fun _ a _ b _ h => by omega⟩
      simp only [Finset.range_zero, Finset.sum_empty, sub_zero, zero_add]
      exact ⟨by simp [psum], abs_entry_le _ _ _⟩

/-- `getrf` in floating-point arithmetic. -/
theorem getrf_fl {F : FlLapack} (hF : F.Sound u) (fuel : Nat) {A L U : Mat ℝ} {flag : Bool} (hA : A.WF)
    (hd : A.DenseLeaves) (hL : A.LuFits) (hFl : A.Filled) (h : F.getrf fuel A = .ok (L, U, flag)) :
    FlLu u flag A L U := by
  refine getrfWith_fl hF (Mat.gemmBoth_fl hF.toSound fuel).1 ?_ ?_ fuel A (L, U, flag) hA hd hL hFl h
  · intro A B B' wA wB dB sA tf hn fA fB pA h
    exact trsmWith_fl hF.u0 hF (Mat.gemmBoth_fl hF.toSound fuel).1 fuel wA wB (SolveTarget.leaves dB) sA tf hn
      fA.2 (WideLeaf.blocks (Or.inl fB.1)) (by rw [lag_plain pA]) h
  · intro A B B' wA wB dB sA tf hn fA fB pA h
    exact trsmWith_fl hF.u0 hF (Mat.gemmBoth_fl hF.toSound fuel).1 fuel wA wB (SolveTarget.leaves dB) sA tf hn
      fA.1 (WideLeaf.blocks (Or.inl fB.2)) (by rw [lag_plain pA]) h

end Mat
end Verif
