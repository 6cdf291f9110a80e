import Verif.Lemmas.QrTiledCols

/-!
Tiled Householder QR: the factorization.
-/

set_option linter.unusedSectionVars false
set_option linter.unusedVariables false

namespace Verif
open Finset

variable {R : Type} [CommRing R] [DecidableEq R]

namespace Mat

/-! ### factoring one block column -/

/-- The dense matrix of a dense tile. -/
def denseOf : Mat R → Dense R
  | .dense d => d
  | _ => ⟨0, 0, fun _ _ => 0⟩

/-- The calls of step `k` that work on block column `k`: `geqrt` on the diagonal tile, then
`tpqrt` with the tiles below. -/
def colFactor (K : QrKernels R) (p k : Nat) (c T : Nat → Mat R) :
    Except Err ((Nat → Mat R) × (Nat → Mat R)) := do
  let x ← geqrt K (c k) (T k)
  loop (p - (k + 1)) (fun u st => do
    let y ← tpqrt K (st.1 k) (st.1 (k + 1 + u)) (st.2 (k + 1 + u))
    .ok (putRow (putRow st.1 k y.1) (k + 1 + u) y.2.1, putRow st.2 (k + 1 + u) y.2.2))
    (putRow c k x.1, putRow T k x.2)

theorem LowEq.symm {X Y : Mat R} (h : LowEq X Y) : LowEq Y X := by
  obtain ⟨a, b, rfl, rfl, h1, h2, h3⟩ := h
  exact ⟨b, a, rfl, rfl, h1.symm, h2.symm, fun i j hij => (h3 i j hij).symm⟩

theorem tpqrt_lowEq {K : QrKernels R} {A B T : Mat R} {x : Mat R × Mat R × Mat R}
    (h : tpqrt K A B T = .ok x) : LowEq A x.1 := by
  obtain ⟨a, t, D, y, rfl, rfl, hD, hy, hu, h1, h2⟩ := tpqrt_inv h
  rw [h1]
  simp only [Dense.tpqrt] at hy
  split at hy
  case isFalse => cases hy
  case isTrue hc =>
  rw [← Except.ok.inj hy]
  refine ⟨_, _, rfl, rfl, rfl, rfl, fun i j hij => ?_⟩
  dsimp only
  rw [if_neg (by omega)]

theorem thops_one {h w : Nat → Nat} {Y : Nat → Nat → Mat R} {t : Nat → Nat → Dense R} {trans : Bool}
    {e : Nat × Nat} {v : Ix → R} : thops h w Y t trans [e] v = thop h w Y t trans e v := rfl

theorem thops_congrY {h w : Nat → Nat} {Y Y' : Nat → Nat → Mat R} {t t' : Nat → Nat → Dense R}
    {trans : Bool} {ks : List (Nat × Nat)} {v : Ix → R} (H : ∀ e ∈ ks, t e.2 e.1 = t' e.2 e.1 ∧
      pairV e.1 e.2 (Y e.2 e.1) = pairV e.1 e.2 (Y' e.2 e.1)) :
    thops h w Y t trans ks v = thops h w Y' t' trans ks v := by
  induction ks generalizing v with
  | nil => rfl
  | cons e ks ih =>
    have e1 : thop h w Y t trans e v = thop h w Y' t' trans e v := by
      funext x
      unfold thop
      rw [(H e List.mem_cons_self).1, (H e List.mem_cons_self).2]
    show thops h w Y t trans ks (thop h w Y t trans e v) = thops h w Y' t' trans ks (thop h w Y' t' trans e v)
    rw [e1]
    exact ih (fun e' he' => H e' (List.mem_cons_of_mem _ he'))

/-- The column with the eliminated entries replaced by zero: the tiles of block rows
`k+1..m-1` and the part below the diagonal of tile `k`. -/
def maskCol (k m : Nat) (c : Nat → Mat R) (y : Nat) (x : Ix) : R :=
  if (k < x.1 ∧ x.1 < m) ∨ (x.1 = k ∧ y < x.2) then 0 else (c x.1).entry x.2 y

theorem maskCol_zero {k m y b l : Nat} {c : Nat → Mat R} (hz : (k < b ∧ b < m) ∨ (b = k ∧ y < l)) :
    maskCol k m c y ⟨b, l⟩ = 0 := if_pos hz

theorem maskCol_keep {k m y b l : Nat} {c : Nat → Mat R} (hz : ¬ ((k < b ∧ b < m) ∨ (b = k ∧ y < l))) :
    maskCol k m c y ⟨b, l⟩ = (c b).entry l y := if_neg hz

theorem thop_in {h w : Nat → Nat} {Y : Nat → Nat → Mat R} {t : Nat → Nat → Dense R} {trans : Bool}
    {k i : Nat} {v : Ix → R} {x : Ix} (hx : x ∈ pairRows k i (w k) h) : thop h w Y t trans (k, i) v x =
      refl (pairRows k i (w k) h) (w k) (pairV k i (Y i k)) (opFun trans ((t i k).tri .upper false)) v x :=
  if_pos hx

theorem thop_out {h w : Nat → Nat} {Y : Nat → Nat → Mat R} {t : Nat → Nat → Dense R} {trans : Bool}
    {k i : Nat} {v : Ix → R} {x : Ix} (hx : ¬ x ∈ pairRows k i (w k) h) : thop h w Y t trans (k, i) v x = v x :=
  if_neg hx

/-- What the calls on block column `k` up to tile `m - 1` give. -/
structure FacInv (ex : Prop) (p k m : Nat) (h w : Nat → Nat) (c T : Nat → Mat R)
    (st : (Nat → Mat R) × (Nat → Mat R)) : Prop where
  wh : w k ≤ h k
  ok : ColOk ex p h (w k) st.1
  shape : ∀ i < p, (c i).SameShape (st.1 i)
  other : ∀ i, ¬ (k ≤ i ∧ i < m) → st.1 i = c i ∧ st.2 i = T i
  diag : ∃ d, st.1 k = .dense d
  hT : ∀ i, k ≤ i → i < m → st.2 i = .dense (denseOf (st.2 i)) ∧ (denseOf (st.2 i)).rows = w k ∧
    (denseOf (st.2 i)).cols = w k
  tile : ∀ i, k ≤ i → i < m → (st.1 i).IsTile
  orth : ∀ i, k ≤ i → i < m → TOrth h w (fun i _ => st.1 i) (fun i _ => denseOf (st.2 i)) (k, i)
  ent : ∀ y < w k, EqOn p h (maskCol k m st.1 y)
    (thops h w (fun i _ => st.1 i) (fun i _ => denseOf (st.2 i)) true (stepPairs m k) (colv c y))

theorem colFactor_ok {K : QrKernels R} (hK : QrContract K) {ex : Prop} {p k : Nat}
    {h w : Nat → Nat} {c T : Nat → Mat R} {st : (Nat → Mat R) × (Nat → Mat R)} (hkp : k < p)
    (hc : ColOk ex p h (w k) c) (hl : ∀ i, k < i → i < p → (c i).LrO)
    (hT : ∀ i, k < i → i < p → ∃ t, T i = .dense t ∧ t.rows = w k ∧ t.cols = w k)
    (hs : colFactor K p k c T = .ok st) : FacInv ex p k p h w c T st := by
  simp only [colFactor, except_bind_eq_ok] at hs
  obtain ⟨x, hx, hs⟩ := hs
  obtain ⟨a, a', t, ha, ha', ht, r1, r2, hle, t1, t2, key⟩ := geqrt_ok hK hx
  obtain ⟨gk, rk, ck⟩ := hc k hkp
  have ar : a.rows = h k := by rw [ha] at rk; exact rk
  have ac : a.cols = w k := by rw [ha] at ck; exact ck
  obtain ⟨ho, hfac⟩ := key k (w k) h ar.symm
  rw [ac] at ho hfac
  have shk : (c k).SameShape x.1 := by
    rw [ha, ha']
    exact ⟨r1.symm, r2.symm⟩
  have base : FacInv ex p k (k + 1) h w c T (putRow c k x.1, putRow T k x.2) := by
    have only : ∀ i, k ≤ i → i < k + 1 → i = k := fun i h1 h2 => by omega
    have pk : putRow c k x.1 k = x.1 := if_pos rfl
    have pt : putRow T k x.2 k = x.2 := if_pos rfl
    have hto : TOrth h w (fun i _ => putRow c k x.1 i) (fun i _ => denseOf (putRow T k x.2 i)) (k, k) := by
      show ReflOrth _ _ (pairV k k (putRow c k x.1 k)) ((denseOf (putRow T k x.2 k)).tri .upper false)
      rw [pk, pt, ht]
      exact ho
    refine ⟨by omega, ?_, ?_, ?_, ⟨a', by rw [← ha']; exact pk⟩, ?_, ?_, ?_, ?_⟩
    · intro i hi
      simp only [putRow]
      by_cases hik : i = k
      · subst hik
        rw [if_pos rfl]
        have d := shk.dims gk.wf
        exact ⟨gk.of_shape (by rw [ha']; trivial) (by rw [ha']; trivial) shk, d.1.trans rk, d.2.trans ck⟩
      · rw [if_neg hik]
        exact hc i hi
    · intro i hi
      simp only [putRow]
      by_cases hik : i = k
      · subst hik
        rw [if_pos rfl]
        exact shk
      · rw [if_neg hik]
        exact SameShape.refl _
    · intro i hi
      simp only [putRow]
      rw [if_neg (by omega), if_neg (by omega)]
      exact ⟨rfl, rfl⟩
    · intro i h1 h2
      rw [only i h1 h2]
      simp only
      rw [pt, ht]
      exact ⟨rfl, t1.trans ac, t2.trans ac⟩
    · intro i h1 h2
      rw [only i h1 h2]
      simp only
      rw [pk, ha']
      trivial
    · intro i h1 h2
      rw [only i h1 h2]
      exact hto
    · rintro y hy ⟨b, l⟩ hx'
      have e : stepPairs (k + 1) k = [(k, k)] := by simp [stepPairs]
      rw [e, thops_one]
      by_cases hb : b = k
      · subst hb
        have hlb : l < h b := (mem_rowsFrom.1 hx').2
        have hm : (⟨b, l⟩ : Ix) ∈ pairRows b b (w b) h := mem_pairRows.2 (Or.inl ⟨rfl, hlb⟩)
        rw [thop_in hm]
        simp only
        rw [pk, pt, ht]
        have := hfac y hy (colv c y) (by
          intro l' _
          simp only [colv, ha]
          rfl) ⟨b, l⟩ hm
        refine Eq.trans ?_ this.symm
        simp only
        by_cases hly : l ≤ y
        · rw [if_pos hly, maskCol_keep (by omega), pk, ha']
          rfl
        · rw [if_neg hly, maskCol_zero (by omega)]
      · rw [thop_out (fun hm => by
          rcases mem_pairRows.1 hm with h1 | h1
          · exact hb h1.1
          · exact h1.2.1 rfl), maskCol_keep (by omega)]
        simp only [colv, putRow, if_neg hb]
  have fin := loop_inv (fun u st => FacInv ex p k (k + 1 + u) h w c T st) base (by
    intro u hu st st' I hst
    simp only [except_bind_eq_ok] at hst
    obtain ⟨y, hy, hst⟩ := hst
    cases Except.ok.inj hst
    set i := k + 1 + u with hi
    have hip : i < p := by omega
    have hki : k ≠ i := by omega
    obtain ⟨si, sTi⟩ := I.other i (by omega)
    obtain ⟨ti, hti, tir, tic⟩ := hT i (by omega) hip
    obtain ⟨gi, ri, ci⟩ := I.ok i hip
    obtain ⟨gk', rk', ck'⟩ := I.ok k hkp
    have low := tpqrt_lowEq hy
    obtain ⟨d, d', s, s', hd, hd', hs0, hs', dr, dc, dl, sr, sc, le, tl, sh, wf', sq', P⟩ := tpqrt_ok hK gi.wf gi.sqr hy
    have dk : st.1 k = .dense d := hd
    rw [sTi, hti] at hs0
    cases hs0
    have lo : (st.1 i).LeftO := by
      have := hl i (by omega) hip
      rw [← si] at this
      generalize st.1 i = M at tl this
      cases M with
      | dense => trivial
      | lowRank l => exact this l rfl
      | hier => exact tl.elim
      | empty => exact tl.elim
    obtain ⟨hO, hF⟩ := P lo k i h hki ri.symm
    rw [ci] at hO hF
    have shk' : (st.1 k).SameShape y.1 := by
      rw [dk, hd']
      exact ⟨dr.symm, dc.symm⟩
    have dk2 := shk'.dims gk'.wf
    have di2 := sh.dims gi.wf
    have pi : putRow (putRow st.1 k y.1) i y.2.1 i = y.2.1 := if_pos rfl
    have pk : putRow (putRow st.1 k y.1) i y.2.1 k = y.1 := by simp [putRow, hki]
    have po : ∀ b, b ≠ i → b ≠ k → putRow (putRow st.1 k y.1) i y.2.1 b = st.1 b := by
      intro b h1 h2
      simp [putRow, h1, h2]
    have qi : putRow st.2 i y.2.2 i = y.2.2 := if_pos rfl
    have qo : ∀ b, b ≠ i → putRow st.2 i y.2.2 b = st.2 b := by
      intro b h1
      simp [putRow, h1]
    have pv : ∀ b, k ≤ b → b < i → pairV k b (putRow (putRow st.1 k y.1) i y.2.1 b) = pairV k b (st.1 b) := by
      intro b h1 h2
      by_cases hbk : b = k
      · subst hbk
        rw [pk]
        funext x a
        exact (low.pairV b x a).symm
      · rw [po b (by omega) hbk]
    refine ⟨I.wh, ?_, ?_, ?_, ⟨d', by rw [← hd']; exact pk⟩, ?_, ?_, ?_, ?_⟩
    · intro b hb
      simp only
      by_cases h1 : b = i
      · rw [h1, pi]
        exact ⟨gi.of_shape wf' sq' sh, di2.1.trans ri, di2.2.trans ci⟩
      · by_cases h2 : b = k
        · rw [h2, pk]
          exact ⟨gk'.of_shape (by rw [hd']; trivial) (by rw [hd']; trivial) shk', dk2.1.trans rk', dk2.2.trans ck'⟩
        · rw [po b h1 h2]
          exact I.ok b hb
    · intro b hb
      simp only
      by_cases h1 : b = i
      · rw [h1, pi]
        exact (I.shape i hip).trans sh
      · by_cases h2 : b = k
        · rw [h2, pk]
          exact (I.shape k hkp).trans shk'
        · rw [po b h1 h2]
          exact I.shape b hb
    · intro b hb
      simp only
      rw [po b (by omega) (by omega), qo b (by omega)]
      exact I.other b (by omega)
    · intro b h1 h2
      simp only
      by_cases hbi : b = i
      · rw [hbi, qi, hs']
        exact ⟨rfl, sr.trans tir, sc.trans tic⟩
      · rw [qo b hbi]
        exact I.hT b h1 (by omega)
    · intro b h1 h2
      simp only
      by_cases hbi : b = i
      · rw [hbi, pi]
        exact tl.of_shape sh
      · by_cases hbk : b = k
        · rw [hbk, pk, hd']
          trivial
        · rw [po b hbi hbk]
          exact I.tile b h1 (by omega)
    · intro b h1 h2
      unfold TOrth
      simp only
      by_cases hbi : b = i
      · rw [hbi, pi, qi, hs']
        exact hO
      · rw [qo b hbi, pv b h1 (by omega)]
        exact I.orth b h1 (by omega)
    · intro y' hy'
      have e : stepPairs (k + 1 + (u + 1)) k = stepPairs i k ++ [(k, i)] := by
        unfold stepPairs
        rw [show k + 1 + (u + 1) - k = (i - k) + 1 by omega, List.range_succ, List.map_append]
        simp only [List.map_cons, List.map_nil]
        rw [show k + (i - k) = i by omega]
      rw [e, thops_append]
      have rng : ∀ {b}, k ≤ b → b < p → InRange p h w (k, b) := fun h1 h2 => ⟨h1, h2, I.wh⟩
      have old : thops h w (fun b _ => putRow (putRow st.1 k y.1) i y.2.1 b)
          (fun b _ => denseOf (putRow st.2 i y.2.2 b)) true (stepPairs i k) (colv c y') =
          thops h w (fun i _ => st.1 i) (fun i _ => denseOf (st.2 i)) true (stepPairs i k) (colv c y') := by
        refine thops_congrY (fun e he => ?_)
        obtain ⟨e1, e2, e3⟩ := mem_stepPairs.1 he
        rw [qo e.2 (by omega), e1, pv e.2 e2 e3]
        exact ⟨rfl, rfl⟩
      refine EqOn.trans ?_ (thops_congr (ks := [(k, i)]) (by
        intro e he
        rw [List.mem_singleton.1 he]
        exact rng (by omega) hip) (EqOn.trans (I.ent y' hy') (fun z hz => congrFun old.symm z)))
      rintro ⟨b, l⟩ hz
      have hlb : l < h b := (mem_rowsFrom.1 hz).2
      rw [thops_one]
      have val : ∀ z ∈ pairRows k i (w k) h, thop h w (fun b _ => putRow (putRow st.1 k y.1) i y.2.1 b)
          (fun b _ => denseOf (putRow st.2 i y.2.2 b)) true (k, i) (maskCol k i st.1 y') z =
          if z.1 = k ∧ z.2 ≤ y' then d'.val z.2 y' else 0 := by
        intro z hz
        rw [thop_in hz]
        rw [pi, qi, hs']
        refine hF y' hy' _ (fun l' hl' => ?_) (fun l' hl' => ?_) z hz
        · by_cases hly : l' ≤ y'
          · rw [maskCol_keep (by omega), if_pos hly, dk]
            rfl
          · rw [maskCol_zero (by omega), if_neg hly]
        · rw [maskCol_keep (by omega)]
      by_cases hb : b = i
      · rw [hb] at hlb ⊢
        have hm : (⟨i, l⟩ : Ix) ∈ pairRows k i (w k) h := mem_pairRows.2 (Or.inl ⟨rfl, hlb⟩)
        rw [val _ hm, if_neg (fun e => hki e.1.symm), maskCol_zero (by omega)]
      · by_cases hb' : b = k
        · rw [hb'] at hlb ⊢
          by_cases hlw : l < w k
          · have hm : (⟨k, l⟩ : Ix) ∈ pairRows k i (w k) h := mem_pairRows.2 (Or.inr ⟨rfl, hki, hlw⟩)
            rw [val _ hm]
            simp only [true_and]
            by_cases hly : l ≤ y'
            · rw [maskCol_keep (by omega), if_pos hly, pk, hd']
              rfl
            · rw [maskCol_zero (by omega), if_neg hly]
          · rw [thop_out (fun hm => by
              rcases mem_pairRows.1 hm with h1 | h1
              · exact hki h1.1
              · exact hlw h1.2.2)]
            rw [maskCol_zero (by omega), maskCol_zero (by omega)]
        · rw [thop_out (fun hm => by
            rcases mem_pairRows.1 hm with h1 | h1
            · exact hb h1.1
            · exact hb' h1.1)]
          by_cases hkb : k < b ∧ b < i
          · rw [maskCol_zero (by omega), maskCol_zero (by omega)]
          · rw [maskCol_keep (by omega), maskCol_keep (by omega)]; exact congrArg (fun M => M.entry l y') (po b hb hb')) hs
  rw [show k + 1 + (p - (k + 1)) = p by omega] at fin
  exact fin

/-! ### the driver, column by column -/

variable {o : LrOps R}

theorem tiledInner_cols {K : QrKernels R} {fuel p q tr tc k i : Nat} (hki : k < i)
    {st st' : (Nat → Nat → Mat R) × (Nat → Nat → Mat R)}
    (h : tiledInner K o fuel p q tr tc k i st = .ok st') :
    (∃ y, tpqrt K (st.1 k k) (st.1 i k) (st.2 i k) = .ok y ∧
      (fun b => st'.1 b k) = putRow (putRow (fun b => st.1 b k) k y.1) i y.2.1 ∧
      (fun b => st'.2 b k) = putRow (fun b => st.2 b k) i y.2.2) ∧
    (∀ j, k < j → j < q → tstep o fuel st'.1 st'.2 true (k, i) (fun b => st.1 b j) = .ok (fun b => st'.1 b j)) ∧
    (∀ j, ¬ (k ≤ j ∧ j < q) → j ≠ k → (fun b => st'.1 b j) = fun b => st.1 b j) ∧
    ∀ j, j ≠ k → (fun b => st'.2 b j) = fun b => st.2 b j := by
  simp only [tiledInner, except_bind_eq_ok] at h
  obtain ⟨akk, h1, aik, h2, t, h3, y, hy, A, hA, h⟩ := h
  obtain ⟨-, -, rfl⟩ := blockAt_ok h1
  obtain ⟨-, -, rfl⟩ := blockAt_ok h2
  obtain ⟨-, -, rfl⟩ := blockAt_ok h3
  cases Except.ok.inj h
  have key := colLoop (n := q - (k + 1)) (k := k + 1)
    (f := fun j c => do
      let z ← tpmqrt o fuel true y.2.1 y.2.2 (c k) (c i)
      .ok (putRow (putRow c k z.1) i z.2)) (by
    intro u C D hD
    simp only [except_bind_eq_ok] at hD
    obtain ⟨z, hz, hD⟩ := hD
    refine ⟨putRow (putRow (fun b => C b (k + 1 + u)) k z.1) i z.2, ?_, ?_⟩
    · simp only [hz, except_bind_ok]
    · rw [← Except.ok.inj hD, putBlk_eq2]) hA
  have ck : (fun b => A b k) = putRow (putRow (fun b => st.1 b k) k y.1) i y.2.1 := by
    rw [(key k).2 (by omega), putBlk_eq2]
    funext b
    simp [putCol]
  have oth : ∀ j, j ≠ k → (fun b => putBlk (putBlk st.1 k k y.1) i k y.2.1 b j) = fun b => st.1 b j := by
    intro j hj
    funext b
    simp [putBlk, hj]
  refine ⟨⟨y, hy, ck, ?_⟩, ?_, ?_, ?_⟩
  · funext b
    simp [putBlk, putRow]
  · intro j h1 h2
    have := (key j).1 (by omega) (by omega)
    rw [oth j (by omega)] at this
    have e1 : A i k = y.2.1 := by
      have := congrFun ck i
      simpa [putRow] using this
    simp only [tstep, if_neg (show i ≠ k by omega), e1]
    rw [show putBlk st.2 i k y.2.2 i k = y.2.2 by simp [putBlk]]
    exact this
  · intro j hj hjk
    simp only
    rw [(key j).2 (by omega), oth j hjk]
  · intro j hj
    funext b
    simp [putBlk, hj]

theorem tiledStep_cols {K : QrKernels R} {fuel p q tr tc k : Nat}
    {st st' : (Nat → Nat → Mat R) × (Nat → Nat → Mat R)}
    (h : tiledStep K o fuel p q tr tc k st = .ok st') :
    k < p ∧ colFactor K p k (fun i => st.1 i k) (fun i => st.2 i k) =
      .ok (fun i => st'.1 i k, fun i => st'.2 i k) ∧
    (∀ j, k < j → j < q → runT o fuel st'.1 st'.2 true (stepPairs p k) (fun i => st.1 i j) =
      .ok (fun i => st'.1 i j)) ∧
    (∀ j, ¬ (k ≤ j ∧ j < q) → j ≠ k → (fun b => st'.1 b j) = fun b => st.1 b j) ∧
    ∀ j, j ≠ k → (fun b => st'.2 b j) = fun b => st.2 b j := by
  simp only [tiledStep, except_bind_eq_ok] at h
  obtain ⟨akk, h1, t, h2, x, hx, A, hA, h⟩ := h
  obtain ⟨hkp, -, rfl⟩ := blockAt_ok h1
  obtain ⟨-, -, rfl⟩ := blockAt_ok h2
  have key := colLoop (n := q - (k + 1)) (k := k + 1)
    (f := fun j c => do
      let z ← larfb true x.1 x.2 (c k)
      .ok (putRow c k z)) (by
    intro u C D hD
    simp only [except_bind_eq_ok] at hD
    obtain ⟨z, hz, hD⟩ := hD
    refine ⟨putRow (fun b => C b (k + 1 + u)) k z, ?_, ?_⟩
    · simp only [hz, except_bind_ok]
    · rw [← Except.ok.inj hD, putBlk_eq]) hA
  have ck : (fun b => A b k) = putRow (fun b => st.1 b k) k x.1 := by
    rw [(key k).2 (by omega), putBlk_eq]
    funext b
    simp [putCol]
  have oth : ∀ j, j ≠ k → (fun b => putBlk st.1 k k x.1 b j) = fun b => st.1 b j := by
    intro j hj
    funext b
    simp [putBlk, hj]
  have fin := loop_inv (fun u (s : (Nat → Nat → Mat R) × (Nat → Nat → Mat R)) =>
      loop u (fun u (st : (Nat → Mat R) × (Nat → Mat R)) => do
        let y ← tpqrt K (st.1 k) (st.1 (k + 1 + u)) (st.2 (k + 1 + u))
        .ok (putRow (putRow st.1 k y.1) (k + 1 + u) y.2.1, putRow st.2 (k + 1 + u) y.2.2))
        (putRow (fun i => st.1 i k) k x.1, putRow (fun i => st.2 i k) k x.2) =
        .ok (fun i => s.1 i k, fun i => s.2 i k) ∧
      (∀ j, k < j → j < q → runT o fuel s.1 s.2 true (stepPairs (k + 1 + u) k) (fun i => st.1 i j) =
        .ok (fun i => s.1 i j)) ∧
      (∀ j, ¬ (k ≤ j ∧ j < q) → j ≠ k → (fun b => s.1 b j) = fun b => st.1 b j) ∧
      ∀ j, j ≠ k → (fun b => s.2 b j) = fun b => st.2 b j) (by
    refine ⟨?_, ?_, ?_, ?_⟩
    · rw [loop_zero]
      simp only
      rw [ck]
      congr 2
      funext b
      simp [putBlk, putRow]
    · intro j h1 h2
      have := (key j).1 (by omega) (by omega)
      rw [oth j (by omega)] at this
      rw [show stepPairs (k + 1 + 0) k = [(k, k)] by simp [stepPairs], runT_one]
      have e1 : A k k = x.1 := by
        have := congrFun ck k
        simpa [putRow] using this
      simp only [tstep, if_true, e1]
      rw [show putBlk st.2 k k x.2 k k = x.2 by simp [putBlk]]
      exact this
    · intro j hj hjk
      simp only
      rw [(key j).2 (by omega), oth j hjk]
    · intro j hj
      funext b
      simp [putBlk, hj]) (by
    intro u hu s s' ⟨i1, i2, i3, i4⟩ hs
    obtain ⟨⟨y, hy, c1, c2⟩, c3, c4, c5⟩ := tiledInner_cols (by omega) hs
    refine ⟨?_, ?_, ?_, ?_⟩
    · rw [loop_succ, i1, except_bind_ok]
      simp only
      rw [hy, except_bind_ok, c1, c2]
    · intro j h1 h2
      have e : stepPairs (k + 1 + (u + 1)) k = stepPairs (k + 1 + u) k ++ [(k, k + 1 + u)] := by
        unfold stepPairs
        rw [show k + 1 + (u + 1) - k = (k + 1 + u - k) + 1 by omega, List.range_succ, List.map_append]
        simp only [List.map_cons, List.map_nil]
        rw [show k + (k + 1 + u - k) = k + 1 + u by omega]
      have cong : runT o fuel s'.1 s'.2 true (stepPairs (k + 1 + u) k) (fun i => st.1 i j) =
          runT o fuel s.1 s.2 true (stepPairs (k + 1 + u) k) (fun i => st.1 i j) := by
        refine runT_congr (fun e he => ?_)
        obtain ⟨e1, e2, e3⟩ := mem_stepPairs.1 he
        rw [e1]
        have t1 := congrFun c2 e.2
        have t2 := congrFun c1 e.2
        simp only [putRow, if_neg (show e.2 ≠ k + 1 + u by omega)] at t1 t2
        refine ⟨t1, ?_⟩
        by_cases hk : e.2 = k
        · rw [hk] at t2 ⊢
          rw [if_pos rfl] at t2
          refine Or.inr ⟨rfl, ?_⟩
          rw [t2]
          exact (tpqrt_lowEq hy).symm
        · rw [if_neg hk] at t2
          exact Or.inl t2
      rw [e, runT_append, cong, i2 j h1 h2, except_bind_ok, runT_one]
      exact c3 j h1 h2
    · intro j h1 h2
      rw [c4 j h1 h2, i3 j h1 h2]
    · intro j h1
      rw [c5 j h1, i4 j h1]) h
  obtain ⟨f1, f2, f3, f4⟩ := fin
  rw [show k + 1 + (p - (k + 1)) = p by omega] at f2
  refine ⟨hkp, ?_, f2, f3, f4⟩
  simp only [colFactor]
  rw [hx, except_bind_ok]
  exact f1

/-- The run of `tiled_householder_blr_qr` on one block column. -/
theorem tiledQr_cols {K : QrKernels R} {fuel p q tr tc : Nat} {A A' T T' : Nat → Nat → Mat R}
    (h : tiledQr K o fuel p q A tr tc T = .ok (A', T')) :
    (tr = p ∧ tc = q) ∧ ∀ j < q, j < p ∧
      ∃ c, runT o fuel A' T' true (pairs p j) (fun i => A i j) = .ok c ∧
        colFactor K p j c (fun i => T i j) = .ok (fun i => A' i j, fun i => T' i j) := by
  simp only [tiledQr, except_bind_eq_ok, assertM_eq_ok, decide_eq_true_eq] at h
  obtain ⟨_, h1, _, h2, h⟩ := h
  refine ⟨⟨h1, h2⟩, ?_⟩
  have key := loop_inv (fun s (st : (Nat → Nat → Mat R) × (Nat → Nat → Mat R)) =>
      (∀ j < s, j < p ∧ ∃ c, runT o fuel st.1 st.2 true (pairs p j) (fun i => A i j) = .ok c ∧
          colFactor K p j c (fun i => T i j) = .ok (fun i => st.1 i j, fun i => st.2 i j)) ∧
      ∀ j, s ≤ j → j < q → runT o fuel st.1 st.2 true (pairs p s) (fun i => A i j) =
        .ok (fun i => st.1 i j) ∧ (fun i => st.2 i j) = fun i => T i j) (by
    exact ⟨by intro j hj; omega, fun j _ _ => ⟨rfl, rfl⟩⟩) (by
    rintro s hs st st' ⟨i1, i2⟩ hst
    obtain ⟨hsp, c1, c2, c3, c4⟩ := tiledStep_cols hst
    have cong : ∀ l ≤ s, ∀ c, runT o fuel st'.1 st'.2 true (pairs p l) c =
        runT o fuel st.1 st.2 true (pairs p l) c := by
      intro l hl c
      refine runT_congr (fun e he => ?_)
      obtain ⟨e1, -⟩ := mem_pairs.1 he
      exact ⟨congrFun (c4 e.1 (by omega)) e.2, Or.inl (congrFun (c3 e.1 (by omega) (by omega)) e.2)⟩
    refine ⟨?_, ?_⟩
    · intro j hj
      by_cases hjs : j = s
      · subst hjs
        obtain ⟨r1, r2⟩ := i2 j (le_refl _) hs
        refine ⟨hsp, _, (cong j (le_refl _) _).trans r1, ?_⟩
        rw [← r2]
        exact c1
      · obtain ⟨r0, c, r1, r2⟩ := i1 j (by omega)
        refine ⟨r0, c, (cong j (by omega) _).trans r1, ?_⟩
        rw [c3 j (by omega) hjs, c4 j hjs]
        exact r2
    · intro j h1 h2
      obtain ⟨r1, r2⟩ := i2 j (by omega) h2
      refine ⟨?_, (c4 j (by omega)).trans r2⟩
      rw [pairs_succ, runT_append, cong s (le_refl _), r1, except_bind_ok]
      exact c2 j (by omega) h2) h
  exact key.1

/-! ### the reflectors the factorization returns -/

/-- The stored reflectors and the triangular factor. -/
structure TiledPost (p : Nat) (h w : Nat → Nat) (A A' T' : Nat → Nat → Mat R) (j : Nat) : Prop where
  col : ∀ i < p, (A' i j).WF ∧ (A' i j).Square ∧ (A i j).SameShape (A' i j)
  tile : ∀ i, j ≤ i → i < p → (A' i j).IsTile
  diag : ∃ y, A' j j = .dense y
  op : ∀ i, j ≤ i → i < p → OpOk p h w A' T' (fun i k => denseOf (T' i k)) (j, i)
  orth : ∀ i, j ≤ i → i < p → TOrth h w A' (fun i k => denseOf (T' i k)) (j, i)
  fac : ∀ y < w j, EqOn p h (fun x => if j < x.1 ∨ (x.1 = j ∧ y < x.2) then 0 else (A' x.1 j).entry x.2 y)
    (thops h w A' (fun i k => denseOf (T' i k)) true (pairs p (j + 1)) (colv (fun i => A i j) y))

theorem tiledQr_post {K : QrKernels R} (hK : QrContract K) (hf : o.Fits False) {fuel p q tr tc : Nat}
    {A A' T T' : Nat → Nat → Mat R} (hA : QrInput o p q A)
    (hT : TInput p q (fun j => (A 0 j).nCols) T)
    (hq : tiledQr K o fuel p q A tr tc T = .ok (A', T')) :
    ∀ j < q, TiledPost p (fun i => (A i 0).nRows) (fun j => (A 0 j).nCols) A A' T' j := by
  set h : Nat → Nat := fun i => (A i 0).nRows with hh
  set w : Nat → Nat := fun j => (A 0 j).nCols with hww
  obtain ⟨-, hcols⟩ := tiledQr_cols hq
  intro j
  induction j using Nat.strong_induction_on with
  | _ j ih =>
  intro hj
  obtain ⟨hjp, c, hc, hfc⟩ := hcols j hj
  have hcol := hA.col hj
  have hop : ∀ e ∈ pairs p j, OpOk p h w A' T' (fun i k => denseOf (T' i k)) e := by
    rintro ⟨k, i⟩ he
    obtain ⟨e1, e2, e3⟩ := mem_pairs.1 he
    exact (ih k e1 (Nat.lt_trans e1 hj)).op i e2 e3
  obtain ⟨ok, sh, lo, en⟩ := runT_ok hf (fun h => h.1) hop hcol hc
  have lro : ∀ i, j < i → i < p → (c i).LrO := by
    intro i h1 h2
    rcases hA.fine with hdn | ⟨-, ho⟩
    · intro l hl
      obtain ⟨d, hd'⟩ := hdn i h2 j hj
      have := sh i h2
      simp only [hd', hl] at this
      exact this.elim
    · exact lo ho i h2 (fun e he => by have := (mem_pairs.1 he).1; omega) (hA.orth i h2 j h1 hj)
  have P := colFactor_ok hK hjp ok lro (hT j hj) hfc
  refine ⟨fun i hi => ⟨(P.ok i hi).1.wf, (P.ok i hi).1.sqr, (sh i hi).trans (P.shape i hi)⟩, P.tile, P.diag,
    ?_, P.orth, ?_⟩
  · intro i h1 h2
    obtain ⟨t1, t2, t3⟩ := P.hT i h1 h2
    exact ⟨⟨h1, h2, P.wh⟩, (P.ok i h2).1.wf, (P.ok i h2).2.1, (P.ok i h2).2.2, t1, t2, t3⟩
  · intro y hy
    rw [pairs_succ, thops_append]
    have e : ∀ v, thops h w A' (fun i k => denseOf (T' i k)) true (stepPairs p j) v =
        thops h w (fun i _ => A' i j) (fun i _ => denseOf (T' i j)) true (stepPairs p j) v := by
      intro v
      refine thops_congrY (fun e he => ?_)
      obtain ⟨e1, -⟩ := mem_stepPairs.1 he
      rw [e1]
      exact ⟨rfl, rfl⟩
    rw [e]
    refine EqOn.trans (EqOn.trans ?_ (P.ent y hy)) (thops_congr (fun e he => ?_) (en y hy))
    · rintro ⟨b, l⟩ hx
      have hb := (mem_rowsFrom.1 hx).1.2
      simp only at hb
      unfold maskCol
      by_cases hz : j < b ∨ (b = j ∧ y < l)
      · rw [if_pos (by simp only; omega)]
        exact if_pos hz
      · rw [if_neg (by simp only; omega)]
        exact if_neg hz
    · obtain ⟨e1, e2, e3⟩ := mem_stepPairs.1 he
      exact ⟨by omega, e3, by rw [e1]; exact P.wh⟩

/-- The product with the reflectors, for the first `q` block columns of `C`. -/
theorem leftMulTiled_ok (hf : o.Fits False) {ex : Prop} (hex : ex → o.Exact False)
    {fuel p q tr tc m n : Nat} {h w w' : Nat → Nat} {Y T C C' : Nat → Nat → Mat R}
    {t : Nat → Nat → Dense R} {trans : Bool} (H : ∀ k < q, ∀ i, k ≤ i → i < p → OpOk p h w Y T t (k, i))
    (hC : ∀ j < n, ColOk ex p h (w' j) (fun i => C i j))
    (hm : leftMulTiled o fuel p q Y tr tc T m n C trans = .ok C') :
    (∀ j < n, ColOk ex p h (w' j) (fun i => C' i j)) ∧
    (∀ j < n, ∀ i < p, (C i j).SameShape (C' i j)) ∧
    (∀ j < q, ∀ y < w' j, EqOn p h (colv (fun i => C' i j) y)
      (thops h w Y t trans (torder trans p j) (colv (fun i => C i j) y))) ∧
    ∀ j, q ≤ j → ∀ i, C' i j = C i j := by
  obtain ⟨hn, cols⟩ := leftMulTiled_cols hm
  have main : ∀ j < q, _ := fun j hj => runT_ok hf hex (t := t) (h := h) (n := w' j)
      (fun e he => by
        obtain ⟨e1, e2, e3⟩ := mem_torder.1 he
        exact H e.1 (by omega) e.2 e2 e3)
      (hC j (by have := hn (by omega); omega)) ((cols j).1 hj)
  refine ⟨fun j hj => ?_, fun j hj => ?_, fun j hj => ?_, fun j hj => ?_⟩
  · by_cases hjq : j < q
    · exact (main j hjq).1
    · rw [(cols j).2 (by omega)]
      exact hC j hj
  · by_cases hjq : j < q
    · exact (main j hjq).2.1
    · intro i _
      have : C' i j = C i j := congrFun ((cols j).2 (by omega)) i
      rw [this]
      exact SameShape.refl _
  · exact (main j hj).2.2.2
  · exact fun i => congrFun ((cols j).2 hj) i

end Mat
end Verif
