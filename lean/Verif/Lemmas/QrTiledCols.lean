import Verif.Lemmas.QrTiled

/-!
Tiled Householder QR: the drivers column by column.
-/

set_option linter.unusedSectionVars false
set_option linter.unusedVariables false

namespace Verif
open Finset

variable {R : Type} [CommRing R]

namespace Mat

/-! ### the reflector of one tile, on whole columns -/

/-- The reflector of tile `(i,k)`, `e = (k,i)`, on a column. -/
def thop (h w : Nat → Nat) (Y : Nat → Nat → Mat R) (t : Nat → Nat → Dense R) (trans : Bool) (e : Nat × Nat)
    (v : Ix → R) (x : Ix) : R :=
  if x ∈ pairRows e.1 e.2 (w e.1) h then
    refl (pairRows e.1 e.2 (w e.1) h) (w e.1) (pairV e.1 e.2 (Y e.2 e.1))
      (opFun trans ((t e.2 e.1).tri .upper false)) v x
  else v x

/-- The tile is inside and its reflector stays inside. -/
structure InRange (p : Nat) (h w : Nat → Nat) (e : Nat × Nat) : Prop where
  le : e.1 ≤ e.2
  lt : e.2 < p
  wh : w e.1 ≤ h e.1

theorem InRange.sub {p : Nat} {h w : Nat → Nat} {e : Nat × Nat} (H : InRange p h w e) {x : Ix}
    (hx : x ∈ pairRows e.1 e.2 (w e.1) h) : x ∈ rowsFrom 0 p h := by
  have h1 := H.le
  have h2 := H.lt
  have h3 := H.wh
  rw [mem_rowsFrom]
  rcases mem_pairRows.1 hx with ⟨a, b⟩ | ⟨a, -, b⟩
  · rw [a]
    exact ⟨⟨Nat.zero_le _, h2⟩, b⟩
  · rw [a]
    exact ⟨⟨Nat.zero_le _, by omega⟩, by omega⟩

theorem thop_congr {p : Nat} {h w : Nat → Nat} {Y : Nat → Nat → Mat R} {t : Nat → Nat → Dense R}
    {trans : Bool} {k : Nat × Nat} (H : InRange p h w k) {v v' : Ix → R} (e : EqOn p h v v') :
    EqOn p h (thop h w Y t trans k v) (thop h w Y t trans k v') := by
  intro x hx
  unfold thop
  by_cases hk : x ∈ pairRows k.1 k.2 (w k.1) h
  · rw [if_pos hk, if_pos hk]
    exact refl_congr (fun _ _ _ _ => rfl) (fun _ _ _ _ => rfl) (fun z hz => e z (H.sub hz)) x hk
  · rw [if_neg hk, if_neg hk]
    exact e x hx

/-- The reflector of the tile is orthogonal. -/
def TOrth (h w : Nat → Nat) (Y : Nat → Nat → Mat R) (t : Nat → Nat → Dense R) (e : Nat × Nat) : Prop :=
  ReflOrth (pairRows e.1 e.2 (w e.1) h) (w e.1) (pairV e.1 e.2 (Y e.2 e.1)) ((t e.2 e.1).tri .upper false)

theorem thop_cancel {p : Nat} {h w : Nat → Nat} {Y : Nat → Nat → Mat R} {t : Nat → Nat → Dense R}
    {k : Nat × Nat} (ho : TOrth h w Y t k) (trans : Bool) (v : Ix → R) :
    EqOn p h (thop h w Y t (!trans) k (thop h w Y t trans k v)) v := by
  intro x hx
  unfold thop
  by_cases hk : x ∈ pairRows k.1 k.2 (w k.1) h
  · rw [if_pos hk]
    rw [refl_congr (Y' := pairV k.1 k.2 (Y k.2 k.1)) (T' := opFun (!trans) ((t k.2 k.1).tri .upper false))
      (x' := refl (pairRows k.1 k.2 (w k.1) h) (w k.1) (pairV k.1 k.2 (Y k.2 k.1))
        (opFun trans ((t k.2 k.1).tri .upper false)) v) (fun _ _ _ _ => rfl) (fun _ _ _ _ => rfl)
      (fun z hz => if_pos hz) x hk]
    cases trans with
    | false => exact (ho v x hk).2
    | true => exact (ho v x hk).1
  · rw [if_neg hk, if_neg hk]

/-- Reflectors one after the other. -/
def thops (h w : Nat → Nat) (Y : Nat → Nat → Mat R) (t : Nat → Nat → Dense R) (trans : Bool)
    (ks : List (Nat × Nat)) (v : Ix → R) : Ix → R :=
  ks.foldl (fun v k => thop h w Y t trans k v) v

theorem thops_congr {p : Nat} {h w : Nat → Nat} {Y : Nat → Nat → Mat R} {t : Nat → Nat → Dense R}
    {trans : Bool} {ks : List (Nat × Nat)} (H : ∀ k ∈ ks, InRange p h w k) {v v' : Ix → R}
    (e : EqOn p h v v') : EqOn p h (thops h w Y t trans ks v) (thops h w Y t trans ks v') := by
  induction ks generalizing v v' with
  | nil => exact e
  | cons k ks ih =>
    exact ih (fun k' hk' => H k' (List.mem_cons_of_mem _ hk')) (thop_congr (H k List.mem_cons_self) e)

theorem thops_append {h w : Nat → Nat} {Y : Nat → Nat → Mat R} {t : Nat → Nat → Dense R} {trans : Bool}
    {ks ks' : List (Nat × Nat)} {v : Ix → R} :
    thops h w Y t trans (ks ++ ks') v = thops h w Y t trans ks' (thops h w Y t trans ks v) := by
  unfold thops
  rw [List.foldl_append]

theorem thops_cancel {p : Nat} {h w : Nat → Nat} {Y : Nat → Nat → Mat R} {t : Nat → Nat → Dense R}
    {trans : Bool} {ks : List (Nat × Nat)} (H : ∀ k ∈ ks, InRange p h w k ∧ TOrth h w Y t k)
    (v : Ix → R) : EqOn p h (thops h w Y t (!trans) ks.reverse (thops h w Y t trans ks v)) v := by
  induction ks generalizing v with
  | nil => exact fun _ _ => rfl
  | cons k ks ih =>
    rw [List.reverse_cons, thops_append]
    have h1 := ih (fun k' hk' => H k' (List.mem_cons_of_mem _ hk')) (thop h w Y t trans k v)
    have h2 := thop_congr (Y := Y) (t := t) (trans := !trans) (H k List.mem_cons_self).1 h1
    exact h2.trans (thop_cancel (H k List.mem_cons_self).2 trans v)

/-! ### one kernel call on a block column -/

variable [DecidableEq R] {o : LrOps R}

/-- `larfb` or `tpmqrt` with tile `(i,k)`, `e = (k,i)`, on a block column. -/
def tstep (o : LrOps R) (fuel : Nat) (Y T : Nat → Nat → Mat R) (trans : Bool) (e : Nat × Nat)
    (c : Nat → Mat R) : Except Err (Nat → Mat R) :=
  if e.2 = e.1 then do
    let y ← larfb trans (Y e.1 e.1) (T e.1 e.1) (c e.1)
    .ok (putRow c e.1 y)
  else do
    let y ← tpmqrt o fuel trans (Y e.2 e.1) (T e.2 e.1) (c e.1) (c e.2)
    .ok (putRow (putRow c e.1 y.1) e.2 y.2)

/-- The tile of reflectors fits. -/
structure OpOk (p : Nat) (h w : Nat → Nat) (Y T : Nat → Nat → Mat R) (t : Nat → Nat → Dense R)
    (e : Nat × Nat) : Prop extends InRange p h w e where
  wf : (Y e.2 e.1).WF
  rows : (Y e.2 e.1).nRows = h e.2
  cols : (Y e.2 e.1).nCols = w e.1
  hT : T e.2 e.1 = .dense (t e.2 e.1)
  trows : (t e.2 e.1).rows = w e.1
  tcols : (t e.2 e.1).cols = w e.1

theorem tstep_ok (hf : o.Fits False) {ex : Prop} (hex : ex → o.Exact False) {fuel p n : Nat}
    {h w : Nat → Nat} {Y T : Nat → Nat → Mat R} {t : Nat → Nat → Dense R} {trans : Bool} {e : Nat × Nat}
    (H : OpOk p h w Y T t e) {c c' : Nat → Mat R} (hc : ColOk ex p h n c)
    (hs : tstep o fuel Y T trans e c = .ok c') :
    ColOk ex p h n c' ∧ (∀ i < p, (c i).SameShape (c' i)) ∧
    (o.LeftOrth → ∀ i < p, e.1 < i → (c i).LrO → (c' i).LrO) ∧
    ∀ y < n, EqOn p h (colv c' y) (thop h w Y t trans e (colv c y)) := by
  obtain ⟨k, i⟩ := e
  obtain ⟨⟨le, lt, wh⟩, wf, rows, cols, hT, trows, tcols⟩ := H
  simp only at le lt wh wf rows cols hT trows tcols
  unfold tstep at hs
  have hkp : k < p := by omega
  obtain ⟨gk, rk, ck⟩ := hc k hkp
  by_cases hik : i = k
  · subst hik
    rw [if_pos rfl] at hs
    simp only [except_bind_eq_ok] at hs
    obtain ⟨y, hy, hs⟩ := hs
    cases Except.ok.inj hs
    obtain ⟨v, t', hv, ht', tl, gy, sy, ey⟩ := larfb_ok gk hy
    rw [hT] at ht'
    cases ht'
    have dy := sy.dims gk.wf
    refine ⟨?_, ?_, ?_, ?_⟩
    · intro j hj
      unfold putRow
      by_cases hj' : j = i
      · subst hj'
        rw [if_pos rfl]
        exact ⟨gy, dy.1.trans rk, dy.2.trans ck⟩
      · rw [if_neg hj']
        exact hc j hj
    · intro j hj
      unfold putRow
      by_cases hj' : j = i
      · subst hj'
        rw [if_pos rfl]
        exact sy
      · rw [if_neg hj']
        exact SameShape.refl _
    · intro _ j hj hlt hl
      have hlt : i < j := hlt
      unfold putRow
      rw [if_neg (by omega)]
      exact hl
    · rintro y' hy' ⟨b, l⟩ hx
      unfold thop
      by_cases hb : b = i
      · subst hb
        have hl : l < h b := (mem_rowsFrom.1 hx).2
        have hm : (⟨b, l⟩ : Ix) ∈ pairRows b b (w b) h := mem_pairRows.2 (Or.inl ⟨rfl, hl⟩)
        simp only [if_pos hm]
        simp only [colv, putRow, if_true]
        rw [ey l (by rw [rk]; exact hl) y' (by rw [ck]; exact hy')]
        unfold refl
        rw [rk, tcols]
        congr 1
        refine Finset.sum_congr rfl (fun a _ => ?_)
        simp only [pairV, if_true, hv, triEntry_dense]
        congr 1
        refine Finset.sum_congr rfl (fun a' _ => ?_)
        congr 1
        rw [sum_pairRows_self]
        rfl
      · rw [if_neg (by
          intro hm
          rcases mem_pairRows.1 hm with h1 | h1
          · exact hb h1.1
          · exact h1.2.1 rfl)]
        show (if b = i then y else c b).entry l y' = (c b).entry l y'
        rw [if_neg hb]
  · rw [if_neg hik] at hs
    simp only [except_bind_eq_ok] at hs
    obtain ⟨y, hy, hs⟩ := hs
    cases Except.ok.inj hs
    obtain ⟨gi, ri, ci⟩ := hc i lt
    rw [hT] at hy
    have P := tpmqrt_ok hf hex wf gk gi (by rw [rows, ri]) (by rw [cols, tcols]) (by rw [trows, tcols])
      (by rw [ck, ci]) hy
    have hki : k ≠ i := Ne.symm hik
    have dA := P.shapeA.dims gk.wf
    have dB := P.shapeB.dims gi.wf
    refine ⟨?_, ?_, ?_, ?_⟩
    · intro j hj
      unfold putRow
      by_cases hj' : j = i
      · subst hj'
        rw [if_pos rfl]
        exact ⟨P.goodB, dB.1.trans ri, dB.2.trans ci⟩
      · rw [if_neg hj']
        by_cases hj'' : j = k
        · subst hj''
          rw [if_pos rfl]
          exact ⟨P.goodA, dA.1.trans rk, dA.2.trans ck⟩
        · rw [if_neg hj'']
          exact hc j hj
    · intro j hj
      unfold putRow
      by_cases hj' : j = i
      · subst hj'
        rw [if_pos rfl]
        exact P.shapeB
      · rw [if_neg hj']
        by_cases hj'' : j = k
        · subst hj''
          rw [if_pos rfl]
          exact P.shapeA
        · rw [if_neg hj'']
          exact SameShape.refl _
    · intro ho j hj hlt hl
      have hlt : k < j := hlt
      unfold putRow
      by_cases hj' : j = i
      · subst hj'
        rw [if_pos rfl]
        exact P.orth ho hl
      · rw [if_neg hj', if_neg (by omega)]
        exact hl
    · rintro y' hy' ⟨b, l⟩ hx
      have hl : l < h b := (mem_rowsFrom.1 hx).2
      have inner : ∀ a < w k, ∑ z ∈ pairRows k i (w k) h, pairV k i (Y i k) z a * colv c y' z =
          (c k).entry a y' + ∑ l ∈ range (h i), (Y i k).entry l a * (c i).entry l y' := by
        intro a ha
        rw [sum_pairRows hki]
        simp only [pairV, if_neg hik, if_true, colv, ite_mul, one_mul, zero_mul]
        rw [Finset.sum_ite_eq' (range (w k)), if_pos (Finset.mem_range.2 ha)]
      have hX : ∀ a, ∑ a' ∈ range (w k), opFun trans ((t i k).tri .upper false) a a' *
          ∑ z ∈ pairRows k i (w k) h, pairV k i (Y i k) z a' * colv c y' z =
          tpX (t i k).cols (Y i k) (opFun trans ((t i k).tri .upper false)) (c k) (c i) a y' := by
        intro a
        unfold tpX
        rw [tcols, ri]
        exact Finset.sum_congr rfl (fun a' ha' => by rw [inner a' (Finset.mem_range.1 ha')])
      unfold thop
      by_cases hb : b = i
      · subst hb
        have hm : (⟨b, l⟩ : Ix) ∈ pairRows k b (w k) h := mem_pairRows.2 (Or.inl ⟨rfl, hl⟩)
        simp only [if_pos hm]
        simp only [colv, putRow, if_true]
        rw [P.entB l (by rw [ri]; exact hl) y' (by rw [ci]; exact hy')]
        unfold refl
        rw [tcols]
        congr 1
        refine Finset.sum_congr rfl (fun a ha => ?_)
        rw [hX a, tcols]
        congr 1
        simp only [pairV, if_neg hik]
      · by_cases hb' : b = k
        · subst hb'
          simp only [colv, putRow, if_true, if_neg hb]
          rw [P.entA l (by rw [rk]; exact hl) y' (by rw [ck]; exact hy'), tcols]
          by_cases hlw : l < w b
          · have hm : (⟨b, l⟩ : Ix) ∈ pairRows b i (w b) h := mem_pairRows.2 (Or.inr ⟨rfl, hki, hlw⟩)
            rw [if_pos hlw, if_pos hm]
            unfold refl
            congr 1
            have : ∀ a ∈ range (w b), pairV b i (Y i b) ⟨b, l⟩ a * ∑ a' ∈ range (w b),
                opFun trans ((t i b).tri .upper false) a a' *
                ∑ z ∈ pairRows b i (w b) h, pairV b i (Y i b) z a' * colv c y' z =
                if l = a then tpX (w b) (Y i b) (opFun trans ((t i b).tri .upper false)) (c b) (c i) a y'
                else 0 := by
              intro a _
              rw [hX a, tcols]
              simp only [pairV, if_neg hik, if_true, ite_mul, one_mul, zero_mul]
            rw [Finset.sum_congr rfl this, Finset.sum_ite_eq, if_pos (Finset.mem_range.2 hlw)]
          · rw [if_neg hlw, sub_zero, if_neg (by
              intro hm
              rcases mem_pairRows.1 hm with h1 | h1
              · exact hki h1.1
              · exact hlw h1.2.2)]
        · rw [if_neg (by
            intro hm
            rcases mem_pairRows.1 hm with h1 | h1
            · exact hb h1.1
            · exact hb' h1.1)]
          show (if b = i then y.2 else if b = k then y.1 else c b).entry l y' = (c b).entry l y'
          rw [if_neg hb, if_neg hb']

/-- Kernel calls one after the other. -/
def runT (o : LrOps R) (fuel : Nat) (Y T : Nat → Nat → Mat R) (trans : Bool) (ks : List (Nat × Nat))
    (c : Nat → Mat R) : Except Err (Nat → Mat R) :=
  ks.foldlM (fun c e => tstep o fuel Y T trans e c) c

theorem runT_append {fuel : Nat} {Y T : Nat → Nat → Mat R} {trans : Bool} {ks ks' : List (Nat × Nat)}
    {c : Nat → Mat R} : runT o fuel Y T trans (ks ++ ks') c =
      (runT o fuel Y T trans ks c >>= runT o fuel Y T trans ks') := by
  unfold runT
  rw [List.foldlM_append]

theorem runT_one {fuel : Nat} {Y T : Nat → Nat → Mat R} {trans : Bool} {e : Nat × Nat} {c : Nat → Mat R} :
    runT o fuel Y T trans [e] c = tstep o fuel Y T trans e c := by
  simp [runT]

theorem runT_congr {fuel : Nat} {Y Y' T T' : Nat → Nat → Mat R} {trans : Bool} {ks : List (Nat × Nat)}
    {c : Nat → Mat R} (H : ∀ e ∈ ks, T e.2 e.1 = T' e.2 e.1 ∧
      (Y e.2 e.1 = Y' e.2 e.1 ∨ (e.2 = e.1 ∧ LowEq (Y e.2 e.1) (Y' e.2 e.1)))) :
    runT o fuel Y T trans ks c = runT o fuel Y' T' trans ks c := by
  induction ks generalizing c with
  | nil => rfl
  | cons e ks ih =>
    unfold runT at ih ⊢
    rw [List.foldlM_cons, List.foldlM_cons]
    have e1 : tstep o fuel Y T trans e c = tstep o fuel Y' T' trans e c := by
      obtain ⟨h1, h2⟩ := H e List.mem_cons_self
      obtain ⟨k, i⟩ := e
      simp only at h1 h2
      unfold tstep
      by_cases hik : i = k
      · subst hik
        rw [if_pos rfl, if_pos rfl]
        simp only
        rw [h1]
        rcases h2 with h2 | ⟨-, h2⟩
        · rw [h2]
        · rw [h2.larfb]
      · rw [if_neg hik, if_neg hik]
        simp only
        rw [h1, h2.resolve_right (fun h => hik h.1)]
    rw [e1]
    congr 1
    funext c
    exact ih (fun e' he' => H e' (List.mem_cons_of_mem _ he'))

theorem runT_ok (hf : o.Fits False) {ex : Prop} (hex : ex → o.Exact False) {fuel p n : Nat}
    {h w : Nat → Nat} {Y T : Nat → Nat → Mat R} {t : Nat → Nat → Dense R} {trans : Bool}
    {ks : List (Nat × Nat)} (H : ∀ e ∈ ks, OpOk p h w Y T t e) {c c' : Nat → Mat R}
    (hc : ColOk ex p h n c) (hs : runT o fuel Y T trans ks c = .ok c') :
    ColOk ex p h n c' ∧ (∀ i < p, (c i).SameShape (c' i)) ∧
    (o.LeftOrth → ∀ i < p, (∀ e ∈ ks, e.1 < i) → (c i).LrO → (c' i).LrO) ∧
    ∀ y < n, EqOn p h (colv c' y) (thops h w Y t trans ks (colv c y)) := by
  induction ks generalizing c with
  | nil =>
    cases Except.ok.inj hs
    exact ⟨hc, fun i _ => SameShape.refl _, fun _ _ _ _ h => h, fun y _ x _ => rfl⟩
  | cons e ks ih =>
    unfold runT at ih hs
    rw [List.foldlM_cons, except_bind_eq_ok] at hs
    obtain ⟨c1, h1, hs⟩ := hs
    obtain ⟨ok, sh, lo, en⟩ := tstep_ok hf hex (H e List.mem_cons_self) hc h1
    obtain ⟨ok', sh', lo', en'⟩ := ih (fun k' hk' => H k' (List.mem_cons_of_mem _ hk')) ok hs
    refine ⟨ok', fun i hi => (sh i hi).trans (sh' i hi), fun ho i hi hk hl => ?_, fun y hy => ?_⟩
    · exact lo' ho i hi (fun e' he' => hk e' (List.mem_cons_of_mem _ he'))
        (lo ho i hi (hk e List.mem_cons_self) hl)
    · exact (en' y hy).trans (thops_congr (fun e' he' => (H e' (List.mem_cons_of_mem _ he')).toInRange) (en y hy))

/-! ### multiplication with the reflectors, column by column -/

/-- The tiles of column `k` of the reflectors, in the order of the factorization. -/
def stepPairs (p k : Nat) : List (Nat × Nat) := (List.range (p - k)).map (fun u => (k, k + u))

theorem mem_stepPairs {p k : Nat} {e : Nat × Nat} : e ∈ stepPairs p k ↔ e.1 = k ∧ k ≤ e.2 ∧ e.2 < p := by
  obtain ⟨a, b⟩ := e
  simp only [stepPairs, List.mem_map, List.mem_range, Prod.mk.injEq]
  constructor
  · rintro ⟨u, hu, rfl, rfl⟩
    omega
  · rintro ⟨rfl, h1, h2⟩
    exact ⟨b - a, by omega, rfl, by omega⟩

theorem stepPairs_cons {p k : Nat} (h : k < p) :
    stepPairs p k = (k, k) :: (List.range (p - (k + 1))).map (fun u => (k, k + 1 + u)) := by
  unfold stepPairs
  rw [show p - k = (p - (k + 1)) + 1 by omega, List.range_succ_eq_map, List.map_cons, List.map_map]
  congr 1
  refine List.map_congr_left (fun u _ => ?_)
  simp only [Function.comp_apply, Prod.mk.injEq, true_and]
  omega

theorem stepPairs_reverse {p k : Nat} (h : k < p) :
    (stepPairs p k).reverse = (List.range (p - (k + 1))).map (fun u => (k, p - 1 - u)) ++ [(k, k)] := by
  rw [stepPairs_cons h, List.reverse_cons]
  congr 1
  apply List.ext_getElem
  · simp
  · intro n h1 h2
    simp only [List.length_reverse, List.length_map, List.length_range] at h1
    simp only [List.getElem_reverse, List.getElem_map, List.getElem_range, List.length_map, List.length_range,
      Prod.mk.injEq, true_and]
    omega

/-- The tiles of the columns before `s`. -/
def pairs (p s : Nat) : List (Nat × Nat) := (List.range s).flatMap (stepPairs p)

theorem mem_pairs {p s : Nat} {e : Nat × Nat} : e ∈ pairs p s ↔ e.1 < s ∧ e.1 ≤ e.2 ∧ e.2 < p := by
  simp only [pairs, List.mem_flatMap, List.mem_range, mem_stepPairs]
  constructor
  · rintro ⟨k, hk, rfl, h⟩
    exact ⟨hk, h⟩
  · rintro ⟨h1, h2⟩
    exact ⟨e.1, h1, rfl, h2⟩

theorem pairs_succ (p s : Nat) : pairs p (s + 1) = pairs p s ++ stepPairs p s := by
  simp [pairs, List.range_succ]

/-- The tiles for block column `j`, in the order of application. -/
def torder (trans : Bool) (p j : Nat) : List (Nat × Nat) :=
  if trans then pairs p (j + 1) else (pairs p (j + 1)).reverse

theorem torder_not (trans : Bool) (p j : Nat) : torder (!trans) p j = (torder trans p j).reverse := by
  cases trans <;> simp [torder]

theorem mem_torder {trans : Bool} {p j : Nat} {e : Nat × Nat} :
    e ∈ torder trans p j ↔ e.1 ≤ j ∧ e.1 ≤ e.2 ∧ e.2 < p := by
  cases trans <;> simp [torder, mem_pairs]

/-- The tiles of one step, in the order of application. -/
def torderStep (trans : Bool) (p k : Nat) : List (Nat × Nat) :=
  if trans then stepPairs p k else (stepPairs p k).reverse

theorem putBlk_eq (A : Nat → Nat → Mat R) (i j : Nat) (X : Mat R) :
    putBlk A i j X = putCol A j (putRow (fun i => A i j) i X) := by
  funext a b
  simp only [putBlk, putCol, putRow]
  by_cases hb : b = j
  · subst hb
    simp
  · simp [hb]

theorem putBlk_eq2 (A : Nat → Nat → Mat R) (i i' j : Nat) (X X' : Mat R) :
    putBlk (putBlk A i j X) i' j X' = putCol A j (putRow (putRow (fun i => A i j) i X) i' X') := by
  funext a b
  simp only [putBlk, putCol, putRow]
  by_cases hb : b = j
  · subst hb
    simp
  · simp [hb]

theorem leftMulLarfb_cols {fuel p q tr tc m n k : Nat} {Y T C C' : Nat → Nat → Mat R} {trans : Bool}
    (h : leftMulLarfb p q Y tr tc T m n trans k C = .ok C') :
    ∀ j, (k ≤ j → j < q → (k < p ∧ j < n) ∧
        tstep o fuel Y T trans (k, k) (fun i => C i j) = .ok (fun i => C' i j)) ∧
      (¬ (k ≤ j ∧ j < q) → (fun i => C' i j) = (fun i => C i j)) := by
  have key := colLoop (n := q - k) (k := k) (f := fun j c => do
      assertM (decide (k < p))
      assertM (decide (j < n))
      tstep o fuel Y T trans (k, k) c) (by
    intro u A B hB
    simp only [except_bind_eq_ok, assertM_eq_ok, decide_eq_true_eq] at hB ⊢
    obtain ⟨v, hv, t, ht, c, hc, y, hy, hB⟩ := hB
    obtain ⟨h1, -, rfl⟩ := blockAt_ok hv
    obtain ⟨-, -, rfl⟩ := blockAt_ok ht
    obtain ⟨-, h2, rfl⟩ := blockAt_ok hc
    refine ⟨putRow (fun i => A i (k + u)) k y, ⟨⟨⟩, h1, ⟨⟩, h2, ?_⟩, ?_⟩
    · simp only [tstep, if_true, hy, except_bind_ok]
    · rw [← Except.ok.inj hB, putBlk_eq]) h
  intro j
  refine ⟨fun h1 h2 => ?_, fun hn => (key j).2 (by omega)⟩
  have := (key j).1 h1 (by omega)
  simp only [except_bind_eq_ok, assertM_eq_ok, decide_eq_true_eq] at this
  obtain ⟨_, h3, _, h4, h5⟩ := this
  exact ⟨⟨h3, h4⟩, h5⟩

theorem leftMulTpmqrt_cols {fuel p q tr tc m n k i : Nat} {Y T C C' : Nat → Nat → Mat R} {trans : Bool}
    (hki : i ≠ k) (h : leftMulTpmqrt o fuel p q Y tr tc T m n trans k i C = .ok C') :
    ∀ j, (k ≤ j → j < q → tstep o fuel Y T trans (k, i) (fun i => C i j) = .ok (fun i => C' i j)) ∧
      (¬ (k ≤ j ∧ j < q) → (fun i => C' i j) = (fun i => C i j)) := by
  have key := colLoop (n := q - k) (k := k) (f := fun j c => tstep o fuel Y T trans (k, i) c) (by
    intro u A B hB
    simp only [except_bind_eq_ok] at hB
    obtain ⟨v, hv, t, ht, a, ha, b, hb, y, hy, hB⟩ := hB
    obtain ⟨-, -, rfl⟩ := blockAt_ok hv
    obtain ⟨-, -, rfl⟩ := blockAt_ok ht
    obtain ⟨-, -, rfl⟩ := blockAt_ok ha
    obtain ⟨-, -, rfl⟩ := blockAt_ok hb
    refine ⟨putRow (putRow (fun i => A i (k + u)) k y.1) i y.2, ?_, ?_⟩
    · simp only [tstep, if_neg hki, hy, except_bind_ok]
    · rw [← Except.ok.inj hB, putBlk_eq2]) h
  intro j
  exact ⟨fun h1 h2 => (key j).1 h1 (by omega), fun hn => (key j).2 (by omega)⟩

/-- A step changes the block columns `k..q-1`, one by one. -/
def StepCols (q k : Nat) (f : (Nat → Mat R) → Except Err (Nat → Mat R)) (C C' : Nat → Nat → Mat R) : Prop :=
  ∀ j, (k ≤ j → j < q → f (fun i => C i j) = .ok (fun i => C' i j)) ∧
    (¬ (k ≤ j ∧ j < q) → (fun i => C' i j) = (fun i => C i j))

theorem stepCols_runT {fuel q k : Nat} {Y T : Nat → Nat → Mat R} {trans : Bool} {ks ks' : List (Nat × Nat)}
    {C D E : Nat → Nat → Mat R} (h : StepCols q k (runT o fuel Y T trans ks) C D)
    (h' : StepCols q k (runT o fuel Y T trans ks') D E) :
    StepCols q k (runT o fuel Y T trans (ks ++ ks')) C E := by
  intro j
  refine ⟨fun h1 h2 => ?_, fun hn => ((h' j).2 hn).trans ((h j).2 hn)⟩
  rw [runT_append, (h j).1 h1 h2, except_bind_ok]
  exact (h' j).1 h1 h2

theorem stepCols_nil {fuel q k : Nat} {Y T : Nat → Nat → Mat R} {trans : Bool} (C : Nat → Nat → Mat R) :
    StepCols q k (runT o fuel Y T trans []) C C :=
  fun j => ⟨fun _ _ => rfl, fun _ => rfl⟩

theorem loop_up_cols {q : Nat} {fuel : Nat} {Y T : Nat → Nat → Mat R} {trans : Bool}
    {l : Nat → List (Nat × Nat)}
    {body : Nat → (Nat → Nat → Mat R) → Except Err (Nat → Nat → Mat R)} {C C' : Nat → Nat → Mat R}
    (hb : ∀ k < q, ∀ A B, body k A = .ok B → StepCols q k (runT o fuel Y T trans (l k)) A B)
    (h : loop q body C = .ok C') :
    ∀ j, (j < q → runT o fuel Y T trans ((List.range (j + 1)).flatMap l) (fun i => C i j) =
        .ok (fun i => C' i j)) ∧ (q ≤ j → (fun i => C' i j) = (fun i => C i j)) := by
  have key := loop_inv (fun s D => ∀ j, (j < q →
      (s ≤ j → runT o fuel Y T trans ((List.range s).flatMap l) (fun i => C i j) = .ok (fun i => D i j)) ∧
      (j < s → runT o fuel Y T trans ((List.range (j + 1)).flatMap l) (fun i => C i j) =
        .ok (fun i => D i j))) ∧
      (q ≤ j → (fun i => D i j) = (fun i => C i j))) (by
    intro j
    exact ⟨fun _ => ⟨fun _ => rfl, fun h => by omega⟩, fun _ => rfl⟩) (by
    intro s hs D E hI hE j
    have hc := hb s hs D E hE j
    refine ⟨fun hj => ?_, fun hj => by rw [hc.2 (by omega)]; exact (hI j).2 hj⟩
    obtain ⟨i2, i3⟩ := (hI j).1 hj
    have run : s ≤ j → runT o fuel Y T trans ((List.range (s + 1)).flatMap l) (fun i => C i j) =
        .ok (fun i => E i j) := by
      intro hsj
      rw [List.range_succ, List.flatMap_append, runT_append, i2 hsj, except_bind_ok]
      simp only [List.flatMap_cons, List.flatMap_nil, List.append_nil]
      exact hc.1 hsj hj
    refine ⟨fun hsj => run (by omega), fun hsj => ?_⟩
    by_cases hsj' : j < s
    · rw [hc.2 (by omega)]
      exact i3 hsj'
    · have : j = s := by omega
      subst this
      exact run (le_refl _)) h
  intro j
  exact ⟨fun hj => ((key j).1 hj).2 hj, (key j).2⟩

theorem loop_down_cols {q : Nat} {fuel : Nat} {Y T : Nat → Nat → Mat R} {trans : Bool}
    {l : Nat → List (Nat × Nat)}
    {body : Nat → (Nat → Nat → Mat R) → Except Err (Nat → Nat → Mat R)} {C C' : Nat → Nat → Mat R}
    (hb : ∀ v < q, ∀ A B, body v A = .ok B → StepCols q (q - 1 - v) (runT o fuel Y T trans (l (q - 1 - v)).reverse) A B)
    (h : loop q body C = .ok C') :
    ∀ j, (j < q → runT o fuel Y T trans ((List.range (j + 1)).flatMap l).reverse (fun i => C i j) =
        .ok (fun i => C' i j)) ∧ (q ≤ j → (fun i => C' i j) = (fun i => C i j)) := by
  have key := loop_inv (fun s D => ∀ j, (j < q →
      (j < q - s → (fun i => D i j) = (fun i => C i j)) ∧
      (q - s ≤ j → runT o fuel Y T trans
        (((List.range (j + 1 - (q - s))).map (fun a => q - s + a)).flatMap l).reverse (fun i => C i j) =
        .ok (fun i => D i j))) ∧
      (q ≤ j → (fun i => D i j) = (fun i => C i j))) (by
    intro j
    exact ⟨fun hj => ⟨fun _ => rfl, fun h => by omega⟩, fun _ => rfl⟩) (by
    intro s hs D E hI hE j
    have hc := hb s hs D E hE j
    refine ⟨fun hj => ?_, fun hj => by rw [hc.2 (by omega)]; exact (hI j).2 hj⟩
    obtain ⟨i1, i2⟩ := (hI j).1 hj
    refine ⟨fun hlt => by rw [hc.2 (by omega)]; exact i1 (by omega), fun hle => ?_⟩
    have c3 := hc.1 (by omega) hj
    have e : (List.range (j + 1 - (q - (s + 1)))).map (fun a => q - (s + 1) + a) =
        (q - (s + 1)) :: (List.range (j + 1 - (q - s))).map (fun a => q - s + a) := by
      rw [show j + 1 - (q - (s + 1)) = (j + 1 - (q - s)) + 1 by omega, List.range_succ_eq_map,
        List.map_cons, List.map_map]
      congr 1
      refine List.map_congr_left (fun a _ => ?_)
      simp only [Function.comp_apply]
      omega
    have hk : q - 1 - s = q - (s + 1) := by omega
    rw [e, List.flatMap_cons, List.reverse_append, runT_append]
    rw [hk] at c3
    by_cases hjs : j < q - s
    · have : j + 1 - (q - s) = 0 := by omega
      rw [this]
      have hnil : runT o fuel Y T trans
        (((List.range 0).map (fun a => q - s + a)).flatMap l).reverse (fun i => C i j) = .ok (fun i => C i j) := rfl
      rw [hnil, except_bind_ok, ← i1 hjs]
      exact c3
    · rw [i2 (by omega), except_bind_ok]
      exact c3) h
  intro j
  refine ⟨fun hj => ?_, (key j).2⟩
  have := ((key j).1 hj).2 (by omega)
  simpa using this

theorem leftMulTiled_cols {fuel p q tr tc m n : Nat} {Y T C C' : Nat → Nat → Mat R} {trans : Bool}
    (h : leftMulTiled o fuel p q Y tr tc T m n C trans = .ok C') :
    (0 < q → q ≤ p ∧ q ≤ n) ∧
    ∀ j, (j < q → runT o fuel Y T trans (torder trans p j) (fun i => C i j) = .ok (fun i => C' i j)) ∧
      (q ≤ j → (fun i => C' i j) = (fun i => C i j)) := by
  cases trans with
  | true =>
    simp only [leftMulTiled, if_true] at h
    have hb : ∀ k < q, ∀ A B, (leftMulLarfb p q Y tr tc T m n true k A >>= fun C =>
        loop (p - (k + 1)) (fun u C => leftMulTpmqrt o fuel p q Y tr tc T m n true k (k + 1 + u) C) C) = .ok B →
        (k < p ∧ q ≤ n) ∧ StepCols q k (runT o fuel Y T true (stepPairs p k)) A B := by
      intro k hk A B hB
      rw [except_bind_eq_ok] at hB
      obtain ⟨D, hD, hB⟩ := hB
      have c := leftMulLarfb_cols (o := o) (fuel := fuel) hD
      have hkp := ((c k).1 (le_refl _) hk).1.1
      have hn := ((c (q - 1)).1 (by omega) (by omega)).1.2
      refine ⟨⟨hkp, by omega⟩, ?_⟩
      rw [stepPairs_cons hkp]
      have s1 : StepCols q k (runT o fuel Y T true [(k, k)]) A D := fun j =>
        ⟨fun h1 h2 => by rw [runT_one]; exact ((c j).1 h1 h2).2, (c j).2⟩
      refine stepCols_runT s1 ?_
      refine loop_inv (fun u E => StepCols q k (runT o fuel Y T true
        ((List.range u).map (fun u => (k, k + 1 + u)))) D E) (stepCols_nil _) ?_ hB
      intro u hu E F hI hF
      rw [List.range_succ, List.map_append]
      refine stepCols_runT hI (fun j => ?_)
      have := leftMulTpmqrt_cols (by omega) hF j
      simp only [List.map_cons, List.map_nil, runT_one]
      exact this
    refine ⟨fun hq => ?_, fun j => ?_⟩
    · have := loop_inv (fun s E => ∀ k < s, k < p ∧ q ≤ n) (by intro k hk; omega) (by
        intro s hs E F hI hF k hk
        rcases Nat.lt_succ_iff_lt_or_eq.1 hk with h1 | rfl
        · exact hI k h1
        · exact (hb k hs E F hF).1) h
      have := this (q - 1) (by omega)
      omega
    · have := loop_up_cols (l := stepPairs p) (fun k hk A B hB => (hb k hk A B hB).2) h j
      simpa only [torder, if_true, pairs] using this
  | false =>
    simp only [leftMulTiled, Bool.false_eq_true, if_false] at h
    have hb : ∀ v < q, ∀ A B, (loop (p - (q - 1 - v + 1)) (fun u C =>
        leftMulTpmqrt o fuel p q Y tr tc T m n false (q - 1 - v) (p - 1 - u) C) A >>= fun C =>
        leftMulLarfb p q Y tr tc T m n false (q - 1 - v) C) = .ok B →
        (q - 1 - v < p ∧ q ≤ n) ∧ StepCols q (q - 1 - v) (runT o fuel Y T false (stepPairs p (q - 1 - v)).reverse) A B := by
      intro v hv A B hB
      generalize hk : q - 1 - v = k at hB ⊢
      rw [except_bind_eq_ok] at hB
      obtain ⟨D, hB, hD⟩ := hB
      have c := leftMulLarfb_cols (o := o) (fuel := fuel) hD
      have hkp := ((c k).1 (le_refl _) (by omega)).1.1
      have hn := ((c (q - 1)).1 (by omega) (by omega)).1.2
      refine ⟨⟨hkp, by omega⟩, ?_⟩
      rw [stepPairs_reverse hkp]
      have s1 : StepCols q k (runT o fuel Y T false [(k, k)]) D B := fun j =>
        ⟨fun h1 h2 => by rw [runT_one]; exact ((c j).1 h1 h2).2, (c j).2⟩
      refine stepCols_runT ?_ s1
      refine loop_inv (fun u E => StepCols q k (runT o fuel Y T false
        ((List.range u).map (fun u => (k, p - 1 - u)))) A E) (stepCols_nil _) ?_ hB
      intro u hu E F hI hF
      rw [List.range_succ, List.map_append]
      refine stepCols_runT hI (fun j => ?_)
      have := leftMulTpmqrt_cols (by omega) hF j
      simp only [List.map_cons, List.map_nil, runT_one]
      exact this
    refine ⟨fun hq => ?_, fun j => ?_⟩
    · have := loop_inv (fun s E => ∀ v < s, q - 1 - v < p ∧ q ≤ n) (by intro k hk; omega) (by
        intro s hs E F hI hF k hk
        rcases Nat.lt_succ_iff_lt_or_eq.1 hk with h1 | rfl
        · exact hI k h1
        · exact (hb k hs E F hF).1) h
      have := this 0 (by omega)
      omega
    · have := loop_down_cols (l := stepPairs p) (fun k hk A B hB => (hb k hk A B hB).2) h j
      simpa only [torder, Bool.false_eq_true, if_false, pairs] using this

end Mat
end Verif
