import Verif.Lemmas.MgsRec

/-!
Block Gram-Schmidt QR: the loop over block columns.
-/

set_option linter.unusedSectionVars false
set_option linter.unusedVariables false

namespace Verif
open Finset

variable {R : Type} [CommRing R]

namespace Mat

variable [DecidableEq R] {L : Lapack R} {o : LrOps R}

/-- The factor of the old blocks of `R` makes no contribution: it is zero, or the blocks
above the diagonal are. -/
def BetaOk (beta : R) (n : Nat) (R0 : Nat → Nat → Mat R) : Prop :=
  ∀ i k, k < n → i < k → ∀ c < (R0 i k).nRows, ∀ y < (R0 i k).nCols, beta * (R0 i k).entry c y = 0

theorem BetaOk.zero (n : Nat) (R0 : Nat → Nat → Mat R) : BetaOk 0 n R0 := fun _ _ _ _ _ _ _ _ => zero_mul _

theorem projectCol_spec (hf : o.Fits False) {ex : Prop} (hex : ex → o.Exact False) {beta : R} {fuel p : Nat} (hp : 0 < p)
    {q qt a : Nat → Mat R} {r : Mat R} (hq : ∀ i < p, (q i).WF) (hqt : ∀ i < p, (qt i).WF) (hr : Good ex r)
    (ha : ∀ i < p, Good ex (a i)) (hz : ∀ c < r.nRows, ∀ y < r.nCols, beta * r.entry c y = 0) {z}
    (h : projectCol o fuel beta p q qt r a = .ok z) :
    (Good ex z.1 ∧ r.SameShape z.1) ∧ (∀ i < p, Good ex (z.2 i) ∧ (a i).SameShape (z.2 i)) ∧
      (∀ c < r.nRows, ∀ y < r.nCols, z.1.entry c y =
        ∑ i ∈ range p, ∑ x ∈ range (a i).nRows, (qt i).entry c x * (a i).entry x y) ∧
      ∀ i < p, ∀ x < (a i).nRows, ∀ y < (a i).nCols, (a i).entry x y =
        ∑ c ∈ range r.nRows, (q i).entry x c * z.1.entry c y + (z.2 i).entry x y := by
  simp only [projectCol, except_bind_eq_ok] at h
  obtain ⟨r', h1, new, h2, h⟩ := h
  rw [← Except.ok.inj h]
  have key := loop_inv (fun u (X : Mat R) => Good ex X ∧ r.SameShape X ∧ (u = 0 → X = r) ∧ (0 < u → ∀ c < r.nRows, ∀ y < r.nCols,
      X.entry c y = ∑ i ∈ range u, ∑ x ∈ range (a i).nRows, (qt i).entry c x * (a i).entry x y))
    ⟨hr, SameShape.refl _, fun _ => rfl, fun h => absurd h (by omega)⟩ (by
    intro u hu X Y ⟨i1, i2, i0, i3⟩ hs
    obtain ⟨g1, g2, g3, g4, g5, g6⟩ := gemm_good hf hex (hqt u hu) (ha u hu).wf i1 (TransSafe_ff _ _) hs
    refine ⟨g4, i2.trans g5, fun h => absurd h (by omega), fun _ c hc y hy => ?_⟩
    obtain ⟨d1, d2⟩ := i2.dims hr.wf
    rw [g6 c (by rw [d1]; exact hc) y (by rw [d2]; exact hy), Finset.sum_range_succ, one_mul]
    by_cases h0 : u = 0
    · subst h0
      rw [i0 rfl, if_pos rfl, hz c hc y hy]
      simp only [add_zero, Finset.range_zero, Finset.sum_empty, zero_add, opEntry,
        Bool.false_eq_true, if_false]
    · rw [if_neg h0, one_mul, i3 (by omega) c hc y hy, add_comm]
      simp only [opEntry, Bool.false_eq_true, if_false]) h1
  obtain ⟨k1, k2, -, k3⟩ := key
  have hn := collect_ok h2
  have hN := fun i (hi : i < p) => gemm_good hf hex (hq i hi) k1.wf (ha i hi) (TransSafe_ff _ _) (hn i hi)
  obtain ⟨d1, d2⟩ := k2.dims hr.wf
  refine ⟨⟨k1, k2⟩, fun i hi => ?_, k3 hp, fun i hi x hx y hy => ?_⟩
  · simp only [if_pos hi]
    exact ⟨(hN i hi).2.2.2.1, (hN i hi).2.2.2.2.1⟩
  · simp only [if_pos hi]
    rw [(hN i hi).2.2.2.2.2 x hx y hy, d1]
    simp only [opEntry, Bool.false_eq_true, if_false]
    ring

/-- Invariant of the loop over block columns. -/
structure MgsInv (ex : Prop) (p n : Nat) (A0 Q0 R0 : Nat → Nat → Mat R) (j : Nat)
    (st : (Nat → Nat → Mat R) × (Nat → Nat → Mat R) × (Nat → Nat → Mat R)) : Prop where
  a : ∀ i < p, ∀ k < n, Good ex (st.1 i k) ∧ (A0 i k).SameShape (st.1 i k)
  q : ∀ i < p, ∀ k < n, Good ex (st.2.1 i k) ∧ (Q0 i k).SameShape (st.2.1 i k)
  q0 : ∀ i < p, ∀ k < n, j ≤ k → st.2.1 i k = Q0 i k
  r : ∀ i < n, ∀ k < n, Good ex (st.2.2 i k) ∧ (R0 i k).SameShape (st.2.2 i k)
  r0 : ∀ i < n, ∀ k < n, j ≤ i ∨ k < i → st.2.2 i k = R0 i k
  diag : ∀ k < j, ∀ c < (A0 0 k).nCols, ∀ y < c,
    (st.2.2 k k).entry c y = 0 ∨ (st.2.2 k k).entry c y = (R0 k k).entry c y
  done : ∀ i < p, ∀ k < j, k < n → ∀ x < (A0 i k).nRows, ∀ y < (A0 i k).nCols,
    (A0 i k).entry x y = ∑ l ∈ range k, ∑ c ∈ range (A0 0 l).nCols, (st.2.1 i l).entry x c * (st.2.2 l k).entry c y +
      ∑ c ∈ range (y + 1), (st.2.1 i k).entry x c * (st.2.2 k k).entry c y
  todo : ∀ i < p, ∀ k < n, j ≤ k → ∀ x < (A0 i k).nRows, ∀ y < (A0 i k).nCols,
    (A0 i k).entry x y = ∑ l ∈ range j, ∑ c ∈ range (A0 0 l).nCols, (st.2.1 i l).entry x c * (st.2.2 l k).entry c y +
      (st.1 i k).entry x y

/-- What the projection of the later block columns guarantees. -/
structure ProjPost (ex : Prop) (p n j w : Nat) (A0 R0 : Nat → Nat → Mat R) (q qt : Nat → Mat R) (A1 R1 : Nat → Nat → Mat R)
    (y : (Nat → Nat → Mat R) × (Nat → Nat → Mat R)) : Prop where
  a : ∀ i < p, ∀ k < n, j < k → Good ex (y.1 i k) ∧ (A0 i k).SameShape (y.1 i k)
  a0 : ∀ i k, k ≤ j → y.1 i k = A1 i k
  r : ∀ k < n, j < k → Good ex (y.2 j k) ∧ (R0 j k).SameShape (y.2 j k)
  r0 : ∀ i k, i ≠ j ∨ k ≤ j → y.2 i k = R1 i k
  val : ∀ k < n, j < k → ∀ c < w, ∀ t < (R0 j k).nCols, (y.2 j k).entry c t =
    ∑ i ∈ range p, ∑ x ∈ range (A0 i k).nRows, (qt i).entry c x * (A1 i k).entry x t
  ent : ∀ i < p, ∀ k < n, j < k → ∀ x < (A0 i k).nRows, ∀ t < (A0 i k).nCols, (A1 i k).entry x t =
    ∑ c ∈ range w, (q i).entry x c * (y.2 j k).entry c t + (y.1 i k).entry x t

theorem projLoop_spec (hf : o.Fits False) {ex : Prop} (hex : ex → o.Exact False) {beta : R} {fuel p n j w : Nat} (hp : 0 < p)
    {A0 R0 A1 R1 : Nat → Nat → Mat R} {q qt : Nat → Mat R} (hq : ∀ i < p, (q i).WF) (hqt : ∀ i < p, (qt i).WF)
    (hA : ∀ i < p, ∀ k < n, j < k → Good ex (A1 i k) ∧ (A0 i k).SameShape (A1 i k) ∧ (A0 i k).WF)
    (hR : ∀ k < n, j < k → Good ex (R1 j k) ∧ (R0 j k).SameShape (R1 j k) ∧ (R0 j k).WF ∧ (R0 j k).nRows = w)
    (hz : ∀ k < n, j < k → ∀ c < w, ∀ y < (R0 j k).nCols, beta * (R1 j k).entry c y = 0) {y}
    (h : loop (n - (j + 1)) (fun u (s : (Nat → Nat → Mat R) × (Nat → Nat → Mat R)) => do
      let z ← projectCol o fuel beta p q qt (s.2 j (j + 1 + u)) (fun i => s.1 i (j + 1 + u))
      .ok (putCol s.1 (j + 1 + u) z.2, putBlk s.2 j (j + 1 + u) z.1)) (A1, R1) = .ok y) :
    ProjPost ex p n j w A0 R0 q qt A1 R1 y := by
  have hz0 := hz
  have key := loop_inv (fun u (s : (Nat → Nat → Mat R) × (Nat → Nat → Mat R)) =>
      (∀ i k, k ≤ j ∨ j + 1 + u ≤ k → s.1 i k = A1 i k) ∧
      (∀ i k, i ≠ j ∨ k ≤ j ∨ j + 1 + u ≤ k → s.2 i k = R1 i k) ∧
      (∀ k < j + 1 + u, j < k → (Good ex (s.2 j k) ∧ (R0 j k).SameShape (s.2 j k)) ∧
        (∀ c < w, ∀ t < (R0 j k).nCols, (s.2 j k).entry c t =
          ∑ i ∈ range p, ∑ x ∈ range (A0 i k).nRows, (qt i).entry c x * (A1 i k).entry x t) ∧
        ∀ i < p, (Good ex (s.1 i k) ∧ (A0 i k).SameShape (s.1 i k)) ∧
          ∀ x < (A0 i k).nRows, ∀ t < (A0 i k).nCols, (A1 i k).entry x t =
            ∑ c ∈ range w, (q i).entry x c * (s.2 j k).entry c t + (s.1 i k).entry x t))
    ⟨fun _ _ _ => rfl, fun _ _ _ => rfl, fun k h1 h2 => absurd h1 (by omega)⟩ (by
    intro u hu s s' ⟨i1, i2, i3⟩ hs
    simp only [except_bind_eq_ok] at hs
    obtain ⟨z, hz, hs⟩ := hs
    rw [← Except.ok.inj hs]
    have hk : j + 1 + u < n := by omega
    rw [i2 j (j + 1 + u) (by omega)] at hz
    have hcol : (fun i => s.1 i (j + 1 + u)) = fun i => A1 i (j + 1 + u) := by
      funext i
      exact i1 i _ (by omega)
    rw [hcol] at hz
    obtain ⟨r1, r2, r3, r4⟩ := hR _ hk (by omega)
    have rd := r2.dims r3
    obtain ⟨z1, z2, z3, z4⟩ := projectCol_spec hf hex hp hq hqt r1 (fun i hi => (hA i hi _ hk (by omega)).1)
      (fun c hc y hy => hz0 _ hk (by omega) c (by rw [← r4, ← rd.1]; exact hc) y (by rw [← rd.2]; exact hy)) hz
    have ad := fun i (hi : i < p) => (hA i hi _ hk (by omega)).2.1.dims (hA i hi _ hk (by omega)).2.2
    refine ⟨fun i k hk' => ?_, fun i k hk' => ?_, fun k hk' hjk => ?_⟩
    · simp only [putCol]
      rw [if_neg (by omega)]
      exact i1 i k (by omega)
    · simp only [putBlk]
      rw [if_neg (by omega)]
      exact i2 i k (by omega)
    · by_cases e : k = j + 1 + u
      · subst e
        simp only [putCol, putBlk, if_true, and_self]
        refine ⟨⟨z1.1, r2.trans z1.2⟩, fun c hc t ht => ?_, fun i hi => ⟨⟨(z2 i hi).1, (hA i hi _ hk (by omega)).2.1.trans (z2 i hi).2⟩,
          fun x hx t ht => ?_⟩⟩
        · rw [z3 c (by rw [rd.1, r4]; exact hc) t (by rw [rd.2]; exact ht)]
          refine Finset.sum_congr rfl (fun i hi => ?_)
          rw [(ad i (Finset.mem_range.1 hi)).1]
        · have := z4 i hi x (by rw [(ad i hi).1]; exact hx) t (by rw [(ad i hi).2]; exact ht)
          rw [rd.1, r4] at this
          exact this
      · have := i3 k (by omega) hjk
        have e1 : ∀ i, putCol s.1 (j + 1 + u) z.2 i k = s.1 i k := fun i => if_neg e
        have e2 : putBlk s.2 j (j + 1 + u) z.1 j k = s.2 j k := if_neg (fun h => e h.2)
        simp only [e1, e2]
        exact this) h
  obtain ⟨k1, k2, k3⟩ := key
  have hb : ∀ k < n, j < k → k < j + 1 + (n - (j + 1)) := fun k h1 h2 => by omega
  exact ⟨fun i hi k hk hjk => ((k3 k (hb k hk hjk) hjk).2.2 i hi).1, fun i k hk => k1 i k (by omega),
    fun k hk hjk => (k3 k (hb k hk hjk) hjk).1, fun i k hk => k2 i k (by omega),
    fun k hk hjk => (k3 k (hb k hk hjk) hjk).2.1,
    fun i hi k hk hjk => ((k3 k (hb k hk hjk) hjk).2.2 i hi).2⟩

/-- `orthogonalize_block_col` for both kinds of `R`. -/
theorem orth_post (hL : L.Qr) (hf : o.Fits False) {ex : Prop} (hex : ex → o.Exact False) {fuel p w : Nat} {mgs : MgsT R}
    (hm : MgsSpec ex mgs) (hp : 0 < p) {A Q : Nat → Mat R} (hA : ∀ i < p, (A i).EvenBlock ex ∧ (A i).nCols = w)
    (hQ : ∀ i < p, Good ex (Q i) ∧ (Q i).nRows = (A i).nRows ∧ (Q i).nCols = w) {Rm : Mat R}
    (hR : Rm.EvenBlock ex ∧ Rm.nRows = w ∧ Rm.nCols = w)
    (hS : (∃ rr rc blk, Rm = .hier rr rc blk) → ∀ i < p, (A i).SameShape (Q i)) {x}
    (h : orthogonalizeBlockCol L o fuel mgs p A Q Rm = .ok x) : OrthPost ex p w A Q x.1 Rm x.2 := by
  cases Rm with
  | dense d => exact orthDense_post hL hf hex hp (fun i hi => ⟨(hA i hi).1.wf, (hA i hi).2⟩) hQ hR.2 h
  | hier rr rc Rb => exact orthHier_post hm hp hA (hS ⟨_, _, _, rfl⟩) hR h
  | lowRank => cases h
  | empty => cases h

theorem mgsStep_post (hL : L.Qr) (hf : o.Fits False) {ex : Prop} (hex : ex → o.Exact False) {beta : R} {fuel p n j : Nat}
    {mgs : MgsT R} (hm : MgsSpec ex mgs) {A0 Q0 R0 : Nat → Nat → Mat R} (hI : MgsInput ex p n A0 Q0 R0) (hz : BetaOk beta n R0) (hj : j < n)
    {st st'} (inv : MgsInv ex p n A0 Q0 R0 j st) (h : mgsStep L o fuel mgs beta p n j st = .ok st') :
    MgsInv ex p n A0 Q0 R0 (j + 1) st' := by
  have hp : 0 < p := hI.awf.1
  have hwid : ∀ i < p, ∀ k < n, (A0 i k).nCols = (A0 0 k).nCols := fun i hi k hk => (hI.awf.2.2 i hi k hk).2.2
  simp only [mgsStep, except_bind_eq_ok] at h
  obtain ⟨x, hx, qt, hqt, y, hy, h⟩ := h
  rw [← Except.ok.inj h]
  have ad := fun i (hi : i < p) k (hk : k < n) => (inv.a i hi k hk).2.dims (hI.a i hi k hk).wf
  have O : OrthPost ex p (A0 0 j).nCols (fun i => st.1 i j) (fun i => Q0 i j) x.1 (R0 j j) x.2 := by
    rw [inv.r0 j hj j hj (Or.inl (le_refl _))] at hx
    have := orth_post (w := (A0 0 j).nCols) hL hf hex hm hp (A := fun i => st.1 i j) (Q := fun i => st.2.1 i j) (Rm := R0 j j) (fun i hi =>
      ⟨(hI.a i hi j hj).of_good (inv.a i hi j hj).1 (inv.a i hi j hj).2, by rw [(ad i hi j hj).2, hwid i hi j hj]⟩)
      (fun i hi => by
        rw [inv.q0 i hi j hj (le_refl _), (ad i hi j hj).1]
        exact ⟨(hI.q i hi j hj).1.good, (hI.q i hi j hj).2.1, (hI.q i hi j hj).2.2.trans (hwid i hi j hj)⟩)
      ⟨(hI.r j hj j hj).1, (hI.r j hj j hj).2⟩ (fun hh i hi => by
        rw [inv.q0 i hi j hj (le_refl _)]
        exact (inv.a i hi j hj).2.symm.trans (hI.same j hj hh i hi)) hx
    refine ⟨fun i hi => ?_, this.r, this.fac, this.low⟩
    have := this.q i hi
    rw [inv.q0 i hi j hj (le_refl _)] at this
    exact this
  have T := fun i (hi : i < p) => transpose_spec (O.q i hi).1.wf (collect_ok hqt i hi)
  have PP := projLoop_spec (w := (A0 0 j).nCols) hf hex hp (A0 := A0) (R0 := R0)
    (fun i hi => (O.q i hi).1.wf) (fun i hi => (T i hi).1)
    (fun i hi k hk hjk => ⟨(inv.a i hi k hk).1, (inv.a i hi k hk).2, (hI.a i hi k hk).wf⟩)
    (fun k hk hjk => by
      simp only [putBlk]
      rw [if_neg (by omega)]
      exact ⟨(inv.r j hj k hk).1, (inv.r j hj k hk).2, (hI.r j hj k hk).1.wf, (hI.r j hj k hk).2.1⟩)
    (fun k hk hjk c hc t ht => by
      simp only [putBlk]
      rw [if_neg (by omega), inv.r0 j hj k hk (Or.inl (le_refl _))]
      exact hz j k hk hjk c (by rw [(hI.r j hj k hk).2.1]; exact hc) t ht) hy
  have qj : ∀ i, putCol st.2.1 j x.1 i j = x.1 i := fun i => if_pos rfl
  have ql : ∀ i l, l ≠ j → putCol st.2.1 j x.1 i l = st.2.1 i l := fun i l hl => if_neg hl
  have rjj : y.2 j j = x.2 := by
    rw [PP.r0 j j (Or.inr (le_refl _))]
    exact if_pos ⟨rfl, rfl⟩
  have rl : ∀ i k, i ≠ j ∨ k < j → y.2 i k = st.2.2 i k := by
    intro i k hik
    rw [PP.r0 i k (by omega)]
    exact if_neg (by omega)
  refine ⟨fun i hi k hk => ?_, fun i hi k hk => ?_, fun i hi k hk hjk => ?_, fun i hi k hk => ?_,
    fun i hi k hk hik => ?_, fun k hk c hc t ht => ?_, fun i hi k hk hkn u hu t ht => ?_, fun i hi k hk hjk u hu t ht => ?_⟩
  · by_cases hjk : j < k
    · exact PP.a i hi k hk hjk
    · simp only
      rw [PP.a0 i k (by omega)]
      exact inv.a i hi k hk
  · by_cases hjk : k = j
    · subst hjk
      simp only [qj]
      exact O.q i hi
    · simp only [ql i k hjk]
      exact inv.q i hi k hk
  · simp only [ql i k (by omega)]
    exact inv.q0 i hi k hk (by omega)
  · by_cases hij : i = j
    · subst hij
      by_cases h1 : i < k
      · exact PP.r k hk h1
      · by_cases h2 : k = i
        · subst h2
          simp only [rjj]
          exact O.r
        · simp only [rl i k (by omega)]
          exact inv.r i hi k hk
    · simp only [rl i k (Or.inl hij)]
      exact inv.r i hi k hk
  · simp only
    rw [rl i k (by omega)]
    exact inv.r0 i hi k hk (by omega)
  · by_cases hkj : k = j
    · subst hkj
      simp only [rjj]
      exact O.low c hc t ht
    · simp only [rl k k (Or.inl hkj)]
      exact inv.diag k (by omega) c hc t ht
  · -- finished block columns
    simp only
    by_cases hkj : k = j
    · subst hkj
      rw [inv.todo i hi k hkn (le_refl _) u hu t ht, qj, rjj,
        O.fac i hi u (by rw [(ad i hi k hkn).1]; exact hu) t (by rw [← hwid i hi k hkn]; exact ht)]
      congr 1
      refine Finset.sum_congr rfl (fun l hl => ?_)
      have hl := Finset.mem_range.1 hl
      rw [ql i l (by omega), rl l k (by omega)]
    · rw [inv.done i hi k (by omega) hkn u hu t ht, ql i k hkj, rl k k (Or.inl hkj)]
      congr 1
      refine Finset.sum_congr rfl (fun l hl => ?_)
      have hl := Finset.mem_range.1 hl
      rw [ql i l (by omega), rl l k (by omega)]
  · -- remaining block columns
    simp only
    rw [inv.todo i hi k hk (by omega) u hu t ht, Finset.sum_range_succ, qj, PP.ent i hi k hk (by omega) u hu t ht, add_assoc]
    congr 1
    refine Finset.sum_congr rfl (fun l hl => ?_)
    have hl := Finset.mem_range.1 hl
    rw [ql i l (by omega), rl l k (by omega)]

theorem mgsWith_spec (hL : L.Qr) (hf : o.Fits False) {ex : Prop} (hex : ex → o.Exact False) {gfuel : Nat} {mgs : MgsT R}
    (ih : MgsSpec ex mgs) {beta : R} {p n : Nat} {A Q Rb : Nat → Nat → Mat R} {qp qn rr rc : Nat} {x}
    (h : mgsWith L o gfuel mgs beta p n A qp qn Q rr rc Rb = .ok x) :
    qp = p ∧ qn = n ∧ rr = n ∧ rc = n ∧ (MgsInput ex p n A Q Rb → BetaOk beta n Rb → MgsPost ex p n A Q Rb x.1 x.2) := by
  simp only [mgsWith, except_bind_eq_ok, assertM_eq_ok, decide_eq_true_eq] at h
  obtain ⟨_, e1, _, e2, _, e3, _, e4, y, hy, h⟩ := h
  refine ⟨e1, e2, e3, e4, fun hI hz => ?_⟩
  rw [← Except.ok.inj h]
  have key := loop_inv (fun j st => MgsInv ex p n A Q Rb j st) (by
    refine ⟨fun i hi k hk => ⟨(hI.a i hi k hk).good, SameShape.refl _⟩,
      fun i hi k hk => ⟨(hI.q i hi k hk).1.good, SameShape.refl _⟩, fun _ _ _ _ _ => rfl,
      fun i hi k hk => ⟨(hI.r i hi k hk).1.good, SameShape.refl _⟩, fun _ _ _ _ _ => rfl,
      fun k hk => absurd hk (by omega), fun i hi k hk => absurd hk (by omega), fun i hi k hk _ x hx y hy => ?_⟩
    simp) (fun j hj a b ha hb => mgsStep_post hL hf hex ih hI hz hj ha hb) hy
  exact ⟨key.q, key.r, fun i hi j hj => key.r0 i hi j (by omega) (Or.inr hj),
    key.diag, fun i hi j hj => key.done i hi j hj hj⟩

theorem mgsHier_spec (hL : L.Qr) (hf : o.Fits False) {ex : Prop} (hex : ex → o.Exact False) (gfuel fuel : Nat) :
    MgsSpec ex (mgsHier L o gfuel fuel) := by
  induction fuel with
  | zero =>
    intro p n A qp qn Q rr rc Rb x h
    cases h
  | succ fuel ih =>
    intro p n A qp qn Q rr rc Rb x h
    obtain ⟨e1, e2, e3, e4, hm⟩ := mgsWith_spec hL hf hex ih h
    exact ⟨e1, e2, e3, e4, fun hI => hm hI (BetaOk.zero _ _)⟩

end Mat
end Verif
