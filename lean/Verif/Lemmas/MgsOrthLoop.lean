import Verif.Lemmas.MgsOrth

/-!
Block Gram-Schmidt QR: the columns of `Q` are orthonormal, the loop over block
columns.
-/

set_option linter.unusedSectionVars false
set_option linter.unusedVariables false

namespace Verif
open Finset

namespace Mat

variable {R : Type} [Field R] [DecidableEq R] {L : Lapack R} {o : LrOps R}

/-- Sum with a single term. -/
theorem sum_delta {n : Nat} {f : Nat → R} {a : Nat} (ha : a < n) (h : ∀ b < n, b ≠ a → f b = 0) :
    ∑ b ∈ range n, f b = f a :=
  Finset.sum_eq_single a (fun b hb hab => h b (Finset.mem_range.1 hb) hab)
    (fun h => absurd (Finset.mem_range.2 ha) h)

/-- The block columns still to be orthogonalized have independent columns. -/
theorem inv_indep {ex : Prop} {p n j : Nat} {A0 Q0 R0 : Nat → Nat → Mat R} {st} (hI : MgsInput ex p n A0 Q0 R0)
    (inv : MgsInv ex p n A0 Q0 R0 j st) (hj : j < n)
    (hind : ColsIndep p n (fun i => (A0 i 0).nRows) (fun k => (A0 0 k).nCols) A0) :
    ∀ c : Nat → R, (∀ i < p, ∀ x < (A0 i j).nRows, ∑ y ∈ range (A0 0 j).nCols, (st.1 i j).entry x y * c y = 0) →
      ∀ y < (A0 0 j).nCols, c y = 0 := by
  have hwid : ∀ i < p, ∀ k < n, (A0 i k).nRows = (A0 i 0).nRows ∧ (A0 i k).nCols = (A0 0 k).nCols :=
    fun i hi k hk => (hI.awf.2.2 i hi k hk).2
  let w := fun k => (A0 0 k).nCols
  let S : Finset ((_ : Nat) × Nat) := (range n).sigma (fun k => range (w k))
  let P : Nat × Nat → Prop := fun r => r.1 < p ∧ r.2 < (A0 r.1 0).nRows
  let M : Nat × Nat → ((_ : Nat) × Nat) → R := fun r k =>
    if k.1 < j then (st.2.1 r.1 k.1).entry r.2 k.2 else (st.1 r.1 k.1).entry r.2 k.2
  let T : ((_ : Nat) × Nat) → ((_ : Nat) × Nat) → R := fun l k =>
    if k.1 < j then
      if l.1 < k.1 then (st.2.2 l.1 k.1).entry l.2 k.2
      else if l.1 = k.1 ∧ l.2 ≤ k.2 then (st.2.2 l.1 k.1).entry l.2 k.2 else 0
    else if l.1 < j then (st.2.2 l.1 k.1).entry l.2 k.2 else if l.1 = k.1 ∧ l.2 = k.2 then 1 else 0
  have hF : ∀ r, P r → ∀ k ∈ S, (A0 r.1 k.1).entry r.2 k.2 = ∑ l ∈ S, M r l * T l k := by
    rintro ⟨i, x⟩ ⟨hi, hx⟩ ⟨k, y⟩ hk
    obtain ⟨hk, hy⟩ := Finset.mem_sigma.1 hk
    have hk := Finset.mem_range.1 hk
    have hy := Finset.mem_range.1 hy
    simp only at hi hx hk hy ⊢
    rw [Finset.sum_sigma]
    have hx' : x < (A0 i k).nRows := by rw [(hwid i hi k hk).1]; exact hx
    have hy' : y < (A0 i k).nCols := by rw [(hwid i hi k hk).2]; exact hy
    by_cases hkj : k < j
    · have hs : ∀ f : Nat → R, ∑ l ∈ range n, f l =
          ∑ l ∈ range k, f l + f k + ∑ u ∈ range (n - (k + 1)), f (k + 1 + u) := by
        intro f
        rw [← Finset.sum_range_succ, ← Finset.sum_range_add, show k + 1 + (n - (k + 1)) = n by omega]
      rw [inv.done i hi k hkj hk x hx' y hy', hs]
      rw [Finset.sum_eq_zero (s := range (n - (k + 1))), add_zero]
      · congr 1
        · refine Finset.sum_congr rfl (fun l hl => Finset.sum_congr rfl (fun c hc => ?_))
          have hl := Finset.mem_range.1 hl
          simp only [M, T]
          rw [if_pos (by omega), if_pos hkj, if_pos hl]
        · refine Eq.trans ?_ (sum_upper hy (fun c hc hyc => ?_))
          · refine Finset.sum_congr rfl (fun c hc => ?_)
            have hc := Finset.mem_range.1 hc
            simp only [M, T]
            rw [if_pos hkj, if_pos hkj, if_neg (lt_irrefl _), if_pos ⟨trivial, by omega⟩]
          · have : T ⟨k, c⟩ ⟨k, y⟩ = 0 := by
              simp only [T]
              rw [if_pos hkj, if_neg (lt_irrefl _), if_neg (fun e => absurd e.2 (by omega))]
            rw [this, mul_zero]
      · intro l hl
        refine Finset.sum_eq_zero (fun c hc => ?_)
        have : T ⟨k + 1 + l, c⟩ ⟨k, y⟩ = 0 := by
          simp only [T]
          rw [if_pos hkj, if_neg (show ¬ (k + 1 + l < k) by omega), if_neg (by omega)]
        rw [this, mul_zero]
    · have hs : ∀ f : Nat → R, ∑ l ∈ range n, f l = ∑ l ∈ range j, f l + ∑ u ∈ range (n - j), f (j + u) := by
        intro f
        rw [← Finset.sum_range_add, show j + (n - j) = n by omega]
      rw [inv.todo i hi k hk (by omega) x hx' y hy', hs]
      congr 1
      · refine Finset.sum_congr rfl (fun l hl => Finset.sum_congr rfl (fun c hc => ?_))
        have hl := Finset.mem_range.1 hl
        simp only [M, T]
        rw [if_pos hl, if_neg hkj, if_pos hl]
      · rw [sum_delta (a := k - j) (by omega), show j + (k - j) = k by omega, sum_delta (a := y) hy]
        · simp only [M, T]
          rw [if_neg hkj, if_neg hkj, if_neg hkj, if_pos ⟨trivial, trivial⟩, mul_one]
        · intro c hc hcy
          simp only [M, T]
          rw [if_neg hkj, if_neg hkj, if_neg hkj, if_neg (fun e => hcy e.2), mul_zero]
        · intro l hl hlk
          refine Finset.sum_eq_zero (fun c hc => ?_)
          simp only [M, T]
          rw [if_neg hkj, if_neg (show ¬ (j + l < j) by omega), if_neg (show ¬ (j + l < j) by omega), if_neg (by omega),
            mul_zero]
  have hA : ∀ c : ((_ : Nat) × Nat) → R, (∀ r, P r → ∑ k ∈ S, (A0 r.1 k.1).entry r.2 k.2 * c k = 0) → ∀ k ∈ S, c k = 0 := by
    intro c hc
    have := hind (fun k y => c ⟨k, y⟩) (fun i hi x hx => by
      have := hc (i, x) ⟨hi, hx⟩
      rw [Finset.sum_sigma] at this
      exact this)
    rintro ⟨k, y⟩ hk
    obtain ⟨hk, hy⟩ := Finset.mem_sigma.1 hk
    exact this k (Finset.mem_range.1 hk) y (Finset.mem_range.1 hy)
  have key := (inj_of_factor S P hF hA).1
  intro c hc y hy
  have := key (fun k => if k.1 = j then c k.2 else 0) (by
    rintro ⟨i, x⟩ ⟨hi, hx⟩
    simp only at hi hx
    rw [Finset.sum_sigma, sum_delta (a := j) hj]
    · rw [← hc i hi x (by rw [(hwid i hi j hj).1]; exact hx)]
      refine Finset.sum_congr rfl (fun y _ => ?_)
      simp only [M]
      rw [if_neg (by omega), if_pos trivial]
    · intro k hk hkj
      refine Finset.sum_eq_zero (fun y _ => ?_)
      simp only
      rw [if_neg hkj, mul_zero]) ⟨j, y⟩ (Finset.mem_sigma.2 ⟨Finset.mem_range.2 hj, Finset.mem_range.2 hy⟩)
  simpa using this

/-- Projection keeps what `gemm` keeps. -/
theorem projLoop_keeps {P : LowRank R → Prop} (hadd : ∀ A B C, o.add A B = .ok C → P C)
    (heps : ∀ d e l, o.ofEps d e = .ok l → P l) {beta : R} {fuel p n j : Nat} {A1 R1 : Nat → Nat → Mat R} {q qt : Nat → Mat R}
    (hA : ∀ i < p, ∀ k < n, (A1 i k).All P) {y}
    (h : loop (n - (j + 1)) (fun u (s : (Nat → Nat → Mat R) × (Nat → Nat → Mat R)) => do
      let z ← projectCol o fuel beta p q qt (s.2 j (j + 1 + u)) (fun i => s.1 i (j + 1 + u))
      .ok (putCol s.1 (j + 1 + u) z.2, putBlk s.2 j (j + 1 + u) z.1)) (A1, R1) = .ok y) :
    ∀ i < p, ∀ k < n, (y.1 i k).All P := by
  refine loop_inv (fun _ (s : (Nat → Nat → Mat R) × (Nat → Nat → Mat R)) => ∀ i < p, ∀ k < n, (s.1 i k).All P) hA ?_ h
  intro u hu s s' ih hs
  simp only [except_bind_eq_ok] at hs
  obtain ⟨z, hz, hs⟩ := hs
  rw [← Except.ok.inj hs]
  simp only [projectCol, except_bind_eq_ok] at hz
  obtain ⟨r, -, new, hn, hz⟩ := hz
  rw [← Except.ok.inj hz]
  intro i hi k hk
  simp only [putCol]
  split
  · rename_i e
    subst e
    exact gemm_keeps hadd heps fuel _ _ _ _ _ _ _ _ (ih i hi _ hk) (collect_ok hn i hi)
  · exact ih i hi k hk

/-- Invariant: the finished block columns of `Q` are orthonormal and orthogonal to
what is left of `A`. -/
structure MgsOInv (p n : Nat) (h w : Nat → Nat) (j : Nat)
    (st : (Nat → Nat → Mat R) × (Nat → Nat → Mat R) × (Nat → Nat → Mat R)) : Prop where
  lo : ∀ i < p, ∀ k < n, (st.1 i k).All LowRank.LeftOrth
  orth : ∀ k < j, ∀ l < j, ∀ y < w k, ∀ z < w l,
    gdot p h (fun i x => (st.2.1 i k).entry x y) (fun i x => (st.2.1 i l).entry x z) = if k = l ∧ y = z then 1 else 0
  perp : ∀ l < j, ∀ k < n, j ≤ k → ∀ y < w l, ∀ z < w k,
    gdot p h (fun i x => (st.2.1 i l).entry x y) (fun i x => (st.1 i k).entry x z) = 0

theorem mgsStep_ortho (hL : L.Qr) (hLo : L.QrOrtho)
    (hf : o.Fits False) {ex : Prop} (hex : ex → o.Exact False) {beta : R} {fuel p n j : Nat}
    {mgs : MgsT R} (hm : MgsSpec ex mgs) (hmo : MgsOrthSpec o ex mgs) {A0 Q0 R0 : Nat → Nat → Mat R}
    (hI : MgsInput ex p n A0 Q0 R0) (hz : BetaOk beta n R0) (hj : j < n)
    (hk : (∀ i < p, ∀ j < n, (A0 i j).All (fun _ => False)) ∨ o.OrthoResults)
    (hind : ColsIndep p n (fun i => (A0 i 0).nRows) (fun k => (A0 0 k).nCols) A0)
    {st st'} (inv : MgsInv ex p n A0 Q0 R0 j st)
    (oinv : MgsOInv p n (fun i => (A0 i 0).nRows) (fun k => (A0 0 k).nCols) j st)
    (h : mgsStep L o fuel mgs beta p n j st = .ok st') :
    MgsOInv p n (fun i => (A0 i 0).nRows) (fun k => (A0 0 k).nCols) (j + 1) st' := by
  have hp : 0 < p := hI.awf.1
  have hwid : ∀ i < p, ∀ k < n, (A0 i k).nCols = (A0 0 k).nCols := fun i hi k hk => (hI.awf.2.2 i hi k hk).2.2
  have hhei : ∀ i < p, ∀ k < n, (A0 i k).nRows = (A0 i 0).nRows := fun i hi k hk => (hI.awf.2.2 i hi k hk).2.1
  have indj := inv_indep hI inv hj hind
  have inv' := mgsStep_post hL hf hex hm hI hz hj inv h
  simp only [mgsStep, except_bind_eq_ok] at h
  obtain ⟨x, hx, qt, hqt, y, hy, h⟩ := h
  rw [← Except.ok.inj h] at inv' ⊢
  have ad := fun i (hi : i < p) k (hk : k < n) => (inv.a i hi k hk).2.dims (hI.a i hi k hk).wf
  rw [inv.r0 j hj j hj (Or.inl (le_refl _))] at hx
  have eA := fun i (hi : i < p) => (⟨(hI.a i hi j hj).of_good (inv.a i hi j hj).1 (inv.a i hi j hj).2, by
    rw [(ad i hi j hj).2, hwid i hi j hj]⟩ : (st.1 i j).EvenBlock ex ∧ (st.1 i j).nCols = (A0 0 j).nCols)
  have eQ : ∀ i < p, Good ex (st.2.1 i j) ∧ (st.2.1 i j).nRows = (st.1 i j).nRows ∧
      (st.2.1 i j).nCols = (A0 0 j).nCols := fun i hi => by
    rw [inv.q0 i hi j hj (le_refl _), (ad i hi j hj).1]
    exact ⟨(hI.q i hi j hj).1.good, (hI.q i hi j hj).2.1, (hI.q i hi j hj).2.2.trans (hwid i hi j hj)⟩
  have eS : (∃ rr rc blk, R0 j j = .hier rr rc blk) → ∀ i < p, (st.1 i j).SameShape (st.2.1 i j) := fun hh i hi => by
    rw [inv.q0 i hi j hj (le_refl _)]
    exact (inv.a i hi j hj).2.symm.trans (hI.same j hj hh i hi)
  have O : OrthPost ex p (A0 0 j).nCols (fun i => st.1 i j) (fun i => Q0 i j) x.1 (R0 j j) x.2 := by
    have := orth_post (w := (A0 0 j).nCols) hL hf hex hm hp (A := fun i => st.1 i j) (Q := fun i => st.2.1 i j)
      (Rm := R0 j j) eA eQ ⟨(hI.r j hj j hj).1, (hI.r j hj j hj).2⟩ eS hx
    refine ⟨fun i hi => ?_, this.r, this.fac, this.low⟩
    have := this.q i hi
    rw [inv.q0 i hi j hj (le_refl _)] at this
    exact this
  -- the new block column is orthonormal
  have self : ColOrtho p (A0 0 j).nCols (fun i => (A0 i 0).nRows) x.1 := by
    have : ColOrtho p (A0 0 j).nCols (fun i => (st.1 i j).nRows) x.1 := by
      have hr := hI.r j hj j hj
      cases hRm : R0 j j with
      | dense d =>
        rw [hRm] at hx
        exact orthDense_ortho hLo hf hex hp (fun i hi => ⟨(eA i hi).1.wf, (eA i hi).2⟩)
          (fun i hi => oinv.lo i hi j hj) eQ hx
      | hier rr rc Rb =>
        rw [hRm] at hx hr
        refine orthHier_ortho hm hmo hp eA (fun i hi => oinv.lo i hi j hj)
          (hk.imp_left (fun hk i hi => (inv.a i hi j hj).2.noLowRank (hk i hi j hj))) (fun c hc => ?_) (eS ⟨_, _, _, hRm⟩) hr hx
        refine indj c (fun i hi u hu => hc i hi u ?_)
        rw [(ad i hi j hj).1]
        exact hu
      | lowRank => rw [hRm] at hx; cases hx
      | empty => rw [hRm] at hx; cases hx
    intro a ha b hb
    rw [← this a ha b hb]
    refine Finset.sum_congr rfl (fun i hi => ?_)
    have hi := Finset.mem_range.1 hi
    beta_reduce
    rw [(ad i hi j hj).1, hhei i hi j hj]
  -- and orthogonal to everything the block column of `A` is orthogonal to
  have cross : ∀ u : Nat → Nat → R, (∀ t < (A0 0 j).nCols,
      gdot p (fun i => (A0 i 0).nRows) u (fun i a => (st.1 i j).entry a t) = 0) → ∀ z < (A0 0 j).nCols,
      gdot p (fun i => (A0 i 0).nRows) u (fun i a => (x.1 i).entry a z) = 0 := by
    intro u hu z hz
    obtain ⟨v, hv⟩ := (inj_of_factor (K := R) (range (A0 0 j).nCols)
      (fun r : Nat × Nat => r.1 < p ∧ r.2 < (A0 r.1 0).nRows)
      (A := fun r t => (st.1 r.1 j).entry r.2 t) (M := fun r c => (x.1 r.1).entry r.2 c)
      (T := fun c t => if c ≤ t then x.2.entry c t else 0) (by
        rintro ⟨i, a⟩ ⟨hi, ha⟩ t ht
        simp only at hi ha ⊢
        have ht := Finset.mem_range.1 ht
        rw [O.fac i hi a (by rw [(ad i hi j hj).1, hhei i hi j hj]; exact ha) t ht,
          ← sum_upper (y := t) ht (fun c hc htc => by rw [if_neg (by omega), mul_zero])]
        refine Finset.sum_congr rfl (fun c hc => ?_)
        have hc := Finset.mem_range.1 hc
        rw [if_pos (by omega)]) (by
        intro c hc
        have := indj c (fun i hi a ha => hc (i, a) ⟨hi, by rw [← hhei i hi j hj]; exact ha⟩)
        exact fun t ht => this t (Finset.mem_range.1 ht))).2 (fun c => if c = z then 1 else 0)
    have e1 : gdot p (fun i => (A0 i 0).nRows) u (fun i a => ∑ t ∈ range (A0 0 j).nCols, (st.1 i j).entry a t * v t) = 0 := by
      rw [gdot_sum p _ u (range (A0 0 j).nCols) (fun t i a => (st.1 i j).entry a t) v]
      exact Finset.sum_eq_zero (fun t ht => by rw [hu t (Finset.mem_range.1 ht), zero_mul])
    rw [← e1]
    refine gdot_congr (fun _ _ _ _ => rfl) (fun i hi a ha => ?_)
    have e2 : ∀ t ∈ range (A0 0 j).nCols, (st.1 i j).entry a t * v t =
        ∑ c ∈ range (A0 0 j).nCols, (x.1 i).entry a c * ((if c ≤ t then x.2.entry c t else 0) * v t) := by
      intro t ht
      have ht := Finset.mem_range.1 ht
      rw [O.fac i hi a (by rw [(ad i hi j hj).1, hhei i hi j hj]; exact ha) t ht, Finset.sum_mul,
        ← sum_upper (y := t) ht (fun c hc htc => by rw [if_neg (by omega), zero_mul, mul_zero])]
      refine Finset.sum_congr rfl (fun c hc => ?_)
      have hc := Finset.mem_range.1 hc
      rw [if_pos (by omega), mul_assoc]
    rw [Finset.sum_congr rfl e2, Finset.sum_comm,
      Finset.sum_congr rfl (fun c hc => by rw [← Finset.mul_sum, hv c hc]), sum_delta hz]
    · rw [if_pos rfl, mul_one]
    · intro b hb hbz
      rw [if_neg hbz, mul_zero]
  have T := fun i (hi : i < p) => transpose_spec (O.q i hi).1.wf (collect_ok hqt i hi)
  have PP := projLoop_spec (w := (A0 0 j).nCols) hf hex hp (A0 := A0) (R0 := R0)
    (fun i hi => (O.q i hi).1.wf) (fun i hi => (T i hi).1)
    (fun i hi k hk hjk => ⟨(inv.a i hi k hk).1, (inv.a i hi k hk).2, (hI.a i hi k hk).wf⟩)
    (fun k hk hjk => by
      simp only [putBlk]
      rw [if_neg (by omega)]
      exact ⟨(inv.r j hj k hk).1, (inv.r j hj k hk).2, (hI.r j hj k hk).1.wf, (hI.r j hj k hk).2.1⟩)
    (fun k hk hjk c hc t ht => by
      simp only [putBlk]
      rw [if_neg (by omega), inv.r0 j hj k hk (Or.inl (le_refl _))]
      exact hz j k hk hjk c (by rw [(hI.r j hj k hk).2.1]; exact hc) t ht) hy
  have qj : ∀ i, putCol st.2.1 j x.1 i j = x.1 i := fun i => if_pos rfl
  have ql : ∀ i l, l ≠ j → putCol st.2.1 j x.1 i l = st.2.1 i l := fun i l hl => if_neg hl
  -- inner products with a projected column
  have proj : ∀ (u : Nat → Nat → R) (k : Nat), k < n → j < k → ∀ t < (A0 0 k).nCols,
      gdot p (fun i => (A0 i 0).nRows) u (fun i a => (st.1 i k).entry a t) =
        ∑ c ∈ range (A0 0 j).nCols, gdot p (fun i => (A0 i 0).nRows) u (fun i a => (x.1 i).entry a c) *
          (y.2 j k).entry c t + gdot p (fun i => (A0 i 0).nRows) u (fun i a => (y.1 i k).entry a t) := by
    intro u k hk hjk t ht
    rw [← gdot_sum p _ u (range (A0 0 j).nCols) (fun c i a => (x.1 i).entry a c) (fun c => (y.2 j k).entry c t),
      ← gdot_add]
    exact gdot_congr (fun _ _ _ _ => rfl) (fun i hi a ha =>
      PP.ent i hi k hk hjk a (by rw [hhei i hi k hk]; exact ha) t (by rw [hwid i hi k hk]; exact ht))
  refine ⟨?_, fun k hk l hl a ha b hb => ?_, fun l hl k hk hjk a ha b hb => ?_⟩
  · rcases hk with hk | hk
    · exact fun i hi k hkn => ((inv'.a i hi k hkn).2.noLowRank (hk i hi k hkn)).mono (fun _ h => h.elim)
    · exact projLoop_keeps hk.add hk.ofEps oinv.lo hy
  · simp only
    by_cases hkj : k = j
    · subst hkj
      by_cases hlk : l = k
      · subst hlk
        simp only [qj]
        rw [self a ha b hb]
        exact if_congr ⟨fun e => ⟨trivial, e⟩, fun e => e.2⟩ rfl rfl
      · simp only [qj, ql _ l hlk]
        rw [if_neg (fun e => hlk e.1.symm), gdot_comm]
        exact cross _ (fun t ht => oinv.perp l (by omega) k hj (le_refl _) b hb t ht) a ha
    · by_cases hlj : l = j
      · subst hlj
        simp only [qj, ql _ k hkj]
        rw [if_neg (fun e => hkj e.1)]
        exact cross _ (fun t ht => oinv.perp k (by omega) l hj (le_refl _) a ha t ht) b hb
      · simp only [ql _ k hkj, ql _ l hlj]
        exact oinv.orth k (by omega) l (by omega) a ha b hb
  · simp only
    by_cases hlj : l = j
    · subst hlj
      simp only [qj]
      have h1 := proj (fun i u => (x.1 i).entry u a) k hk (by omega) b hb
      rw [sum_delta ha (fun c hc hca => by rw [self a ha c hc, if_neg (Ne.symm hca), zero_mul]), self a ha a ha,
        if_pos rfl, one_mul] at h1
      have h2 := PP.val k hk (by omega) a ha b (by rw [(hI.r l hj k hk).2.2]; exact hb)
      have h3 : gdot p (fun i => (A0 i 0).nRows) (fun i u => (x.1 i).entry u a) (fun i u => (st.1 i k).entry u b) =
          (y.2 l k).entry a b := by
        rw [h2]
        refine Finset.sum_congr rfl (fun i hi => ?_)
        have hi := Finset.mem_range.1 hi
        rw [hhei i hi k hk]
        refine Finset.sum_congr rfl (fun u hu => ?_)
        have hu := Finset.mem_range.1 hu
        have dq := (O.q i hi).2.dims (hI.q i hi l hj).1.wf
        rw [(T i hi).2.2.2.2 u (by rw [dq.1, (hI.q i hi l hj).2.1, hhei i hi l hj]; exact hu) a
          (by rw [dq.2, (hI.q i hi l hj).2.2, hwid i hi l hj]; exact ha)]
      rw [h3] at h1
      exact left_eq_add.1 h1
    · simp only [ql _ l hlj]
      have h1 := proj (fun i u => (st.2.1 i l).entry u a) k hk (by omega) b hb
      rw [oinv.perp l (by omega) k hk (by omega) a ha b hb, Finset.sum_eq_zero, zero_add] at h1
      · exact h1.symm
      · intro c hc
        rw [cross _ (fun t ht => oinv.perp l (by omega) j hj (le_refl _) a ha t ht) c (Finset.mem_range.1 hc), zero_mul]

theorem mgsWith_ortho (hL : L.Qr) (hLo : L.QrOrtho)
    (hf : o.Fits False) {ex : Prop} (hex : ex → o.Exact False) {gfuel : Nat} {mgs : MgsT R}
    (hm : MgsSpec ex mgs) (ih : MgsOrthSpec o ex mgs) {beta : R} {p n : Nat} {A Q Rb : Nat → Nat → Mat R}
    {qp qn rr rc : Nat} {x} (h : mgsWith L o gfuel mgs beta p n A qp qn Q rr rc Rb = .ok x)
    (hI : MgsInput ex p n A Q Rb) (hz : BetaOk beta n Rb)
    (hlo : ∀ i < p, ∀ j < n, (A i j).All LowRank.LeftOrth)
    (hk : (∀ i < p, ∀ j < n, (A i j).All (fun _ => False)) ∨ o.OrthoResults)
    (hind : ColsIndep p n (fun i => (A i 0).nRows) (fun j => (A 0 j).nCols) A) :
    ColsOrtho p n (fun i => (A i 0).nRows) (fun j => (A 0 j).nCols) x.1 := by
  simp only [mgsWith, except_bind_eq_ok, assertM_eq_ok, decide_eq_true_eq] at h
  obtain ⟨_, e1, _, e2, _, e3, _, e4, y, hy, h⟩ := h
  rw [← Except.ok.inj h]
  have key := loop_inv (fun j st => MgsInv ex p n A Q Rb j st ∧
      MgsOInv p n (fun i => (A i 0).nRows) (fun k => (A 0 k).nCols) j st) (by
    refine ⟨⟨fun i hi k hk => ⟨(hI.a i hi k hk).good, SameShape.refl _⟩,
      fun i hi k hk => ⟨(hI.q i hi k hk).1.good, SameShape.refl _⟩, fun _ _ _ _ _ => rfl,
      fun i hi k hk => ⟨(hI.r i hi k hk).1.good, SameShape.refl _⟩, fun _ _ _ _ _ => rfl,
      fun k hk => absurd hk (by omega), fun i hi k hk => absurd hk (by omega), fun i hi k hk _ x hx y hy => ?_⟩,
      hlo, fun k hk => absurd hk (by omega), fun k hk => absurd hk (by omega)⟩
    simp) (fun j hj a b ha hb => ⟨mgsStep_post hL hf hex hm hI hz hj ha.1 hb,
      mgsStep_ortho hL hLo hf hex hm ih hI hz hj hk hind ha.1 ha.2 hb⟩) hy
  exact key.2.orth

theorem mgsHier_ortho (hL : L.Qr) (hLo : L.QrOrtho)
    (hf : o.Fits False) {ex : Prop} (hex : ex → o.Exact False) (gfuel fuel : Nat) :
    MgsOrthSpec o ex (mgsHier L o gfuel fuel) := by
  induction fuel with
  | zero =>
    intro p n A qp qn Q rr rc Rb x h
    cases h
  | succ fuel ih =>
    intro p n A qp qn Q rr rc Rb x h hI hlo hk hind
    exact mgsWith_ortho hL hLo hf hex (mgsHier_spec hL hf hex gfuel fuel) ih h hI (BetaOk.zero _ _) hlo hk hind

end Mat
end Verif
