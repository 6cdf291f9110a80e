import Verif.Lemmas.Mgs

/-!
Block Gram-Schmidt QR: hierarchical `R` and the recursion.
-/

set_option linter.unusedSectionVars false
set_option linter.unusedVariables false

namespace Verif
open Finset

variable {R : Type} [CommRing R]

namespace Mat

/-! ### sums over block columns -/

theorem sum_upto {M : Type} [AddCommMonoid M] (w : Nat → Nat) (j k : Nat) (f : Nat → M) :
    ∑ c ∈ range (psum w j + k), f c =
      ∑ l ∈ range j, ∑ c ∈ range (w l), f (psum w l + c) + ∑ c ∈ range k, f (psum w j + c) := by
  rw [Finset.sum_range_add, sum_blocks]

/-- Entry of a grid with given block heights and widths. -/
theorem entry_at {br bc : Nat} {blk : Nat → Nat → Mat R} {h w : Nat → Nat}
    (hh : ∀ a < br, (blk a 0).nRows = h a) (hw : ∀ b < bc, (blk 0 b).nCols = w b) {a b r s : Nat}
    (ha : a < br) (hb : b < bc) (hr : r < h a) (hs : s < w b) :
    (Mat.hier br bc blk).entry (psum h a + r) (psum w b + s) = (blk a b).entry r s := by
  have := entry_block (blk := blk) ha hb (r := r) (s := s) (by rw [hh a ha]; exact hr) (by rw [hw b hb]; exact hs)
  rw [psum_congr (fun a' ha' => hh a' (by omega)), psum_congr (fun b' hb' => hw b' (by omega))] at this
  exact this

/-- From block columns to columns. -/
theorem row_fac {k : Nat} {w : Nat → Nat} {q : Nat → Nat → R} {F : Nat → R} {Rb : Nat → Nat → Mat R}
    (hF : ∀ l < k, ∀ c < w l, F (psum w l + c) = q l c)
    (hr : ∀ a < k, (Rb a 0).nRows = w a) (hc : ∀ b < k, (Rb 0 b).nCols = w b) {b y : Nat} (hb : b < k) (hy : y < w b) :
    ∑ c ∈ range (psum w b + y + 1), F c * (Mat.hier k k Rb).entry c (psum w b + y) =
      ∑ l ∈ range b, ∑ c ∈ range (w l), q l c * (Rb l b).entry c y +
        ∑ c ∈ range (y + 1), q b c * (Rb b b).entry c y := by
  rw [Nat.add_assoc, sum_upto]
  congr 1
  · refine Finset.sum_congr rfl (fun l hl => Finset.sum_congr rfl (fun c hc' => ?_))
    have hl := Finset.mem_range.1 hl
    have hc' := Finset.mem_range.1 hc'
    rw [hF l (by omega) c hc', entry_at hr hc (by omega) hb hc' hy]
  · refine Finset.sum_congr rfl (fun c hc' => ?_)
    have hc' := Finset.mem_range.1 hc'
    rw [hF b hb c (by omega), entry_at hr hc hb hb (by omega) hy]

theorem hier_wf_of_shape {br bc : Nat} {blk blk' : Nat → Nat → Mat R} (h : (Mat.hier br bc blk).WF)
    (hb : ∀ a < br, ∀ b < bc, (blk' a b).WF ∧ (blk a b).SameShape (blk' a b)) : (Mat.hier br bc blk').WF := by
  obtain ⟨h1, h2, h3⟩ := h
  have d : ∀ a < br, ∀ b < bc, (blk' a b).nRows = (blk a b).nRows ∧ (blk' a b).nCols = (blk a b).nCols :=
    fun a ha b hb' => (hb a ha b hb').2.dims (h3 a ha b hb').1
  refine ⟨h1, h2, fun a ha b hb' => ⟨(hb a ha b hb').1, ?_, ?_⟩⟩
  · rw [(d a ha b hb').1, (d a ha 0 h2).1]
    exact (h3 a ha b hb').2.1
  · rw [(d a ha b hb').2, (d 0 h1 b hb').2]
    exact (h3 a ha b hb').2.2

/-! ### what `mgs_qr` guarantees -/

structure MgsPost (ex : Prop) (p n : Nat) (A Q Rb Q' R' : Nat → Nat → Mat R) : Prop where
  q : ∀ i < p, ∀ j < n, Good ex (Q' i j) ∧ (Q i j).SameShape (Q' i j)
  r : ∀ i < n, ∀ j < n, Good ex (R' i j) ∧ (Rb i j).SameShape (R' i j)
  lower : ∀ i < n, ∀ j < i, R' i j = Rb i j
  diag : ∀ j < n, ∀ c < (A 0 j).nCols, ∀ y < c,
    (R' j j).entry c y = 0 ∨ (R' j j).entry c y = (Rb j j).entry c y
  fac : ∀ i < p, ∀ j < n, ∀ x < (A i j).nRows, ∀ y < (A i j).nCols,
    (A i j).entry x y = ∑ l ∈ range j, ∑ c ∈ range (A 0 l).nCols, (Q' i l).entry x c * (R' l j).entry c y +
      ∑ c ∈ range (y + 1), (Q' i j).entry x c * (R' j j).entry c y

/-- The lower part of a grid. -/
theorem low_grid {k : Nat} {w : Nat → Nat} {Rb R' : Nat → Nat → Mat R}
    (hr : ∀ a < k, (Rb a 0).nRows = w a) (hc : ∀ b < k, (Rb 0 b).nCols = w b)
    (hr' : ∀ a < k, (R' a 0).nRows = w a) (hc' : ∀ b < k, (R' 0 b).nCols = w b)
    (hl : ∀ i < k, ∀ j < i, R' i j = Rb i j)
    (hd : ∀ j < k, ∀ c < w j, ∀ y < c, (R' j j).entry c y = 0 ∨ (R' j j).entry c y = (Rb j j).entry c y)
    {c y : Nat} (hcw : c < psum w k) (hyc : y < c) :
    (Mat.hier k k R').entry c y = 0 ∨ (Mat.hier k k R').entry c y = (Mat.hier k k Rb).entry c y := by
  obtain ⟨l, hlk, c', hc1, rfl⟩ := exists_block _ _ c hcw
  obtain ⟨b, hb, y', hy1, rfl⟩ := exists_block w k y (by omega)
  rw [entry_at hr hc hlk hb hc1 hy1, entry_at hr' hc' hlk hb hc1 hy1]
  by_cases h1 : b < l
  · exact Or.inr (by rw [hl l hlk b h1])
  · by_cases h2 : b = l
    · subst h2
      exact hd b hb c' hc1 y' (by omega)
    · have := psum_le w (show l < b by omega)
      omega

variable [DecidableEq R] {L : Lapack R} {o : LrOps R}

/-- What is used of the recursive call. -/
def MgsSpec (ex : Prop) (mgs : MgsT R) : Prop :=
  ∀ p n A qp qn Q rr rc Rb x, mgs p n A qp qn Q rr rc Rb = .ok x →
    qp = p ∧ qn = n ∧ rr = n ∧ rc = n ∧ (MgsInput ex p n A Q Rb → MgsPost ex p n A Q Rb x.1 x.2)

theorem orthHier_post {ex : Prop} {fuel p w : Nat} {mgs : MgsT R} (hm : MgsSpec ex mgs)
    (hp : 0 < p) {A Q : Nat → Mat R} (hA : ∀ i < p, (A i).EvenBlock ex ∧ (A i).nCols = w)
    (hQ : ∀ i < p, (A i).SameShape (Q i)) {rr rc : Nat} {Rb : Nat → Nat → Mat R}
    (hR : (Mat.hier rr rc Rb).EvenBlock ex ∧ (Mat.hier rr rc Rb).nRows = w ∧ (Mat.hier rr rc Rb).nCols = w)
    {x} (h : orthogonalizeBlockCol L o fuel mgs p A Q (.hier rr rc Rb) = .ok x) :
    OrthPost ex p w A Q x.1 (.hier rr rc Rb) x.2 := by
  simp only [orthogonalizeBlockCol, except_bind_eq_ok] at h
  obtain ⟨s, hs, y, hy, Q', hr, h⟩ := h
  rw [← Except.ok.inj h]
  obtain ⟨-, -, e1, e2, hm⟩ := hm _ _ _ _ _ _ _ _ _ _ hy
  subst e1 e2
  have hw : ∀ i < p, (A i).WF := fun i hi => (hA i hi).1.wf
  obtain ⟨s1, s2, s3, s4⟩ := splitBlockCol_spec hw hs
  obtain ⟨g1, g2⟩ := split_grid hp hA hs
  have rw1 : ∀ a < s.cols, ∀ b < s.cols, (Rb a b).nRows = evenW w s.cols a := fun a ha b hb => by
    rw [hR.1.heights ha hb, hR.2.1]
  have rw2 : ∀ a < s.cols, ∀ b < s.cols, (Rb a b).nCols = evenW w s.cols b := fun a ha b hb => by
    rw [hR.1.widths ha hb, hR.2.2]
  have P := hm ⟨g1, fun i hi j hj => (g2 i hi j hj).1, fun i hi j hj => ⟨(g2 i hi j hj).1, rfl, rfl⟩,
    fun i hi j hj => ⟨hR.1.block hi hj, by rw [rw1 i hi j hj, (g2 0 g1.1 i hi).2],
      by rw [rw2 i hi j hj, (g2 0 g1.1 j hj).2]⟩, fun _ _ _ _ _ => SameShape.refl _⟩
  obtain ⟨Qs, R'⟩ := y
  -- sizes of the results
  have q1 : ∀ r < s.rows, ∀ b < s.cols, (Qs r b).nRows = (s.blk r b).nRows ∧ (Qs r b).nCols = evenW w s.cols b :=
    fun r hr' b hb => by
      have := (P.q r hr' b hb).2.dims (g2 r hr' b hb).1.wf
      rw [(g2 r hr' b hb).2] at this
      exact this
  have r1 : ∀ a < s.cols, ∀ b < s.cols, (R' a b).nRows = evenW w s.cols a ∧ (R' a b).nCols = evenW w s.cols b :=
    fun a ha b hb => by
      have := (P.r a ha b hb).2.dims (hR.1.block ha hb).wf
      rw [rw1 a ha b hb, rw2 a ha b hb] at this
      exact this
  have hpw : psum (evenW w s.cols) s.cols = w := by
    have := psum_evenW_cols (M := A 0) hR.1
    rwa [hR.2.2] at this
  have hsh : (Mat.hier s.cols s.cols Rb).SameShape (Mat.hier s.cols s.cols R') :=
    ⟨rfl, rfl, fun a ha b hb => (P.r a ha b hb).2⟩
  have hRwf : (Mat.hier s.cols s.cols R').WF :=
    hier_wf_of_shape hR.1.wf (fun a ha b hb => ⟨(P.r a ha b hb).1.wf, (P.r a ha b hb).2⟩)
  -- one row of the split block column
  have row : ∀ r < s.rows, ∀ (F : Nat → R) (x : Nat), x < (s.blk r 0).nRows →
      (∀ l < s.cols, ∀ c < evenW w s.cols l, F (psum (evenW w s.cols) l + c) = (Qs r l).entry x c) →
      ∀ b < s.cols, ∀ y < evenW w s.cols b,
        ∑ c ∈ range (psum (evenW w s.cols) b + y + 1), F c *
          (Mat.hier s.cols s.cols R').entry c (psum (evenW w s.cols) b + y) = (s.blk r b).entry x y := by
    intro r hr' F x hx hF b hb y hy
    rw [row_fac (q := fun l c => (Qs r l).entry x c) hF (fun a ha => (r1 a ha 0 s3).1) (fun b hb => (r1 0 s3 b hb).2)
      hb hy, P.fac r hr' b hb x (by rw [(g1.2.2 r hr' b hb).2.1]; exact hx) y (by rw [(g2 r hr' b hb).2]; exact hy)]
    congr 1
    refine Finset.sum_congr rfl (fun l hl => ?_)
    have hl := Finset.mem_range.1 hl
    rw [(g2 0 g1.1 l (by omega)).2]
  have key : ∀ i < p, (Good ex (Q' i) ∧ (Q i).SameShape (Q' i)) ∧ ∀ x < (A i).nRows, ∀ y < w,
      (A i).entry x y = ∑ c ∈ range (y + 1), (Q' i).entry x c * (Mat.hier s.cols s.cols R').entry c y := by
    intro i hi
    have hr := (restoreBlockCol_spec hr).1 i hi
    obtain ⟨wd, Pi⟩ := s4 i hi
    obtain ⟨hAi, hwi⟩ := hA i hi
    have hqi := hQ i hi
    have hoff : psum (fun i => rowsOf (Q i)) i = psum (fun i => rowsOf (A i)) i :=
      psum_congr (fun a ha => rowsOf_shape (hQ a (by omega)))
    rw [hoff] at hr
    have hrow : psum (fun i => rowsOf (A i)) i + rowsOf (A i) ≤ s.rows := by
      rw [s1]
      exact psum_le (fun i => rowsOf (A i)) hi
    generalize psum (fun i => rowsOf (A i)) i = r at hr Pi hrow
    generalize psum (fun i => rowsOf (Q i)) (i + 1) = r' at hr
    generalize A i = M at *
    generalize Q i = N at *
    generalize Q' i = N' at *
    have cr : r < s.rows → ∀ {d : Dense R}, concatRow s.rows s.cols Qs r = .ok d →
        d.rows = (s.blk r 0).nRows ∧ d.cols = w ∧ ∀ x < (s.blk r 0).nRows, ∀ b < s.cols, ∀ y < evenW w s.cols b,
          d.val x (psum (evenW w s.cols) b + y) = (Qs r b).entry x y := by
      intro hr' d he
      obtain ⟨-, c1, c2, c3⟩ := concatRow_spec (m := (s.blk r 0).nRows) s3 (fun b hb =>
        ⟨(P.q r hr' b hb).1.wf, (q1 r hr' b hb).1.trans (g1.2.2 r hr' b hb).2.1⟩) he
      have hps : ∀ b ≤ s.cols, psum (fun b => (Qs r b).nCols) b = psum (evenW w s.cols) b :=
        fun b hb => psum_congr (fun a ha => (q1 r hr' a (by omega)).2)
      refine ⟨c1, by rw [c2, hps _ (le_refl _), hpw], fun x hx b hb y hy => ?_⟩
      have := c3 x hx b hb y (by rw [(q1 r hr' b hb).2]; exact hy)
      rwa [hps b (by omega)] at this
    cases M with
    | empty => exact Pi.elim
    | dense d =>
      cases N with
      | dense a =>
        simp only [concatColumns, except_bind_eq_ok, assertM_eq_ok, decide_eq_true_eq] at hr
        obtain ⟨e, he, _, f1, _, f2, hr⟩ := hr
        cases Except.ok.inj hr
        have hr' : r < s.rows := by simp only [rowsOf] at hrow; omega
        obtain ⟨c1, c2, c3⟩ := cr hr' he
        refine ⟨⟨(EvenBlock.dense _).good, f1, f2⟩, fun x hx y hy => ?_⟩
        obtain ⟨b, hb, y, hy', rfl⟩ := exists_block (evenW w s.cols) s.cols y (by rw [hpw]; exact hy)
        have hx' : x < (s.blk r 0).nRows := by
          have := Pi.2 0 s3
          simp only [Nat.add_zero] at this
          rw [this]
          exact hx
        refine Eq.trans ?_ (row r hr' (fun c => e.val x c) x hx' (fun l hl c hc => c3 x hx' l hl c hc) b hb y hy').symm
        have := Pi.2 b hb
        simp only [Nat.add_zero] at this
        rw [this]
        have hwi : d.cols = w := hwi
        simp only [entry, cut, Dense.sub, Nat.zero_add, hwi]
      | _ => exact hqi.elim
    | lowRank l =>
      cases N with
      | lowRank a =>
        obtain ⟨pq, sv, p1, p2, p3⟩ := Pi
        obtain ⟨l1, l2, l3⟩ := lr_entry hAi.wf p1
        simp only [concatColumns, except_bind_eq_ok, assertM_eq_ok, decide_eq_true_eq] at hr
        obtain ⟨e, he, _, f1, _, f2, _, f3, hr⟩ := hr
        have hN : N' = .lowRank (lrOf (s.left i) e a.eps) := (congrArg Prod.fst (Except.ok.inj hr)).symm
        subst hN
        have hr' : r < s.rows := by simp only [rowsOf] at hrow; omega
        obtain ⟨c1, c2, c3⟩ := cr hr' he
        obtain ⟨w1, w2, w3, w4⟩ := lrOf_wf (e := a.eps) f3
        refine ⟨⟨⟨w1, w2, ?_⟩, f1, f2⟩, fun x hx y hy => ?_⟩
        · refine hAi.fine.imp_left (fun hd => ?_)
          intro u hu v hv
          have hu' : u < l.dim0 := by
            have : u < (s.left i).rows := hu
            rw [pq] at this
            rw [← hAi.wf.urows]
            exact this
          have hv' : v < l.dim1 := by
            have : v < e.cols := hv
            rw [c2, ← hwi] at this
            exact this
          exact (hd u hu' v hv').elim
        · obtain ⟨b, hb, y, hy', rfl⟩ := exists_block (evenW w s.cols) s.cols y (by rw [hpw]; exact hy)
          have hrk : (s.blk r 0).nRows = l.rank := by
            have := p3 0 s3
            simp only [Nat.add_zero] at this
            rw [this]
            exact l1
          have ht : ∀ t < l.rank, sv.val t (psum (evenW w s.cols) b + y) =
              ∑ c ∈ range (psum (evenW w s.cols) b + y + 1), e.val t c *
                (Mat.hier s.cols s.cols R').entry c (psum (evenW w s.cols) b + y) := by
            intro t ht
            have ht' : t < (s.blk r 0).nRows := by rw [hrk]; exact ht
            refine Eq.trans ?_ (row r hr' (fun c => e.val t c) t ht' (fun l hl c hc => c3 t ht' l hl c hc) b hb y hy').symm
            have := p3 b hb
            simp only [Nat.add_zero] at this
            rw [this]
            have hwi : sv.cols = w := l2.trans hwi
            simp only [entry, cut, Dense.sub, Nat.zero_add, hwi]
          show l.entry x _ = _
          rw [l3, Finset.sum_congr rfl (fun t ht' => by rw [ht t (Finset.mem_range.1 ht')])]
          have hq : (s.left i).cols = l.rank := by rw [pq]; exact hAi.wf.ucols
          simp only [Finset.mul_sum]
          rw [Finset.sum_comm]
          refine Finset.sum_congr rfl (fun c _ => ?_)
          rw [show (Mat.lowRank (lrOf (s.left i) e a.eps)).entry x c = (lrOf (s.left i) e a.eps).entry x c from rfl,
            lrOf_entry, Finset.sum_mul, hq, pq]
          exact Finset.sum_congr rfl (fun t _ => by rw [mul_assoc])
      | _ => exact hqi.elim
    | hier br bc blk =>
      cases N with
      | hier br' bc' blk' =>
        obtain ⟨rfl, rfl, hsb⟩ := hqi
        simp only [concatColumns, except_bind_eq_ok, assertM_eq_ok, decide_eq_true_eq] at hr
        obtain ⟨_, f1, g, he, hr⟩ := hr
        have hN : N' = .hier br bc g := (congrArg Prod.fst (Except.ok.inj hr)).symm
        subst hN f1
        have hrow : ∀ a < br, r + a < s.rows := fun a ha => by simp only [rowsOf] at hrow; omega
        have hg : ∀ a < br, ∀ b < s.cols, g a b = Qs (r + a) b := by
          intro a ha b hb
          have := collect2_ok he a ha b hb
          simp only [blockAt, except_bind_eq_ok] at this
          obtain ⟨_, _, _, _, this⟩ := this
          exact (Except.ok.inj this).symm
        have hgood : ∀ a < br, ∀ b < s.cols, Good ex (g a b) ∧ (blk' a b).SameShape (g a b) := by
          intro a ha b hb
          rw [hg a ha b hb]
          refine ⟨(P.q _ (hrow a ha) b hb).1, (hsb a ha b hb).symm.trans ?_⟩
          have := (P.q _ (hrow a ha) b hb).2
          rwa [show s.blk (r + a) b = blk a b from Pi a ha b hb] at this
        have hsA : (Mat.hier br s.cols blk).SameShape (Mat.hier br s.cols g) :=
          ⟨rfl, rfl, fun a ha b hb => (hsb a ha b hb).trans (hgood a ha b hb).2⟩
        have hwf : (Mat.hier br s.cols g).WF :=
          hier_wf_of_shape hAi.wf (fun a ha b hb => ⟨(hgood a ha b hb).1.wf, (hsb a ha b hb).trans (hgood a ha b hb).2⟩)
        refine ⟨⟨hAi.good.of_shape hwf (fun a ha b hb => (hgood a ha b hb).1.sqr) hsA,
          rfl, rfl, fun a ha b hb => (hgood a ha b hb).2⟩, fun x hx y hy => ?_⟩
        rw [nRows_hier] at hx
        obtain ⟨a, ha, u, hu, rfl⟩ := exists_block _ _ x hx
        obtain ⟨b, hb, y, hy', rfl⟩ := exists_block (evenW w s.cols) s.cols y (by rw [hpw]; exact hy)
        have hbw : ∀ b < s.cols, (blk 0 b).nCols = evenW w s.cols b := fun b hb => by
          rw [hAi.widths hAi.wf.1 hb, hwi]
        have hgw : ∀ b < s.cols, (g 0 b).nCols = evenW w s.cols b := fun b hb => by
          rw [hg 0 hAi.wf.1 b hb]
          exact (q1 _ (hrow 0 hAi.wf.1) b hb).2
        have hgh : ∀ a < br, (g a 0).nRows = (blk a 0).nRows := fun a ha => by
          rw [hg a ha 0 s3, (q1 _ (hrow a ha) 0 s3).1]
          rw [show s.blk (r + a) 0 = blk a 0 from Pi a ha 0 s3]
        rw [entry_at (h := fun a => (blk a 0).nRows) (fun _ _ => rfl) hbw ha hb hu hy']
        have hx' : u < (s.blk (r + a) 0).nRows := by
          rw [show s.blk (r + a) 0 = blk a 0 from Pi a ha 0 s3]
          exact hu
        refine Eq.trans ?_ (row (r + a) (hrow a ha)
          (fun c => (Mat.hier br s.cols g).entry (psum (fun a => (blk a 0).nRows) a + u) c) u hx' (fun l hl c hc => by
            rw [entry_at hgh hgw ha hl hu hc, hg a ha l hl]) b hb y hy').symm
        rw [show s.blk (r + a) b = blk a b from Pi a ha b hb]
      | _ => exact hqi.elim
  refine ⟨fun i hi => (key i hi).1, ⟨hR.1.good.of_shape hRwf (fun a ha b hb => (P.r a ha b hb).1.sqr) hsh, hsh⟩,
    fun i hi => (key i hi).2, fun c hc y hy => ?_⟩
  exact low_grid (w := evenW w s.cols) (fun a ha => rw1 a ha 0 s3) (fun b hb => rw2 0 s3 b hb)
    (fun a ha => (r1 a ha 0 s3).1) (fun b hb => (r1 0 s3 b hb).2) P.lower
    (fun j hj c hc y hy => P.diag j hj c (by rw [(g2 0 g1.1 j hj).2]; exact hc) y hy) (by rw [hpw]; exact hc) hy

end Mat
end Verif
