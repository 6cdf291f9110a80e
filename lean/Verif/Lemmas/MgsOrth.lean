import Verif.Lemmas.MgsLift
import Verif.Lemmas.MgsKeep

/-!
Block Gram-Schmidt QR: the columns of `Q` are orthonormal.
-/

set_option linter.unusedSectionVars false
set_option linter.unusedVariables false

namespace Verif
open Finset

namespace Mat

section
variable {R : Type} [CommRing R]

theorem Parts.notEmpty {k : Nat} {M : Mat R} {q : Dense R} {g : Nat → Nat → Mat R} (h : Parts k M q g) :
    ∀ r c, M ≠ .empty r c := by
  rintro r c rfl
  exact h.elim

/-- The columns of a block in terms of its split parts. -/
theorem split_form {ex : Prop} {p w : Nat} {A : Nat → Mat R} {s : SplitCol R}
    (hA : ∀ i < p, (A i).EvenBlock ex ∧ (A i).nCols = w) (h : splitBlockCol p A = .ok s) {i : Nat} (hi : i < p) :
    (∀ a < rowsOf (A i), (s.blk (psum (fun i => rowsOf (A i)) i + a) 0).nRows = partH (A i) a) ∧
      ∀ x < (A i).nRows, ∀ b < s.cols, ∀ y < evenW w s.cols b,
        (A i).entry x (psum (evenW w s.cols) b + y) =
          liftRow (A i) (fun a u => (s.blk (psum (fun i => rowsOf (A i)) i + a) b).entry u y) x := by
  obtain ⟨s1, s2, s3, s4⟩ := splitBlockCol_spec (fun i hi => (hA i hi).1.wf) h
  obtain ⟨wd, Pi⟩ := s4 i hi
  obtain ⟨hAi, hwi⟩ := hA i hi
  generalize psum (fun i => rowsOf (A i)) i = r at *
  generalize A i = M at *
  cases M with
  | empty => exact Pi.elim
  | dense d =>
    refine ⟨fun a ha => ?_, fun x hx b hb y hy => ?_⟩
    · obtain rfl : a = 0 := by simp only [rowsOf] at ha; omega
      have := Pi.2 0 s3
      simp only at this
      rw [this]
      rfl
    · have := Pi.2 b hb
      simp only at this
      simp only [liftRow]
      rw [this]
      have hwi : d.cols = w := hwi
      simp only [entry, cut, Dense.sub, Nat.zero_add, hwi]
  | lowRank l =>
    obtain ⟨pq, sv, p1, p2, p3⟩ := Pi
    obtain ⟨l1, l2, l3⟩ := lr_entry hAi.wf p1
    refine ⟨fun a ha => ?_, fun x hx b hb y hy => ?_⟩
    · obtain rfl : a = 0 := by simp only [rowsOf] at ha; omega
      have := p3 0 s3
      simp only at this
      rw [this]
      exact l1
    · have := p3 b hb
      simp only at this
      simp only [liftRow]
      rw [this]
      have hwi : sv.cols = w := l2.trans hwi
      show l.entry x _ = _
      rw [l3]
      simp only [entry, cut, Dense.sub, Nat.zero_add, hwi]
  | hier br bc blk =>
    have wd : bc = s.cols := wd
    subst wd
    refine ⟨fun a ha => ?_, fun x hx b hb y hy => ?_⟩
    · rw [show s.blk (r + a) 0 = blk a 0 from Pi a ha 0 s3]
      rfl
    · rw [nRows_hier] at hx
      obtain ⟨a, ha, u, hu, rfl⟩ := exists_block _ _ x hx
      have hbw : ∀ b < s.cols, (blk 0 b).nCols = evenW w s.cols b := fun b hb => by
        rw [hAi.widths hAi.wf.1 hb, hwi]
      rw [entry_at (h := fun a => (blk a 0).nRows) (fun _ _ => rfl) hbw ha hb hu hy]
      simp only [liftRow]
      rw [locate_at _ _ _ _ ha hu]
      simp only
      rw [show s.blk (r + a) b = blk a b from Pi a ha b hb]

/-- The columns of a restored block in terms of the split parts. -/
theorem restore_form {ex : Prop} {p w : Nat} {A Q Q' : Nat → Mat R} {s : SplitCol R} {Qs : Nat → Nat → Mat R}
    (hA : ∀ i < p, (A i).EvenBlock ex ∧ (A i).nCols = w) (hQ : ∀ i < p, (A i).SameShape (Q i))
    (h : splitBlockCol p A = .ok s) (hpw : psum (evenW w s.cols) s.cols = w)
    (hS : ∀ r < s.rows, ∀ b < s.cols, (Qs r b).WF ∧ (Qs r b).nRows = (s.blk r 0).nRows ∧
      (Qs r b).nCols = evenW w s.cols b)
    (hr : restoreBlockCol p s.rows s.cols Qs s.left Q = .ok Q') {i : Nat} (hi : i < p) :
    ∀ x < (A i).nRows, ∀ b < s.cols, ∀ y < evenW w s.cols b,
      (Q' i).entry x (psum (evenW w s.cols) b + y) =
        liftRow (A i) (fun a u => (Qs (psum (fun i => rowsOf (A i)) i + a) b).entry u y) x := by
  have hpart := (split_form hA h hi).1
  obtain ⟨s1, s2, s3, s4⟩ := splitBlockCol_spec (fun i hi => (hA i hi).1.wf) h
  have hr := (restoreBlockCol_spec hr).1 i hi
  obtain ⟨wd, Pi⟩ := s4 i hi
  obtain ⟨hAi, hwi⟩ := hA i hi
  have hqi := hQ i hi
  have hoff : psum (fun i => rowsOf (Q i)) i = psum (fun i => rowsOf (A i)) i :=
    psum_congr (fun a ha => rowsOf_shape (hQ a (by omega)))
  rw [hoff] at hr
  have hrow : psum (fun i => rowsOf (A i)) i + rowsOf (A i) ≤ s.rows := by
    rw [s1]
    exact psum_le (fun i => rowsOf (A i)) hi
  generalize psum (fun i => rowsOf (A i)) i = r at hr Pi hrow hpart ⊢
  generalize psum (fun i => rowsOf (Q i)) (i + 1) = r' at hr
  generalize A i = M at *
  generalize Q i = N at *
  generalize Q' i = N' at *
  have cr : r < s.rows → ∀ {d : Dense R}, concatRow s.rows s.cols Qs r = .ok d →
      ∀ x < (s.blk r 0).nRows, ∀ b < s.cols, ∀ y < evenW w s.cols b,
        d.val x (psum (evenW w s.cols) b + y) = (Qs r b).entry x y := by
    intro hr' d he
    obtain ⟨-, c1, c2, c3⟩ := concatRow_spec (m := (s.blk r 0).nRows) s3 (fun b hb =>
      ⟨(hS r hr' b hb).1, (hS r hr' b hb).2.1⟩) he
    intro x hx b hb y hy
    have := c3 x hx b hb y (by rw [(hS r hr' b hb).2.2]; exact hy)
    rwa [psum_congr (fun a ha => (hS r hr' a (by omega)).2.2)] at this
  intro x hx b hb y hy
  cases M with
  | empty => exact Pi.elim
  | dense d =>
    cases N with
    | dense a =>
      simp only [concatColumns, except_bind_eq_ok, assertM_eq_ok, decide_eq_true_eq] at hr
      obtain ⟨e, he, _, f1, _, f2, hr⟩ := hr
      cases Except.ok.inj hr
      have hr' : r < s.rows := by simp only [rowsOf] at hrow; omega
      exact cr hr' he x (by rw [← Nat.add_zero r, hpart 0 (by simp [rowsOf])]; exact hx) b hb y hy
    | _ => exact hqi.elim
  | lowRank l =>
    cases N with
    | lowRank a =>
      obtain ⟨pq, sv, p1, p2, p3⟩ := Pi
      simp only [concatColumns, except_bind_eq_ok, assertM_eq_ok, decide_eq_true_eq] at hr
      obtain ⟨e, he, _, f1, _, f2, _, f3, hr⟩ := hr
      have hN : N' = .lowRank (lrOf (s.left i) e a.eps) := (congrArg Prod.fst (Except.ok.inj hr)).symm
      subst hN
      have hr' : r < s.rows := by simp only [rowsOf] at hrow; omega
      show (lrOf (s.left i) e a.eps).entry x _ = _
      rw [lrOf_entry, pq, hAi.wf.ucols]
      refine Finset.sum_congr rfl (fun t ht => ?_)
      rw [cr hr' he t (by
        rw [← Nat.add_zero r, hpart 0 (by simp [rowsOf])]
        exact Finset.mem_range.1 ht) b hb y hy]
      rfl
    | _ => exact hqi.elim
  | hier br bc blk =>
    cases N with
    | hier br' bc' blk' =>
      obtain ⟨rfl, rfl, hsb⟩ := hqi
      simp only [concatColumns, except_bind_eq_ok, assertM_eq_ok, decide_eq_true_eq] at hr
      obtain ⟨_, f1, g, he, hr⟩ := hr
      have hN : N' = .hier br bc g := (congrArg Prod.fst (Except.ok.inj hr)).symm
      subst hN f1
      have hrow : ∀ a < br, r + a < s.rows := fun a ha => by simp only [rowsOf] at hrow; omega
      have hg : ∀ a < br, ∀ b < s.cols, g a b = Qs (r + a) b := by
        intro a ha b hb
        have := collect2_ok he a ha b hb
        simp only [blockAt, except_bind_eq_ok] at this
        obtain ⟨_, _, _, _, this⟩ := this
        exact (Except.ok.inj this).symm
      rw [nRows_hier] at hx
      obtain ⟨a, ha, u, hu, rfl⟩ := exists_block _ _ x hx
      have hgw : ∀ b < s.cols, (g 0 b).nCols = evenW w s.cols b := fun b hb => by
        rw [hg 0 hAi.wf.1 b hb]
        exact (hS _ (hrow 0 hAi.wf.1) b hb).2.2
      have hgh : ∀ a < br, (g a 0).nRows = (blk a 0).nRows := fun a ha => by
        rw [hg a ha 0 s3, (hS _ (hrow a ha) 0 s3).2.1, hpart a ha]
        rfl
      rw [entry_at hgh hgw ha hb hu hy, hg a ha b hb]
      simp only [liftRow]
      rw [locate_at _ _ _ _ ha hu]
    | _ => exact hqi.elim

end

/-! ### grids -/

section
variable {R : Type} [CommRing R]

/-- The columns of a `p`-by-`n` grid with block sizes `h` and `w` are independent. -/
def ColsIndep (p n : Nat) (h w : Nat → Nat) (A : Nat → Nat → Mat R) : Prop :=
  ∀ c : Nat → Nat → R, (∀ i < p, ∀ x < h i, ∑ k ∈ range n, ∑ y ∈ range (w k), (A i k).entry x y * c k y = 0) →
    ∀ k < n, ∀ y < w k, c k y = 0

/-- The columns of the grid are orthonormal. -/
def ColsOrtho (p n : Nat) (h w : Nat → Nat) (Q : Nat → Nat → Mat R) : Prop :=
  ∀ k < n, ∀ l < n, ∀ y < w k, ∀ z < w l,
    gdot p h (fun i x => (Q i k).entry x y) (fun i x => (Q i l).entry x z) = if k = l ∧ y = z then 1 else 0

variable [DecidableEq R] {L : Lapack R} {o : LrOps R}

theorem All.mono {P P' : LowRank R → Prop} (h : ∀ l, P l → P' l) {A : Mat R} (hA : A.All P) : A.All P' := by
  induction A with
  | dense | empty => trivial
  | lowRank l => exact h l hA
  | hier br bc blk ih => exact fun i hi j hj => ih i j (hA i hi j hj)

theorem SameShape.noLowRank {A : Mat R} : ∀ {B : Mat R}, A.SameShape B → A.All (fun _ => False) →
    B.All (fun _ => False) := by
  induction A with
  | dense => intro B h _; cases B <;> first | exact h.elim | trivial
  | empty => intro B h _; cases B <;> first | exact h.elim | trivial
  | lowRank l => intro B _ h; exact h.elim
  | hier br bc blk ih =>
    intro B h hA
    cases B with
    | hier br' bc' blk' =>
      obtain ⟨rfl, rfl, h⟩ := h
      exact fun i hi j hj => ih i j (h i hi j hj) (hA i hi j hj)
    | _ => exact h.elim

/-- What is used of the recursive call. -/
def MgsOrthSpec (o : LrOps R) (ex : Prop) (mgs : MgsT R) : Prop :=
  ∀ p n A qp qn Q rr rc Rb x, mgs p n A qp qn Q rr rc Rb = .ok x → MgsInput ex p n A Q Rb →
    (∀ i < p, ∀ j < n, (A i j).All LowRank.LeftOrth) →
    ((∀ i < p, ∀ j < n, (A i j).All (fun _ => False)) ∨ o.OrthoResults) →
    ColsIndep p n (fun i => (A i 0).nRows) (fun j => (A 0 j).nCols) A →
    ColsOrtho p n (fun i => (A i 0).nRows) (fun j => (A 0 j).nCols) x.1

/-- Orthonormal columns of one block column. -/
def ColOrtho (p w : Nat) (h : Nat → Nat) (Q : Nat → Mat R) : Prop :=
  ∀ y < w, ∀ z < w, gdot p h (fun i x => (Q i).entry x y) (fun i x => (Q i).entry x z) = if y = z then 1 else 0

theorem sum_lift {p : Nat} {A : Nat → Mat R} (hA : ∀ i < p, (A i).WF ∧ (A i).All LowRank.LeftOrth ∧
    ∀ r c, A i ≠ .empty r c) (v v' : Nat → Nat → Nat → R) :
    gdot p (fun i => (A i).nRows) (fun i => liftRow (A i) (v i)) (fun i => liftRow (A i) (v' i)) =
      ∑ i ∈ range p, ∑ a ∈ range (rowsOf (A i)), ∑ x ∈ range (partH (A i) a), v i a x * v' i a x :=
  Finset.sum_congr rfl (fun i hi => liftRow_dot (hA i (Finset.mem_range.1 hi)).1 (hA i (Finset.mem_range.1 hi)).2.1
    (hA i (Finset.mem_range.1 hi)).2.2 _ _)

theorem orthDense_ortho (hL : L.QrOrtho)
    (hf : o.Fits False) {ex : Prop} (hex : ex → o.Exact False) {fuel p w : Nat} (hp : 0 < p) {A Q : Nat → Mat R}
    (hA : ∀ i < p, (A i).WF ∧ (A i).nCols = w) (ho : ∀ i < p, (A i).All LowRank.LeftOrth)
    (hQ : ∀ i < p, Good ex (Q i) ∧ (Q i).nRows = (A i).nRows ∧ (Q i).nCols = w) {x}
    (h : orthogonalizeDense L o fuel p A Q = .ok x) : ColOrtho p w (fun i => (A i).nRows) x.1 := by
  obtain ⟨B, D, hB, d1, d2, d3, d4, e2, hQ'⟩ := orthDense_form hf hex hp hA hQ h
  subst d2
  have hl : ∀ i < p, (∀ r c, A i ≠ .empty r c) ∧ rowsOf (A i) = 1 ∧ (B i).2.rows = partH (A i) 0 ∧
      ∀ f : Nat → R, ∀ r < (A i).nRows,
        ∑ t ∈ range (B i).2.rows, (B i).1.val r t * f t = liftRow (A i) (fun _ t => f t) r := by
    intro i hi
    have hb := hB i hi
    have hw := (hA i hi).1
    generalize A i = M at *
    cases M with
    | dense d =>
      rw [← Except.ok.inj hb]
      refine ⟨fun _ _ h => (nomatch h), rfl, rfl, fun f r hr => ?_⟩
      simp only [Dense.ident, liftRow]
      rw [Finset.sum_eq_single r]
      · simp
      · intro t _ ht
        simp [Ne.symm ht]
      · intro h
        exact absurd (Finset.mem_range.2 hr) h
    | lowRank l =>
      simp only [makeLeftOrthogonal, except_bind_eq_ok] at hb
      obtain ⟨sv, h1, hb⟩ := hb
      rw [← Except.ok.inj hb]
      obtain ⟨e1, -, -⟩ := lr_entry hw h1
      refine ⟨fun _ _ h => (nomatch h), rfl, e1, fun f r hr => ?_⟩
      simp only [liftRow, e1]
    | hier => cases hb
    | empty => cases hb
  intro y hy z hz
  rw [gdot_congr (u' := fun i => liftRow (A i) (fun _ t => (L.qr D D.cols).1 (psum (fun i => (B i).2.rows) i + t) y))
    (v' := fun i => liftRow (A i) (fun _ t => (L.qr D D.cols).1 (psum (fun i => (B i).2.rows) i + t) z))
    (fun i hi x hx => by rw [(hQ' i hi).2.2 x hx y hy, (hl i hi).2.2.2 (fun t => _) x hx])
    (fun i hi x hx => by rw [(hQ' i hi).2.2 x hx z hz, (hl i hi).2.2.2 (fun t => _) x hx]),
    sum_lift (fun i hi => ⟨(hA i hi).1, ho i hi, (hl i hi).1⟩)
      (fun i _ t => (L.qr D D.cols).1 (psum (fun i => (B i).2.rows) i + t) y)
      (fun i _ t => (L.qr D D.cols).1 (psum (fun i => (B i).2.rows) i + t) z)]
  have := hL D d3 y hy z hz
  rw [d1, sum_blocks] at this
  rw [← this]
  refine Finset.sum_congr rfl (fun i hi => ?_)
  have hi := Finset.mem_range.1 hi
  rw [(hl i hi).2.1, Finset.sum_range_one, (hl i hi).2.2.1]

theorem orthHier_ortho {ex : Prop} {fuel p w : Nat} {mgs : MgsT R} (hm : MgsSpec ex mgs) (hmo : MgsOrthSpec o ex mgs)
    (hp : 0 < p) {A Q : Nat → Mat R} (hA : ∀ i < p, (A i).EvenBlock ex ∧ (A i).nCols = w)
    (ho : ∀ i < p, (A i).All LowRank.LeftOrth)
    (hk : (∀ i < p, (A i).All (fun _ => False)) ∨ o.OrthoResults)
    (hi : ∀ c : Nat → R, (∀ i < p, ∀ x < (A i).nRows, ∑ y ∈ range w, (A i).entry x y * c y = 0) →
      ∀ y < w, c y = 0)
    (hQ : ∀ i < p, (A i).SameShape (Q i)) {rr rc : Nat} {Rb : Nat → Nat → Mat R}
    (hR : (Mat.hier rr rc Rb).EvenBlock ex ∧ (Mat.hier rr rc Rb).nRows = w ∧ (Mat.hier rr rc Rb).nCols = w)
    {x} (h : orthogonalizeBlockCol L o fuel mgs p A Q (.hier rr rc Rb) = .ok x) :
    ColOrtho p w (fun i => (A i).nRows) x.1 := by
  simp only [orthogonalizeBlockCol, except_bind_eq_ok] at h
  obtain ⟨s, hs, y, hy, Q', hr, h⟩ := h
  rw [← Except.ok.inj h]
  obtain ⟨-, -, e1, e2, hm⟩ := hm _ _ _ _ _ _ _ _ _ _ hy
  subst e1 e2
  obtain ⟨s1, s2, s3, s4⟩ := splitBlockCol_spec (fun i hi => (hA i hi).1.wf) hs
  obtain ⟨g1, g2⟩ := split_grid hp hA hs
  have rw1 : ∀ a < s.cols, ∀ b < s.cols, (Rb a b).nRows = evenW w s.cols a := fun a ha b hb => by
    rw [hR.1.heights ha hb, hR.2.1]
  have rw2 : ∀ a < s.cols, ∀ b < s.cols, (Rb a b).nCols = evenW w s.cols b := fun a ha b hb => by
    rw [hR.1.widths ha hb, hR.2.2]
  have hin : MgsInput ex s.rows s.cols s.blk s.blk Rb :=
    ⟨g1, fun i hi j hj => (g2 i hi j hj).1, fun i hi j hj => ⟨(g2 i hi j hj).1, rfl, rfl⟩,
      fun i hi j hj => ⟨hR.1.block hi hj, by rw [rw1 i hi j hj, (g2 0 g1.1 i hi).2],
        by rw [rw2 i hi j hj, (g2 0 g1.1 j hj).2]⟩, fun _ _ _ _ _ => SameShape.refl _⟩
  have P := hm hin
  have hpw : psum (evenW w s.cols) s.cols = w := by
    have := psum_evenW_cols (M := A 0) hR.1
    rwa [hR.2.2] at this
  -- the split block column has orthonormal left factors and independent columns
  have hall : ∀ P : LowRank R → Prop, (∀ i < p, (A i).All P) → ∀ r < s.rows, ∀ b < s.cols, (s.blk r b).All P := by
    intro P ho r hr b hb
    rw [s1] at hr
    obtain ⟨i, hi, a, ha, rfl⟩ := exists_block _ _ r hr
    obtain ⟨wd, Pi⟩ := s4 i hi
    have hoi := ho i hi
    generalize psum (fun i => rowsOf (A i)) i = r at *
    generalize A i = M at *
    cases M with
    | empty => exact Pi.elim
    | dense d =>
      obtain rfl : a = 0 := by simp only [rowsOf] at ha; omega
      have := Pi.2 b hb
      simp only at this
      rw [this]
      trivial
    | lowRank l =>
      obtain rfl : a = 0 := by simp only [rowsOf] at ha; omega
      obtain ⟨-, sv, -, -, p3⟩ := Pi
      have := p3 b hb
      simp only at this
      rw [this]
      trivial
    | hier br bc blk =>
      have wd : bc = s.cols := wd
      subst wd
      rw [show s.blk (r + a) b = blk a b from Pi a ha b hb]
      exact hoi a ha b hb
  have hind : ColsIndep s.rows s.cols (fun r => (s.blk r 0).nRows) (fun b => (s.blk 0 b).nCols) s.blk := by
    intro c hc
    have hz : ∀ i < p, ∀ x < (A i).nRows, ∑ b ∈ range s.cols, ∑ y ∈ range (evenW w s.cols b),
        (A i).entry x (psum (evenW w s.cols) b + y) * c b y = 0 := by
      intro i hi x hx
      obtain ⟨f1, f2⟩ := split_form hA hs hi
      have e : ∀ b ∈ range s.cols, ∑ y ∈ range (evenW w s.cols b),
          (A i).entry x (psum (evenW w s.cols) b + y) * c b y =
          liftRow (A i) (fun a u => ∑ y ∈ range (evenW w s.cols b),
            (s.blk (psum (fun i => rowsOf (A i)) i + a) b).entry u y * c b y) x := by
        intro b hb
        rw [liftRow_sum (A i) (range (evenW w s.cols b))
          (fun y a u => (s.blk (psum (fun i => rowsOf (A i)) i + a) b).entry u y) (fun y => c b y)]
        exact Finset.sum_congr rfl (fun y hy => by
          rw [f2 x hx b (Finset.mem_range.1 hb) y (Finset.mem_range.1 hy)])
      rw [Finset.sum_congr rfl e]
      have := liftRow_sum (A i) (range s.cols) (fun b a u => ∑ y ∈ range (evenW w s.cols b),
            (s.blk (psum (fun i => rowsOf (A i)) i + a) b).entry u y * c b y) (fun _ => 1) x
      simp only [mul_one] at this
      rw [← this, liftRow_congr (v' := fun _ _ => 0) (fun a ha u hu => ?_) hx, liftRow_zero]
      have hrr : psum (fun i => rowsOf (A i)) i + a < s.rows := by
        rw [s1]
        have := psum_le (fun i => rowsOf (A i)) hi
        omega
      have := hc _ hrr u (by beta_reduce; rw [f1 a ha]; exact hu)
      rw [← this]
      exact Finset.sum_congr rfl (fun b hb => by beta_reduce; rw [(g2 0 g1.1 b (Finset.mem_range.1 hb)).2])
    have := hi (fun y => c (locate (evenW w s.cols) s.cols y).1 (locate (evenW w s.cols) s.cols y).2) (by
      intro i hi x hx
      rw [← hz i hi x hx]
      rw [show range w = range (psum (evenW w s.cols) s.cols) by rw [hpw], sum_blocks]
      refine Finset.sum_congr rfl (fun b hb => Finset.sum_congr rfl (fun y hy => ?_))
      rw [locate_at _ _ _ _ (Finset.mem_range.1 hb) (Finset.mem_range.1 hy)])
    intro b hb y hy
    beta_reduce at hy
    rw [(g2 0 g1.1 b hb).2] at hy
    have := this (psum (evenW w s.cols) b + y) (by
      have := psum_le (evenW w s.cols) hb
      omega)
    rwa [locate_at _ _ _ _ hb hy] at this
  have PO := hmo _ _ _ _ _ _ _ _ _ _ hy hin (hall _ ho) (hk.imp_left (hall _)) hind
  obtain ⟨Qs, R'⟩ := y
  have hS : ∀ r < s.rows, ∀ b < s.cols, (Qs r b).WF ∧ (Qs r b).nRows = (s.blk r 0).nRows ∧
      (Qs r b).nCols = evenW w s.cols b := fun r hr' b hb => by
    have := (P.q r hr' b hb).2.dims (g2 r hr' b hb).1.wf
    rw [(g2 r hr' b hb).2, (g1.2.2 r hr' b hb).2.1] at this
    exact ⟨(P.q r hr' b hb).1.wf, this⟩
  intro y hy z hz
  obtain ⟨b, hb, y, hy', rfl⟩ := exists_block (evenW w s.cols) s.cols y (by rw [hpw]; exact hy)
  obtain ⟨b', hb', z, hz', rfl⟩ := exists_block (evenW w s.cols) s.cols z (by rw [hpw]; exact hz)
  rw [gdot_congr (fun i hi x hx => restore_form hA hQ hs hpw hS hr hi x hx b hb y hy')
    (fun i hi x hx => restore_form hA hQ hs hpw hS hr hi x hx b' hb' z hz'),
    sum_lift (fun i hi => ⟨(hA i hi).1.wf, ho i hi, (s4 i hi).2.notEmpty⟩)
      (fun i a u => (Qs (psum (fun i => rowsOf (A i)) i + a) b).entry u y)
      (fun i a u => (Qs (psum (fun i => rowsOf (A i)) i + a) b').entry u z)]
  have := PO b hb b' hb' y (by beta_reduce; rw [(g2 0 g1.1 b hb).2]; exact hy') z (by beta_reduce; rw [(g2 0 g1.1 b' hb').2]; exact hz')
  rw [gdot, s1, sum_blocks] at this
  rw [Finset.sum_congr rfl (fun i hi => Finset.sum_congr rfl (fun a ha => by
    rw [← (split_form hA hs (Finset.mem_range.1 hi)).1 a (Finset.mem_range.1 ha)])), this]
  refine if_congr ⟨?_, fun e => ?_⟩ rfl rfl
  · rintro ⟨rfl, rfl⟩
    rfl
  · have h1 := locate_at (evenW w s.cols) s.cols b y hb hy'
    rw [e, locate_at (evenW w s.cols) s.cols b' z hb' hz'] at h1
    exact ⟨(congrArg Prod.fst h1).symm, (congrArg Prod.snd h1).symm⟩

end
end Mat
end Verif
