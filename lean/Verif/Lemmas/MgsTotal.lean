import Verif.Lemmas.MgsOrthLoop
import Verif.Lemmas.QrTotal
import Verif.Lemmas.QrGrid
import Verif.Lemmas.LrAdd

/-!
Block Gram-Schmidt QR returns on block matrices of tiles.
-/

set_option linter.unusedSectionVars false
set_option linter.unusedVariables false

namespace Verif
open Finset

variable {R : Type} [CommRing R] [DecidableEq R] {o : LrOps R} {L : Lapack R} {Q : LowRank R → Prop}

namespace Mat

theorem TileOk.mlo {h w : Nat} {M : Mat R} (hM : TileOk Q h w M) :
    ∃ x, makeLeftOrthogonal M = .ok x ∧ x.1.rows = h ∧ x.1.cols = x.2.rows ∧ x.2.cols = w ∧
      ((∃ d, M = .dense d) → x.2.rows = h) := by
  cases M with
  | hier => exact hM.tile.elim
  | empty => exact hM.tile.elim
  | dense d =>
    have r : d.rows = h := hM.rows
    exact ⟨_, rfl, r, rfl, hM.cols, fun _ => r⟩
  | lowRank l =>
    obtain ⟨w1, -, -, -, r, c⟩ := hM
    have hw : l.WF := w1
    have hr : l.dim0 = h := r
    have hc : l.dim1 = w := c
    have e := Dense.gemmNew_ff_eq (A := l.S) (B := l.V) hw.vrows.symm
    refine ⟨(l.U, ⟨l.S.rows, l.V.cols, mm l.S.cols l.S.val l.V.val⟩),
      by simp only [makeLeftOrthogonal, e, except_bind_ok], hw.urows.trans hr,
      hw.ucols.trans hw.srows.symm, hw.vcols.trans hc, ?_⟩
    rintro ⟨d, h⟩
    cases h

theorem orthDense_total (hf : o.Fits False) (hT : o.Total False Q) {fuel p w : Nat} (hfu : 1 ≤ fuel) (hp : 0 < p)
    {h : Nat → Nat} {A C : Nat → Mat R} (hA : ∀ i < p, TileOk Q (h i) w (A i))
    (hC : ∀ i < p, TileOk Q (h i) w (C i)) (ht : ∃ i < p, w ≤ h i ∧ ∃ d, A i = .dense d) :
    ∃ x, orthogonalizeDense L o fuel p A C = .ok x ∧
      (∀ i < p, TileOk Q (h i) w (x.1 i) ∧ (C i).SameShape (x.1 i)) ∧
      ∃ d : Dense R, x.2 = .dense d ∧ d.rows = w ∧ d.cols = w := by
  obtain ⟨B, hB⟩ := collect_exists (n := p) (f := fun i => makeLeftOrthogonal (A i))
    (fun i hi => (hA i hi).mlo.imp fun _ h => h.1)
  have hB' : ∀ i < p, (B i).1.rows = h i ∧ (B i).1.cols = (B i).2.rows ∧ (B i).2.cols = w ∧
      ((∃ d, A i = .dense d) → (B i).2.rows = h i) := by
    intro i hi
    obtain ⟨x, h1, h2⟩ := (hA i hi).mlo
    have := collect_ok hB i hi
    rw [h1] at this
    rw [← Except.ok.inj this]
    exact h2
  obtain ⟨D, hD, d0, d1, -⟩ := toDense_ok (.hier p 1 (fun i _ => .dense (B i).2)) (by
    refine ⟨hp, by omega, fun i hi j hj => ⟨trivial, rfl, ?_⟩⟩
    exact (hB' i hi).2.2.1.trans (hB' 0 hp).2.2.1.symm)
  rw [nRows_hier] at d0
  rw [nCols_hier] at d1
  have d1 : D.cols = w := by
    rw [d1, psum_succ]
    show 0 + (B 0).2.cols = w
    rw [(hB' 0 hp).2.2.1]
    omega
  have d0 : D.rows = psum (fun i => (B i).2.rows) p := d0
  have tall : D.cols ≤ D.rows := by
    obtain ⟨i, hi, hw, hd⟩ := ht
    have e := (hB' i hi).2.2.2 hd
    have := psum_le (fun i => (B i).2.rows) hi
    rw [d1, d0]
    omega
  have key : ∀ i < p, ∃ X, (do
      assertM (decide ((B i).2.rows ≤ D.rows - psum (fun a => (B a).2.rows) i))
      assertM (decide ((B i).2.cols ≤ D.cols))
      gemm o fuel (.dense (B i).1)
        (.dense ((⟨D.rows, D.cols, (L.qr D D.cols).1⟩ : Dense R).sub (psum (fun a => (B a).2.rows) i) 0 (B i).2.rows (B i).2.cols))
        (C i) 1 0 false false) = .ok X ∧ TileOk Q (h i) w X ∧ (C i).SameShape X := by
    intro i hi
    obtain ⟨b1, b2, b3, -⟩ := hB' i hi
    have := psum_le (fun i => (B i).2.rows) hi
    obtain ⟨X, x1, x2⟩ := TileOk.gemm hf hT hfu (A := .dense (B i).1)
      (B := .dense ((⟨D.rows, D.cols, (L.qr D D.cols).1⟩ : Dense R).sub (psum (fun a => (B a).2.rows) i) 0 (B i).2.rows (B i).2.cols))
      trivial trivial b1 b2 trivial trivial rfl b3 (hC i hi) 1 0
    refine ⟨X, ?_, x2⟩
    rw [decide_eq_true (by omega), decide_eq_true (by omega)]
    exact x1
  obtain ⟨N, hN⟩ := collect_exists (n := p) (fun i hi => (key i hi).imp fun _ h => h.1)
  have hN' : ∀ i < p, TileOk Q (h i) w (N i) ∧ (C i).SameShape (N i) := by
    intro i hi
    obtain ⟨X, h1, h2⟩ := key i hi
    have := collect_ok hN i hi
    rw [h1] at this
    rw [← Except.ok.inj this]
    exact h2
  refine ⟨(fun i => if i < p then N i else C i, .dense ⟨D.cols, D.cols, (L.qr D D.cols).2⟩), ?_, fun i hi => ?_,
    _, rfl, d1, d1⟩
  · unfold orthogonalizeDense
    rw [hB, except_bind_ok, hD, except_bind_ok, if_pos tall]
    have e : L.qrInto D D.rows D.cols D.cols D.cols = .ok (⟨D.rows, D.cols, (L.qr D D.cols).1⟩, ⟨D.cols, D.cols, (L.qr D D.cols).2⟩) := by
      simp only [Lapack.qrInto, decide_true, assertM, if_true, except_bind_ok]
    rw [e, except_bind_ok]
    simp only
    rw [hN, except_bind_ok]
  · simp only [if_pos hi]
    exact hN' i hi

theorem projectCol_total (hf : o.Fits False) (hT : o.Total False Q) {beta : R} {fuel p w v : Nat} (hfu : 1 ≤ fuel)
    {h : Nat → Nat} {q qt a : Nat → Mat R} {r : Mat R} (hq : ∀ i < p, TileOk Q (h i) w (q i))
    (hqt : ∀ i < p, (qt i).WF ∧ (qt i).IsTile ∧ (qt i).nRows = w ∧ (qt i).nCols = h i)
    (ha : ∀ i < p, TileOk Q (h i) v (a i)) (hr : TileOk Q w v r) :
    ∃ z, projectCol o fuel beta p q qt r a = .ok z ∧ TileOk Q w v z.1 ∧ r.SameShape z.1 ∧
      ∀ i < p, TileOk Q (h i) v (z.2 i) ∧ (a i).SameShape (z.2 i) := by
  obtain ⟨r', e1, t1, s1⟩ := loop_ok (n := p)
    (f := fun i r => gemm o fuel (qt i) (a i) r 1 (if i = 0 then beta else 1) false false) (a := r)
    (I := fun _ x => TileOk Q w v x ∧ r.SameShape x) ⟨hr, SameShape.refl _⟩ (by
      intro u hu x ⟨tx, sx⟩
      obtain ⟨b1, b2, b3, b4⟩ := hqt u hu
      have c := ha u hu
      obtain ⟨X, x1, x2, x3⟩ := TileOk.gemm hf hT hfu b1 b2 b3 b4 c.wf c.tile c.rows c.cols tx 1 (if u = 0 then beta else 1)
      exact ⟨X, x1, x2, sx.trans x3⟩)
  have key : ∀ i < p, ∃ X, gemm o fuel (q i) r' (a i) (-1) 1 false false = .ok X ∧ TileOk Q (h i) v X ∧
      (a i).SameShape X := fun i hi =>
    TileOk.gemm hf hT hfu (hq i hi).wf (hq i hi).tile (hq i hi).rows (hq i hi).cols t1.wf t1.tile t1.rows t1.cols
      (ha i hi) (-1) 1
  obtain ⟨N, hN⟩ := collect_exists (n := p) (fun i hi => (key i hi).imp fun _ h => h.1)
  refine ⟨(r', fun i => if i < p then N i else a i), ?_, t1, s1, fun i hi => ?_⟩
  · unfold projectCol
    rw [e1, except_bind_ok, hN, except_bind_ok]
  · simp only [if_pos hi]
    obtain ⟨X, h1, h2⟩ := key i hi
    have := collect_ok hN i hi
    rw [h1] at this
    rw [← Except.ok.inj this]
    exact h2

/-- The state of the loop consists of tiles of the kinds given. -/
structure MgsTiles (Q : LowRank R → Prop) (p n : Nat) (h w : Nat → Nat) (A0 Q0 R0 : Nat → Nat → Mat R)
    (st : (Nat → Nat → Mat R) × (Nat → Nat → Mat R) × (Nat → Nat → Mat R)) : Prop where
  a : ∀ i < p, ∀ j < n, TileOk Q (h i) (w j) (st.1 i j) ∧ (A0 i j).SameShape (st.1 i j)
  q : ∀ i < p, ∀ j < n, TileOk Q (h i) (w j) (st.2.1 i j) ∧ (Q0 i j).SameShape (st.2.1 i j)
  r : ∀ i < n, ∀ j < n, TileOk Q (w i) (w j) (st.2.2 i j) ∧ (R0 i j).SameShape (st.2.2 i j)

theorem SameShape.isDense {A B : Mat R} (h : A.SameShape B) (hA : ∃ d, A = .dense d) : ∃ d, B = .dense d := by
  obtain ⟨d, rfl⟩ := hA
  cases B with
  | dense b => exact ⟨b, rfl⟩
  | lowRank | hier | empty => exact h.elim

theorem mgsStep_total (hf : o.Fits False) (hT : o.Total False Q) {beta : R} {fuel p n j : Nat} {mgs : MgsT R} (hfu : 1 ≤ fuel)
    (hp : 0 < p) (hj : j < n) {h w : Nat → Nat} {A0 Q0 R0 : Nat → Nat → Mat R} {st}
    (hd : ∃ d, R0 j j = .dense d) (ht : ∃ i < p, w j ≤ h i ∧ ∃ d, A0 i j = .dense d)
    (H : MgsTiles Q p n h w A0 Q0 R0 st) :
    ∃ st', mgsStep L o fuel mgs beta p n j st = .ok st' ∧ MgsTiles Q p n h w A0 Q0 R0 st' := by
  obtain ⟨d, hd'⟩ := (H.r j hj j hj).2.isDense hd
  obtain ⟨x, hx, xq, dx, ex, x0, x1⟩ := orthDense_total (L := L) (fuel := fuel) hf hT hfu hp
    (fun i hi => (H.a i hi j hj).1) (fun i hi => (H.q i hi j hj).1) (by
      obtain ⟨i, hi, h1, h2⟩ := ht
      exact ⟨i, hi, h1, (H.a i hi j hj).2.isDense h2⟩)
  obtain ⟨qt, hqt⟩ := collect_exists (n := p) (f := fun i => (x.1 i).transpose)
    (fun i hi => (xq i hi).1.transpose.imp fun _ h => h.1)
  have hqt' : ∀ i < p, (qt i).WF ∧ (qt i).IsTile ∧ (qt i).nRows = w j ∧ (qt i).nCols = h i := by
    intro i hi
    obtain ⟨T, h1, h2⟩ := (xq i hi).1.transpose
    have := collect_ok hqt i hi
    rw [h1] at this
    rw [← Except.ok.inj this]
    exact h2
  obtain ⟨y, hy, ya, yr⟩ := loop_ok (n := n - (j + 1))
    (f := fun u (s : (Nat → Nat → Mat R) × (Nat → Nat → Mat R)) => do
      let z ← projectCol o fuel beta p x.1 qt (s.2 j (j + 1 + u)) (fun i => s.1 i (j + 1 + u))
      .ok (putCol s.1 (j + 1 + u) z.2, putBlk s.2 j (j + 1 + u) z.1)) (a := (st.1, putBlk st.2.2 j j x.2))
    (I := fun _ s => (∀ i < p, ∀ k < n, TileOk Q (h i) (w k) (s.1 i k) ∧ (A0 i k).SameShape (s.1 i k)) ∧
      ∀ i < n, ∀ k < n, TileOk Q (w i) (w k) (s.2 i k) ∧ (R0 i k).SameShape (s.2 i k)) (by
      refine ⟨H.a, fun i hi k hk => ?_⟩
      simp only [putBlk]
      split
      · rename_i e
        obtain ⟨rfl, rfl⟩ := e
        have s1 := H.r _ hi _ hk
        rw [hd'] at s1
        rw [ex]
        refine ⟨⟨trivial, trivial, trivial, trivial, x0, x1⟩, s1.2.trans ?_⟩
        exact ⟨s1.1.rows.trans x0.symm, s1.1.cols.trans x1.symm⟩
      · exact H.r i hi k hk) (by
      intro u hu s ⟨sa, sr⟩
      obtain ⟨z, z1, z2, z3, z4⟩ := projectCol_total (fuel := fuel) hf hT hfu (fun i hi => (xq i hi).1) hqt'
        (fun i hi => (sa i hi (j + 1 + u) (by omega)).1) (sr j hj (j + 1 + u) (by omega)).1
      refine ⟨_, by rw [z1, except_bind_ok], fun i hi k hk => ?_, fun i hi k hk => ?_⟩
      · simp only [putCol]
        split
        · rename_i e
          subst e
          exact ⟨(z4 i hi).1, (sa i hi _ hk).2.trans (z4 i hi).2⟩
        · exact sa i hi k hk
      · simp only [putBlk]
        split
        · rename_i e
          obtain ⟨rfl, rfl⟩ := e
          exact ⟨z2, (sr _ hi _ hk).2.trans z3⟩
        · exact sr i hi k hk)
  refine ⟨(y.1, putCol st.2.1 j x.1, y.2), ?_, ya, fun i hi k hk => ?_, yr⟩
  · unfold mgsStep
    rw [hd']
    simp only [orthogonalizeBlockCol]
    rw [hx, except_bind_ok, hqt, except_bind_ok, hy, except_bind_ok]
  · simp only [putCol]
    split
    · rename_i e
      subst e
      exact ⟨(xq i hi).1, (H.q i hi _ hk).2.trans (xq i hi).2⟩
    · exact H.q i hi k hk

/-- `mgs_qr` returns. -/
theorem mgsWith_total (hf : o.Fits False) (hT : o.Total False Q) {gfuel p n : Nat} {mgs : MgsT R} {beta : R}
    (hg : 1 ≤ gfuel) (hp : 0 < p) {h w : Nat → Nat} {A C Rb : Nat → Nat → Mat R} (hA : GridOk Q p n h w A) (hC : GridOk Q p n h w C)
    (hR : GridOk Q n n w w Rb) (hd : DiagDense n Rb) (ht : ∀ j < n, ∃ i < p, w j ≤ h i ∧ ∃ d, A i j = .dense d) :
    ∃ x, mgsWith L o gfuel mgs beta p n A p n C n n Rb = .ok x ∧ GridOk Q p n h w x.1 ∧ GridOk Q n n w w x.2 ∧
      (∀ i < p, ∀ j < n, (C i j).SameShape (x.1 i j)) ∧ ∀ i < n, ∀ j < n, (Rb i j).SameShape (x.2 i j) := by
  obtain ⟨x, hx, H⟩ := loop_ok (n := n) (f := fun j st => mgsStep L o gfuel mgs beta p n j st)
    (a := (A, C, Rb)) (I := fun _ st => MgsTiles Q p n h w A C Rb st)
    ⟨fun i hi j hj => ⟨hA i hi j hj, SameShape.refl _⟩, fun i hi j hj => ⟨hC i hi j hj, SameShape.refl _⟩,
      fun i hi j hj => ⟨hR i hi j hj, SameShape.refl _⟩⟩
    (fun j hj st H => mgsStep_total hf hT hg hp hj (hd j hj) (ht j hj) H)
  refine ⟨x.2, ?_, fun i hi j hj => (H.q i hi j hj).1, fun i hi j hj => (H.r i hi j hj).1,
    fun i hi j hj => (H.q i hi j hj).2, fun i hi j hj => (H.r i hi j hj).2⟩
  simp only [mgsWith, decide_true, assertM, if_true, except_bind_ok, hx]

theorem mgsHier_total (hf : o.Fits False) (hT : o.Total False Q) {gfuel fuel p n : Nat} (hg : 1 ≤ gfuel) (hfu : 1 ≤ fuel)
    (hp : 0 < p) {h w : Nat → Nat} {A C Rb : Nat → Nat → Mat R} (hA : GridOk Q p n h w A) (hC : GridOk Q p n h w C)
    (hR : GridOk Q n n w w Rb) (hd : DiagDense n Rb) (ht : ∀ j < n, ∃ i < p, w j ≤ h i ∧ ∃ d, A i j = .dense d) :
    ∃ x, mgsHier L o gfuel fuel p n A p n C n n Rb = .ok x ∧ GridOk Q p n h w x.1 ∧ GridOk Q n n w w x.2 ∧
      (∀ i < p, ∀ j < n, (C i j).SameShape (x.1 i j)) ∧ ∀ i < n, ∀ j < n, (Rb i j).SameShape (x.2 i j) := by
  obtain ⟨f, rfl⟩ : ∃ f, fuel = f + 1 := ⟨fuel - 1, by omega⟩
  exact mgsWith_total hf hT hg hp hA hC hR hd ht

theorem transpose_grid {p q : Nat} {h w : Nat → Nat} {C : Nat → Nat → Mat R} (hC : GridOk Q p q h w C) :
    ∃ T, (Mat.hier p q C).transpose = .ok (.hier q p T) ∧
      ∀ i < q, ∀ j < p, (T i j).WF ∧ (T i j).IsTile ∧ (T i j).nRows = w i ∧ (T i j).nCols = h j := by
  obtain ⟨g, hg⟩ := collect2_exists (f := fun i j => (C i j).transpose)
    (fun i hi j hj => (hC i hi j hj).transpose.imp fun _ h => h.1)
  refine ⟨fun j i => g i j, by rw [transpose, hg, except_bind_ok], fun i hi j hj => ?_⟩
  obtain ⟨T, h1, h2⟩ := (hC j hj i hi).transpose
  have := collect2_ok hg j hj i hi
  rw [h1] at this
  beta_reduce
  rw [← Except.ok.inj this]
  exact h2

theorem gemm_grid (hf : o.Fits False) (hT : o.Total False Q) {fuel m k n : Nat} (hfu : 2 ≤ fuel) (hm : 0 < m) (hk : 0 < k)
    (hn : 0 < n) {h v w : Nat → Nat} {A B C : Nat → Nat → Mat R}
    (hA : ∀ i < m, ∀ j < k, (A i j).WF ∧ (A i j).IsTile ∧ (A i j).nRows = h i ∧ (A i j).nCols = v j)
    (hB : ∀ i < k, ∀ j < n, (B i j).WF ∧ (B i j).IsTile ∧ (B i j).nRows = v i ∧ (B i j).nCols = w j)
    (hC : GridOk Q m n h w C) (α β : R) :
    ∃ C', Mat.gemm o fuel (.hier m k A) (.hier k n B) (.hier m n C) α β false false = .ok (.hier m n C') ∧
      GridOk Q m n h w C' := by
  obtain ⟨f, rfl⟩ : ∃ f, fuel = f + 1 := ⟨fuel - 1, by omega⟩
  have key : ∀ i < m, ∀ j < n, ∃ X, loop k (fun l c => Mat.gemm o f (A i l) (B l j) c α (if l = 0 then β else 1) false false)
      (C i j) = .ok X ∧ TileOk Q (h i) (w j) X := by
    intro i hi j hj
    exact loop_ok (I := fun _ c => TileOk Q (h i) (w j) c) (hC i hi j hj) (fun l hl c hc => by
      obtain ⟨a1, a2, a3, a4⟩ := hA i hi l hl
      obtain ⟨b1, b2, b3, b4⟩ := hB l hl j hj
      obtain ⟨X, x1, x2, -⟩ := TileOk.gemm hf hT (fuel := f) (by omega) a1 a2 a3 a4 b1 b2 b3 b4 hc α (if l = 0 then β else 1)
      exact ⟨X, x1, x2⟩)
  obtain ⟨C', hC'⟩ := collect2_exists (fun i hi j hj => (key i hi j hj).imp fun _ h => h.1)
  refine ⟨C', ?_, fun i hi j hj => ?_⟩
  · have e1 : (Mat.hier m k A).nRows = (Mat.hier m n C).nRows := by
      rw [nRows_hier, nRows_hier]
      exact psum_congr fun a ha => (hA a ha 0 hk).2.2.1.trans (hC a ha 0 hn).rows.symm
    have e2 : (Mat.hier m k A).nCols = (Mat.hier k n B).nRows := by
      rw [nCols_hier, nRows_hier]
      exact psum_congr fun a ha => (hA 0 hm a ha).2.2.2.trans (hB a ha 0 hn).2.2.1.symm
    have e3 : (Mat.hier k n B).nCols = (Mat.hier m n C).nCols := by
      rw [nCols_hier, nCols_hier]
      exact psum_congr fun a ha => (hB 0 hk a ha).2.2.2.trans (hC 0 hm a ha).cols.symm
    show (gemmBoth o (f + 1)).1 _ _ _ _ _ _ _ = _
    simp only [gemmBoth, opRows, opCols, Bool.false_eq_true, if_false, e1, e2, e3, decide_true, assertM, if_true, except_bind_ok]
    simp only [gemmOmm, gemmToHier, gemmHHH, opDim0, opDim1, opBlk, Bool.false_eq_true, if_false, decide_true, assertM, if_true,
      except_bind_ok]
    have : collect2 m n (fun i j => loop k (fun l c =>
      (gemmBoth o f).1 (A i l) (B l j) c α (if l = 0 then β else 1) false false) (C i j)) = .ok C' := hC'
    rw [this, except_bind_ok]
  · obtain ⟨X, h1, h2⟩ := key i hi j hj
    have := collect2_ok hC' i hi j hj
    rw [h1] at this
    rw [← Except.ok.inj this]
    exact h2

end Mat
end Verif
