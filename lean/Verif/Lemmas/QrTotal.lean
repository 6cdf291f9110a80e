import Verif.Lemmas.QrCols
import Verif.Lemmas.GemmTotal

/-!
Blocked Householder QR: everything returns on block matrices of tiles that fit.
-/

set_option linter.unusedSectionVars false
set_option linter.unusedVariables false

namespace Verif
open Finset

variable {R : Type} [CommRing R] [DecidableEq R] {o : LrOps R} {Q : LowRank R → Prop}

namespace Mat

/-- A consistent `h`-by-`w` tile. -/
structure TileOk (Q : LowRank R → Prop) (h w : Nat) (M : Mat R) : Prop where
  wf : M.WF
  sqr : M.Square
  tile : M.IsTile
  all : M.All Q
  rows : M.nRows = h
  cols : M.nCols = w

theorem IsTile.regular {M : Mat R} (hw : M.WF) (ht : M.IsTile) (b : Nat) : M.Regular b ∧ M.depth = 0 := by
  cases M with
  | dense => exact ⟨⟨trivial, trivial, trivial⟩, rfl⟩
  | lowRank => exact ⟨⟨hw, trivial, trivial⟩, rfl⟩
  | hier => exact ht.elim
  | empty => exact ht.elim

theorem TileOk.gemm (hf : o.Fits False) (hT : o.Total False Q) {fuel h m w : Nat} (hfu : 1 ≤ fuel)
    {A B C : Mat R} (wA : A.WF) (tA : A.IsTile) (rA : A.nRows = h) (cA : A.nCols = m) (wB : B.WF)
    (tB : B.IsTile) (rB : B.nRows = m) (cB : B.nCols = w) (hC : TileOk Q h w C) (α β : R) :
    ∃ C', Mat.gemm o fuel A B C α β false false = .ok C' ∧ TileOk Q h w C' ∧ C.SameShape C' := by
  obtain ⟨gA, dA⟩ := tA.regular wA 2
  obtain ⟨gB, dB⟩ := tB.regular wB 2
  obtain ⟨gC, dC⟩ := hC.tile.regular hC.wf 2
  obtain ⟨C', h1, h2⟩ := (totalUpTo hf hT (le_refl 2) 0).1 fuel (by omega) A B C α β false false gA gB gC
    hC.sqr hC.all (by omega) (by omega) (by omega) (TransSafe_ff _ _) (fun h => h.elim)
    ⟨rA.trans hC.rows.symm, cA.trans rB.symm, cB.trans hC.cols.symm⟩
  obtain ⟨-, P⟩ := (gemmBoth_ok hf fuel).1 A B C α β false false C' wA wB hC.wf hC.sqr (TransSafe_ff _ _)
    (fun h => h.elim) h1
  have d := P.shape.dims hC.wf
  exact ⟨C', h1, ⟨P.wf, P.sqr, hC.tile.of_shape P.shape, h2, d.1.trans hC.rows, d.2.trans hC.cols⟩, P.shape⟩

theorem TileOk.trmm (hQ : LrOps.ShapeOnly Q) {fuel h w : Nat} (hfu : 1 ≤ fuel) {a : Dense R} {B : Mat R}
    (ra : a.rows = h) (ca : a.cols = h) (hB : TileOk Q h w B) (uplo : Uplo) (trans unit : Bool) :
    ∃ B', Mat.trmm o fuel (.dense a) B .left uplo trans unit 1 = .ok B' ∧ TileOk Q h w B' ∧
      B.SameShape B' := by
  have h0 : ∃ B', Mat.trmm o fuel (.dense a) B .left uplo trans unit 1 = .ok B' := by
    unfold Mat.trmm
    generalize Mat.gemm o fuel = g
    obtain ⟨f, rfl⟩ : ∃ f, fuel = f + 1 := ⟨fuel - 1, by omega⟩
    simp only [trmmWith]
    obtain ⟨wf, sqr, tile, all, rows, cols⟩ := hB
    cases B with
    | hier => exact tile.elim
    | empty => exact tile.elim
    | dense b =>
      have rows : b.rows = h := rows
      simp only [trmmOmm, Dense.trmm, Side.pick, ra, ca, rows, decide_true, assertM, if_true, except_bind_ok]
      exact ⟨_, rfl⟩
    | lowRank b =>
      have rows : b.dim0 = h := rows
      have hw : b.WF := wf
      simp only [trmmOmm, Dense.trmm, Side.pick, ra, ca, rows, LowRank.outer, hw.urows, decide_true, assertM,
        if_true, except_bind_ok]
      exact ⟨_, rfl⟩
  obtain ⟨B', hB'⟩ := h0
  obtain ⟨-, -, g, sh, -⟩ := trmm_tile (ex := True) ⟨hB.wf, hB.sqr, Or.inr trivial⟩ hB.tile hB'
  have d := sh.dims hB.wf
  refine ⟨B', hB', ⟨g.wf, g.sqr, hB.tile.of_shape sh, ?_, d.1.trans hB.rows, d.2.trans hB.cols⟩, sh⟩
  unfold Mat.trmm at hB'
  generalize Mat.gemm o fuel = g' at hB'
  obtain ⟨f, rfl⟩ : ∃ f, fuel = f + 1 := ⟨fuel - 1, by omega⟩
  simp only [trmmWith] at hB'
  cases B with
  | hier => exact hB.tile.elim
  | empty => exact hB.tile.elim
  | dense b => cases B' <;> first | exact sh.elim | trivial
  | lowRank b =>
    simp only [trmmOmm, except_bind_eq_ok] at hB'
    obtain ⟨-, -, -, -, x, -, h2⟩ := hB'
    cases Except.ok.inj h2
    exact hQ b _ g.wf g.sqr rfl rfl rfl rfl hB.all

theorem TileOk.transpose {h w : Nat} {A : Mat R} (hA : TileOk Q h w A) :
    ∃ T, A.transpose = .ok T ∧ T.WF ∧ T.IsTile ∧ T.nRows = w ∧ T.nCols = h := by
  have : ∃ T, A.transpose = .ok T := by
    obtain ⟨-, -, t, -⟩ := hA
    cases A with
    | hier => exact t.elim
    | empty => exact t.elim
    | dense => exact ⟨_, rfl⟩
    | lowRank => exact ⟨_, rfl⟩
  obtain ⟨T, hT⟩ := this
  obtain ⟨a, b, c, d, -⟩ := transpose_spec hA.wf hT
  exact ⟨T, hT, a, d hA.tile, b.trans hA.cols, c.trans hA.rows⟩

/-- `M` replaced by a tile of the same kind. -/
theorem TileOk.ident (n : Nat) : (Mat.dense (Dense.ident n n : Dense R)).IsTile := trivial

/-- A loop whose steps return, with an invariant. -/
theorem loop_ok {α : Type} {n : Nat} {f : Nat → α → Except Err α} {a : α} {I : Nat → α → Prop}
    (h0 : I 0 a) (hs : ∀ u < n, ∀ x, I u x → ∃ y, f u x = .ok y ∧ I (u + 1) y) :
    ∃ b, loop n f a = .ok b ∧ I n b := by
  induction n with
  | zero => exact ⟨a, rfl, h0⟩
  | succ n ih =>
    obtain ⟨b, h1, h2⟩ := ih (fun u hu => hs u (by omega))
    obtain ⟨c, h3, h4⟩ := hs n (by omega) b h2
    refine ⟨c, ?_, h4⟩
    rw [loop_succ, h1, except_bind_ok, h3]

/-- Applying a block column of reflectors returns. -/
theorem applyBlockCol_total (hf : o.Fits False) (hT : o.Total False Q) (hQ : LrOps.ShapeOnly Q)
    {fuel p k w : Nat} (hfu : 1 ≤ fuel) (hk : k < p) {h : Nat → Nat} {Y col : Nat → Mat R} {t : Dense R}
    {trans : Bool} (hY : ∀ i, k ≤ i → i < p → TileOk Q (h i) (h k) (Y i)) (hd : ∃ d, Y k = .dense d)
    (htr : t.rows = h k) (htc : t.cols = h k) (hcol : ∀ i < p, TileOk Q (h i) w (col i)) :
    ∃ col', applyBlockCol o fuel p Y (.dense t) k trans col = .ok col' ∧
      ∀ i < p, TileOk Q (h i) w (col' i) ∧ (col i).SameShape (col' i) := by
  obtain ⟨y, hy⟩ := hd
  have yk := hY k (le_refl _) hk
  have yr : y.rows = h k := by have := yk.rows; rw [hy] at this; exact this
  have yc : y.cols = h k := by have := yk.cols; rw [hy] at this; exact this
  have t0 : ∀ i, ∃ T, i < p - k → (Y (i + k)).transpose = .ok T ∧ T.WF ∧ T.IsTile ∧ T.nRows = h k ∧
      T.nCols = h (i + k) := by
    intro i
    by_cases hi : i < p - k
    · obtain ⟨T, e⟩ := (hY (i + k) (by omega) (by omega)).transpose
      exact ⟨T, fun _ => e⟩
    · exact ⟨.empty 0 0, fun h => absurd h hi⟩
  choose Yt hYt using t0
  obtain ⟨Yt', e1⟩ := collect_exists (n := p - k) (f := fun i => (Y (i + k)).transpose)
    (fun i hi => ⟨Yt i, (hYt i hi).1⟩)
  have hYt' : ∀ i < p - k, (Yt' i).WF ∧ (Yt' i).IsTile ∧ (Yt' i).nRows = h k ∧ (Yt' i).nCols = h (i + k) := by
    intro i hi
    have := collect_ok e1 i hi
    rw [(hYt i hi).1] at this
    rw [← Except.ok.inj this]
    exact (hYt i hi).2
  obtain ⟨C1, e2, t1, s1⟩ := (hcol k hk).trmm (o := o) hQ hfu yr yc .lower true true
  obtain ⟨C2, e3, t2⟩ := loop_ok (n := p - (k + 1))
    (f := fun u C => Mat.gemm o fuel (Yt' (u + 1)) (col (k + 1 + u)) C 1 1 false false) (a := C1)
    (I := fun _ C => TileOk Q (h k) w C) t1 (by
      intro u hu C hC
      obtain ⟨a, b, c, d⟩ := hYt' (u + 1) (by omega)
      have ci := hcol (k + 1 + u) (by omega)
      obtain ⟨C', x1, x2, -⟩ := TileOk.gemm hf hT hfu a b c d ci.wf ci.tile
        (by rw [ci.rows]; congr 1; omega) ci.cols hC 1 1
      exact ⟨C', x1, x2⟩)
  obtain ⟨C3, e4, t3, -⟩ := t2.trmm (o := o) hQ hfu htr htc .upper trans false
  obtain ⟨C0, e5, t4, -⟩ := t3.trmm (o := o) hQ hfu yr yc .lower false true
  obtain ⟨ak, e6, t5, s5⟩ := TileOk.gemm hf hT hfu (A := .dense (Dense.ident (h k) (h k))) trivial trivial rfl
    rfl t4.wf t4.tile t4.rows t4.cols (hcol k hk) (-1) 1
  have r0 : ∀ u, ∃ X, u < p - (k + 1) → Mat.gemm o fuel (Y (k + 1 + u)) C3 (col (k + 1 + u)) (-1) 1 false false =
      .ok X ∧ TileOk Q (h (k + 1 + u)) w X ∧ (col (k + 1 + u)).SameShape X := by
    intro u
    by_cases hu : u < p - (k + 1)
    · have yi := hY (k + 1 + u) (by omega) (by omega)
      obtain ⟨X, e⟩ := TileOk.gemm hf hT hfu yi.wf yi.tile yi.rows yi.cols t3.wf t3.tile t3.rows t3.cols
        (hcol (k + 1 + u) (by omega)) (-1) 1
      exact ⟨X, fun _ => e⟩
    · exact ⟨.empty 0 0, fun h => absurd h hu⟩
  choose X hX using r0
  obtain ⟨rest, e7⟩ := collect_exists (n := p - (k + 1))
    (f := fun u => Mat.gemm o fuel (Y (k + 1 + u)) C3 (col (k + 1 + u)) (-1) 1 false false)
    (fun i hi => ⟨X i, (hX i hi).1⟩)
  have hrest : ∀ u < p - (k + 1), TileOk Q (h (k + 1 + u)) w (rest u) ∧
      (col (k + 1 + u)).SameShape (rest u) := by
    intro u hu
    have := collect_ok e7 u hu
    rw [(hX u hu).1] at this
    rw [← Except.ok.inj this]
    exact (hX u hu).2
  refine ⟨fun i => if i = k then ak else if k < i ∧ i < p then rest (i - (k + 1)) else col i, ?_, ?_⟩
  · simp only [applyBlockCol, e1, except_bind_ok, hk, decide_true, assertM, if_true, hy, e2, e3, e4, e5]
    rw [getNRows_eq C0 t4.wf, t4.rows]
    simp only [except_bind_ok, e6, e7]
  · intro i hi
    by_cases hik : i = k
    · subst hik
      simp only [if_true]
      exact ⟨t5, s5⟩
    · by_cases hlt : k < i ∧ i < p
      · simp only [if_neg hik, if_pos hlt]
        have := hrest (i - (k + 1)) (by omega)
        rwa [show k + 1 + (i - (k + 1)) = i by omega] at this
      · simp only [if_neg hik, if_neg hlt]
        exact ⟨hcol i hi, SameShape.refl _⟩

/-- Factoring a block column with a dense square diagonal block returns. -/
theorem triangularizeCol_total {K : QrKernels R} (hK : QrContract K) (hQ : LrOps.ShapeOnly Q) {p j w : Nat}
    (hj : j < p) {h : Nat → Nat} {col : Nat → Mat R} (hcol : ∀ i < p, TileOk Q (h i) w (col i))
    (hd : ∃ d, col j = .dense d) (hw : w ≤ h j) :
    ∃ x, triangularizeCol K p j col = .ok x ∧ x.2.rows = w ∧ x.2.cols = w ∧
      ∀ i < p, TileOk Q (h i) w (x.1 i) ∧ (col i).SameShape (x.1 i) := by
  have r0 : ∀ u < p - j, ∃ D, rightFactor (col (j + u)) = .ok D := by
    intro u hu
    have c := hcol (j + u) (by omega)
    generalize col (j + u) = M at c
    cases M with
    | hier => exact c.tile.elim
    | empty => exact c.tile.elim
    | dense => exact ⟨_, rfl⟩
    | lowRank l =>
      have wf : l.WF := c.wf
      exact Dense_gemmNew_total (by exact wf.vrows.symm)
  obtain ⟨Rj, hRj⟩ := collect_exists r0
  have hR : ∀ u < p - j, rightFactor (col (j + u)) = .ok (Rj u) := fun u hu => collect_ok hRj u hu
  have hcols : ∀ u < p - j, (Rj u).cols = w := fun u hu => by
    have c := hcol (j + u) (by omega)
    rw [(rightFactor_spec c.wf (hR u hu)).2.1, c.cols]
  have wfS : (Mat.hier (p - j) 1 (fun i _ => Mat.dense (Rj i))).WF := by
    refine ⟨by omega, by omega, fun i hi k hk => ⟨trivial, rfl, ?_⟩⟩
    show (Rj i).cols = (Rj 0).cols
    rw [hcols i hi, hcols 0 (by omega)]
  obtain ⟨D, hD, Dr, Dc, -⟩ := toDense_ok _ wfS
  have Dr' : D.rows = psum (fun i => (Rj i).rows) (p - j) := by rw [Dr, nRows_hier]; rfl
  have Dc' : D.cols = w := by
    rw [Dc, nCols_hier]
    simp only [psum, Finset.sum_range_one]
    exact hcols 0 (by omega)
  have R0 : (Rj 0).rows = h j := by
    obtain ⟨d, hd⟩ := hd
    have c := hcol j hj
    have := hR 0 (by omega)
    rw [Nat.add_zero, hd] at this
    rw [hd] at c
    rw [← Except.ok.inj this]
    exact c.rows
  have hle : D.cols ≤ D.rows := by
    rw [Dc', Dr']
    have := psum_le (fun i => (Rj i).rows) (show 0 < p - j by omega)
    simp only [psum, Finset.range_zero, Finset.sum_empty, Nat.zero_add] at this ⊢
    omega
  have hg : Dense.geqrt K D (Dense.zero D.cols D.cols) =
      .ok (⟨D.rows, D.cols, (K.geqrt3 D).1⟩, ⟨D.cols, D.cols, (K.geqrt3 D).2⟩) := by
    simp only [Dense.geqrt, Dense.zero, decide_true, assertM, if_true, except_bind_ok, if_pos hle]
  have n0 : ∀ u < p - j, ∃ M, (do
      assertM (decide (D.cols = (Rj u).cols))
      assertM (decide ((Rj u).rows ≤ D.rows - psum (fun i => (Rj i).rows) u))
      updateRightFactor (col (j + u))
        ((⟨D.rows, D.cols, (K.geqrt3 D).1⟩ : Dense R).sub (psum (fun i => (Rj i).rows) u) 0 (Rj u).rows
          (Rj u).cols) : Except Err (Mat R)) = .ok M := by
    intro u hu
    have a1 : D.cols = (Rj u).cols := by rw [Dc', hcols u hu]
    have a2 : (Rj u).rows ≤ D.rows - psum (fun i => (Rj i).rows) u := by
      rw [Dr']
      have := psum_le (fun i => (Rj i).rows) hu
      omega
    rw [decide_eq_true a1, decide_eq_true a2]
    simp only [assertM, if_true, except_bind_ok]
    have c := hcol (j + u) (by omega)
    generalize col (j + u) = M at c
    cases M with
    | hier => exact c.tile.elim
    | empty => exact c.tile.elim
    | dense => exact ⟨_, rfl⟩
    | lowRank l => exact ⟨_, rfl⟩
  obtain ⟨new, hnew⟩ := collect_exists n0
  have hx : triangularizeCol K p j col = .ok (fun i => if j ≤ i ∧ i < p then new (i - j) else col i,
      ⟨D.cols, D.cols, (K.geqrt3 D).2⟩) := by
    unfold triangularizeCol
    rw [if_pos hj, hRj, except_bind_ok, hD, except_bind_ok, hg, except_bind_ok]
    simp only
    rw [hnew, except_bind_ok]
  have P := triangularizeCol_ok hK (ex := True) (fun i h1 h2 =>
    ⟨(hcol i h2).wf, (hcol i h2).sqr, (hcol i h2).cols.trans (hcol j hj).cols.symm⟩) hx
  refine ⟨_, hx, Dc', Dc', fun i hi => ?_⟩
  by_cases hji : j ≤ i
  · obtain ⟨g, sh, -⟩ := P.good i hji hi
    have c := hcol i hi
    have g := g ⟨c.wf, c.sqr, Or.inr trivial⟩
    have d := sh.dims c.wf
    refine ⟨⟨g.wf, g.sqr, c.tile.of_shape sh, ?_, d.1.trans c.rows, d.2.trans c.cols⟩, sh⟩
    have hn := collect_ok hnew (i - j) (by omega)
    simp only [except_bind_eq_ok] at hn
    obtain ⟨-, -, -, -, hn⟩ := hn
    rw [show j + (i - j) = i by omega] at hn
    simp only [if_pos (show j ≤ i ∧ i < p from ⟨hji, hi⟩)] at g ⊢
    generalize col i = M at c hn
    cases M with
    | hier => exact c.tile.elim
    | empty => exact c.tile.elim
    | dense => rw [← Except.ok.inj hn]; trivial
    | lowRank l =>
      rw [← Except.ok.inj hn] at g ⊢
      exact hQ l _ g.wf g.sqr rfl rfl rfl rfl c.all
  · simp only
    rw [if_neg (by omega)]
    exact ⟨hcol i hi, SameShape.refl _⟩

/-- A `p`-by-`q` grid of tiles with heights `h` and widths `w`. -/
def GridOk (Q : LowRank R → Prop) (p q : Nat) (h w : Nat → Nat) (A : Nat → Nat → Mat R) : Prop :=
  ∀ i < p, ∀ j < q, TileOk Q (h i) (w j) (A i j)

/-- Dense diagonal blocks. -/
def DiagDense (q : Nat) (A : Nat → Nat → Mat R) : Prop := ∀ k < q, ∃ d, A k k = .dense d

theorem isDense_of_shape {A B : Mat R} (h : ∃ d, A = .dense d) (sh : A.SameShape B) : ∃ d, B = .dense d := by
  obtain ⟨d, rfl⟩ := h
  cases B <;> first | exact sh.elim | exact ⟨_, rfl⟩

theorem putCol_ok {p q : Nat} {h w : Nat → Nat} {A : Nat → Nat → Mat R} {j : Nat} {c : Nat → Mat R}
    (hA : GridOk Q p q h w A) (dA : DiagDense q A) (hp : q ≤ p)
    (hc : ∀ i < p, TileOk Q (h i) (w j) (c i) ∧ (A i j).SameShape (c i)) :
    GridOk Q p q h w (putCol A j c) ∧ DiagDense q (putCol A j c) := by
  refine ⟨fun i hi j' hj' => ?_, fun k hk => ?_⟩
  · unfold putCol
    split
    · rename_i e
      rw [e]
      exact (hc i hi).1
    · exact hA i hi j' hj'
  · unfold putCol
    split
    · rename_i e
      subst e
      exact isDense_of_shape (dA k hk) (hc k (by omega)).2
    · exact dA k hk

/-- The blocked factorization returns. -/
theorem blockedQr_total {K : QrKernels R} (hK : QrContract K) (hf : o.Fits False) (hT : o.Total False Q)
    (hQ : LrOps.ShapeOnly Q) {fuel p q : Nat} (hfu : 1 ≤ fuel) (hp : q ≤ p) {h w : Nat → Nat}
    {A T : Nat → Nat → Mat R} (hA : GridOk Q p q h w A) (dA : DiagDense q A) (hw : ∀ k < q, w k = h k) :
    ∃ x, blockedQr K o fuel p q A q 1 T = .ok x ∧ GridOk Q p q h w x.1 ∧ DiagDense q x.1 ∧
      ∀ k < q, ∃ t, x.2 k 0 = .dense t ∧ t.rows = h k ∧ t.cols = h k := by
  obtain ⟨x, h1, h2⟩ := loop_ok (n := q) (f := blockedStep K o fuel p q) (a := (A, T))
    (I := fun u st => (GridOk Q p q h w st.1 ∧ DiagDense q st.1) ∧
      ∀ k < u, ∃ t, st.2 k 0 = .dense t ∧ t.rows = h k ∧ t.cols = h k)
    ⟨⟨hA, dA⟩, fun k hk => absurd hk (by omega)⟩ (by
      intro k hk st ⟨⟨g, d⟩, ht⟩
      obtain ⟨y, y1, y2, y3, y4⟩ := triangularizeCol_total hK hQ (show k < p by omega)
        (fun i hi => g i hi k hk) (d k hk) (le_of_eq (hw k hk))
      obtain ⟨g', d'⟩ := putCol_ok g d hp y4
      obtain ⟨B, b1, b2⟩ := loop_ok (n := q - (k + 1)) (f := fun u A => do
          let c ← applyBlockCol o fuel p y.1 (.dense y.2) k true (fun i => A i (k + 1 + u))
          .ok (putCol A (k + 1 + u) c)) (a := putCol st.1 k y.1)
        (I := fun _ B => GridOk Q p q h w B ∧ DiagDense q B) ⟨g', d'⟩ (by
          intro u hu B ⟨gB, dB⟩
          obtain ⟨c, c1, c2⟩ := applyBlockCol_total hf hT hQ hfu (show k < p by omega)
            (fun i _ hi => by
              have := (y4 i hi).1
              rwa [hw k hk] at this) (isDense_of_shape (d k hk) (y4 k (by omega)).2)
            (y2.trans (hw k hk)) (y3.trans (hw k hk))
            (fun i hi => gB i hi (k + 1 + u) (by omega)) (trans := true)
          refine ⟨putCol B (k + 1 + u) c, by rw [c1, except_bind_ok], ?_⟩
          exact putCol_ok gB dB hp c2)
      refine ⟨(B, putBlk st.2 k 0 (.dense y.2)), ?_, b2, fun k' hk' => ?_⟩
      · unfold blockedStep
        rw [y1, except_bind_ok, b1, except_bind_ok]
      · simp only [putBlk]
        by_cases e : k' = k
        · subst e
          exact ⟨y.2, by simp, y2.trans (hw k' hk), y3.trans (hw k' hk)⟩
        · rw [if_neg (by omega)]
          exact ht k' (by omega))
  refine ⟨x, ?_, h2.1.1, h2.1.2, h2.2⟩
  unfold blockedQr
  simp only [decide_true, assertM, if_true, except_bind_ok]
  exact h1

/-- Multiplication with the reflectors returns. -/
theorem leftMulBlocked_total (hf : o.Fits False) (hT : o.Total False Q) (hQ : LrOps.ShapeOnly Q)
    {fuel p q n : Nat} (hfu : 1 ≤ fuel) (hp : q ≤ p) (hn : q ≤ n) {h w w' : Nat → Nat}
    {Y T C : Nat → Nat → Mat R} (hY : GridOk Q p q h w Y) (dY : DiagDense q Y) (hw : ∀ k < q, w k = h k)
    (hTk : ∀ k < q, ∃ t, T k 0 = .dense t ∧ t.rows = h k ∧ t.cols = h k) (hC : GridOk Q p n h w' C)
    (trans : Bool) :
    ∃ D, leftMulBlocked o fuel p q Y q 1 T p n C trans = .ok D ∧ GridOk Q p n h w' D := by
  have step : ∀ k < q, ∀ C, GridOk Q p n h w' C →
      ∃ D, leftMulBlockedStep o fuel p q Y q 1 T p n trans k C = .ok D ∧ GridOk Q p n h w' D := by
    intro k hk C hC
    unfold leftMulBlockedStep
    refine loop_ok (I := fun _ C => GridOk Q p n h w' C) hC ?_
    intro u hu C hC
    obtain ⟨t, t1, t2, t3⟩ := hTk k hk
    obtain ⟨c, c1, c2⟩ := applyBlockCol_total hf hT hQ hfu (show k < p by omega)
      (Y := fun i => Y i k) (fun i _ hi => by
        have := hY i hi k hk
        rwa [hw k hk] at this) (dY k hk) t2 t3
      (fun i hi => hC i hi (k + u) (by omega)) (trans := trans)
    refine ⟨putCol C (k + u) c, ?_, ?_⟩
    · rw [decide_eq_true rfl, decide_eq_true (show k + u < n by omega)]
      simp only [assertM, if_true, except_bind_ok, blockAt, hk, Nat.zero_lt_one, decide_true, t1]
      rw [c1, except_bind_ok]
    · intro i hi j hj
      unfold putCol
      split
      · rename_i e
        rw [e]
        exact (c2 i hi).1
      · exact hC i hi j hj
  unfold leftMulBlocked
  split
  · rename_i e
    subst e
    exact loop_ok (I := fun _ C => GridOk Q p n h w' C) hC (fun u hu C hC => step u hu C hC)
  · rename_i e
    exact loop_ok (I := fun _ C => GridOk Q p n h w' C) hC (fun u hu C hC => step (q - 1 - u) (by omega) C hC)

/-- `zero_lower` returns on a grid of tiles with dense diagonal blocks. -/
theorem zeroLower_total (hQ : LrOps.ShapeOnly Q) {p q : Nat} {h w : Nat → Nat} {Y : Nat → Nat → Mat R}
    (gY : GridOk Q p q h w Y) (dY : DiagDense q Y) :
    ∃ Rb, (Mat.hier p q Y).zeroLower = .ok (.hier p q Rb) ∧ GridOk Q p q h w Rb := by
  have z : ∀ i < p, ∀ j < q, ∃ X, (if j = i then (Y i j).zeroLower else if j < i then (Y i j).zeroAll
      else .ok (Y i j)) = .ok X ∧ TileOk Q (h i) (w j) X := by
    intro i hi j hj
    have g := gY i hi j hj
    by_cases e : j = i
    · subst e
      obtain ⟨d, hd⟩ := dY j hj
      rw [if_pos rfl]
      rw [hd] at g ⊢
      exact ⟨_, rfl, trivial, trivial, trivial, trivial, g.rows, g.cols⟩
    · rw [if_neg e]
      by_cases e' : j < i
      · rw [if_pos e']
        generalize Y i j = M at g
        cases M with
        | dense d => exact ⟨_, rfl, trivial, trivial, trivial, trivial, g.rows, g.cols⟩
        | lowRank l =>
          have w : l.WF := g.wf
          have sq : l.Square := g.sqr
          obtain ⟨X, x1, x2, x3, x4, x5⟩ := zeroAll_ok (.lowRank l) g.wf trivial
          refine ⟨X, x1, ?_⟩
          cases Except.ok.inj x1
          have ww : (Mat.lowRank l).WF := g.wf
          refine ⟨x2, sq, trivial, hQ l _ x2 sq rfl rfl rfl rfl g.all, g.rows, g.cols⟩
        | hier => exact g.tile.elim
        | empty => exact g.tile.elim
      · rw [if_neg e']
        exact ⟨_, rfl, g⟩
  obtain ⟨Rb, hRb⟩ := collect2_exists (m := p) (n := q) (fun i hi j hj => (z i hi j hj).imp (fun _ h => h.1))
  have gR : GridOk Q p q h w Rb := by
    intro i hi j hj
    obtain ⟨X, x1, x2⟩ := z i hi j hj
    have := collect2_ok hRb i hi j hj
    rw [x1] at this
    rw [← Except.ok.inj this]
    exact x2
  refine ⟨Rb, ?_, gR⟩
  simp only [Mat.zeroLower]
  rw [hRb, except_bind_ok]

end Mat
end Verif
