import Verif.Lemmas.QrTiles

/-!
Blocked Householder QR: applying the reflectors of one block column.
-/

set_option linter.unusedSectionVars false
set_option linter.unusedVariables false

namespace Verif
open Finset

variable {R : Type} [CommRing R]

namespace Mat

/-- A row of a block column: block and row inside the block. -/
abbrev Ix := (_ : Nat) × Nat

/-- The rows of the blocks `k..p-1` with heights `h`. -/
def rowsFrom (k p : Nat) (h : Nat → Nat) : Finset Ix := (Finset.Ico k p).sigma (fun i => range (h i))

theorem mem_rowsFrom {k p : Nat} {h : Nat → Nat} {x : Ix} :
    x ∈ rowsFrom k p h ↔ (k ≤ x.1 ∧ x.1 < p) ∧ x.2 < h x.1 := by
  simp [rowsFrom]

/-- Column `y` of a block column. -/
def colv (c : Nat → Mat R) (y : Nat) (x : Ix) : R := (c x.1).entry x.2 y

/-- Householder vectors of block column `k`: unit lower triangle of block `k`, the
other blocks as they are. -/
def refv (k : Nat) (Y : Nat → Mat R) (x : Ix) (a : Nat) : R :=
  if x.1 = k then (Y k).triEntry .lower true x.2 a else (Y x.1).entry x.2 a

variable [DecidableEq R] {o : LrOps R}

/-- What one application of a block column of reflectors does. -/
structure ApplyPost (ex : Prop) (p : Nat) (Y : Nat → Mat R) (t : Dense R) (k : Nat) (trans : Bool)
    (col col' : Nat → Mat R) : Prop where
  lt : k < p
  diag : ∃ y, Y k = .dense y ∧ y.rows = y.cols ∧ y.rows = (col k).nRows
  trows : t.rows = (col k).nRows
  tcols : t.cols = (col k).nRows
  tile : (col k).IsTile
  dims : ∀ i, k < i → i < p → (Y i).nRows = (col i).nRows ∧ (Y i).nCols = (col k).nRows ∧
    (col i).nCols = (col k).nCols
  good : ∀ i, k ≤ i → i < p → Good ex (col' i) ∧ (col i).SameShape (col' i)
  other : ∀ i, ¬ (k ≤ i ∧ i < p) → col' i = col i
  orth : o.LeftOrth → ∀ i, k < i → i < p → (Y i).IsTile → ∀ c, col' i = .lowRank c → c.LeftOrth
  ent : ∀ y < (col k).nCols, ∀ x ∈ rowsFrom k p (fun i => (col i).nRows),
    colv col' y x = refl (rowsFrom k p (fun i => (col i).nRows)) (col k).nRows (refv k Y)
      (opFun trans (t.tri .upper false)) (colv col y) x

theorem sum_rowsFrom {k p : Nat} (hk : k < p) (h : Nat → Nat) (f : Ix → R) :
    ∑ x ∈ rowsFrom k p h, f x = ∑ l ∈ range (h k), f ⟨k, l⟩ +
      ∑ u ∈ range (p - (k + 1)), ∑ l ∈ range (h (k + 1 + u)), f ⟨k + 1 + u, l⟩ := by
  unfold rowsFrom
  rw [Finset.sum_sigma, Finset.sum_Ico_eq_sum_range, show p - k = (p - (k + 1)) + 1 by omega,
    Finset.sum_range_succ', add_comm]
  congr 1
  exact Finset.sum_congr rfl (fun u _ => by rw [show k + (u + 1) = k + 1 + u by omega])

theorem applyBlockCol_ok (hf : o.Fits False) {ex : Prop} (hex : ex → o.Exact False) {fuel p k : Nat}
    {Y col col' : Nat → Mat R} {t : Dense R} {trans : Bool}
    (hY : ∀ i, k ≤ i → i < p → (Y i).WF) (hcol : ∀ i, k ≤ i → i < p → Good ex (col i))
    (h : applyBlockCol o fuel p Y (.dense t) k trans col = .ok col') :
    ApplyPost (o := o) ex p Y t k trans col col' := by
  simp only [applyBlockCol, except_bind_eq_ok, assertM_eq_ok, decide_eq_true_eq] at h
  obtain ⟨Yt, hYt, _, hkp, C1, hC1, C2, hC2, C3, hC3, C0, hC0, n, hn, ak, hak, rest, hrest, h⟩ := h
  cases Except.ok.inj h
  have gk := hcol k (le_refl _) hkp
  obtain ⟨⟨y, hy⟩, htile⟩ := trmm_trans_inv hC1
  rw [hy] at hC1 hC0
  obtain ⟨ysq, yrows, g1, s1, e1⟩ := trmm_tile gk htile hC1
  -- the transposed blocks
  have ht : ∀ u, k + 1 + u < p → (Yt (u + 1)).WF ∧ (Yt (u + 1)).nRows = (Y (k + 1 + u)).nCols ∧
      (Yt (u + 1)).nCols = (Y (k + 1 + u)).nRows ∧
      ∀ i < (Y (k + 1 + u)).nRows, ∀ j < (Y (k + 1 + u)).nCols,
        (Yt (u + 1)).entry j i = (Y (k + 1 + u)).entry i j := by
    intro u hu
    have h1 := collect_ok hYt (u + 1) (by omega)
    rw [show u + 1 + k = k + 1 + u by omega] at h1
    obtain ⟨a, b, c, -, d⟩ := transpose_spec (hY _ (by omega) hu) h1
    exact ⟨a, b, c, d⟩
  -- the loop
  have key := loop_inv (Inv := fun u C => Good ex C ∧ (col k).SameShape C ∧
      (∀ u' < u, (Y (k + 1 + u')).nRows = (col (k + 1 + u')).nRows ∧
        (Y (k + 1 + u')).nCols = (col k).nRows ∧ (col (k + 1 + u')).nCols = (col k).nCols) ∧
      ∀ a < (col k).nRows, ∀ j < (col k).nCols, C.entry a j = C1.entry a j +
        ∑ u' ∈ range u, ∑ l ∈ range (col (k + 1 + u')).nRows,
          (Y (k + 1 + u')).entry l a * (col (k + 1 + u')).entry l j)
    ⟨g1, s1, by intro u' hu'; omega, by intro a _ j _; simp⟩ (by
      intro u hu C C' ⟨gC, sC, dC, eC⟩ hg
      obtain ⟨tw, tr, tc, te⟩ := ht u (by omega)
      obtain ⟨d1, d2, d3, gC', sC', eC'⟩ := gemm_good hf hex tw
        (hcol (k + 1 + u) (by omega) (by omega)).wf gC (TransSafe_ff _ _) hg
      have dC0 := sC.dims gk.wf
      simp only [opRows, opCols] at d1 d2
      refine ⟨gC', sC.trans sC', ?_, ?_⟩
      · intro u' hu'
        rcases Nat.lt_succ_iff_lt_or_eq.1 hu' with hlt | rfl
        · exact dC u' hlt
        · refine ⟨?_, ?_, ?_⟩
          · rw [← tc]; exact d2
          · rw [← tr, ← dC0.1]; exact d1
          · rw [← dC0.2]; exact d3
      · intro a ha j hj
        rw [eC' a (by rw [dC0.1]; exact ha) j (by rw [dC0.2]; exact hj), one_mul, one_mul, eC a ha j hj,
          Finset.sum_range_succ, add_comm, add_assoc]
        congr 2
        refine Finset.sum_congr rfl (fun l hl => ?_)
        have hl := Finset.mem_range.1 hl
        simp only [opEntry, Bool.false_eq_true, if_false]
        rw [te l (by rw [← tc]; exact lt_of_lt_of_eq hl d2.symm) a (by
          rw [← tr]; rw [show (Yt (u + 1)).nRows = C.nRows from d1, dC0.1]; exact ha)]) hC2
  obtain ⟨g2, s2, d2, e2⟩ := key
  have tile2 : C2.IsTile := htile.of_shape s2
  have dd2 := s2.dims gk.wf
  obtain ⟨tsq, trows, g3, s3, e3⟩ := trmm_tile g2 tile2 hC3
  have s23 := s2.trans s3
  have dd3 := s23.dims gk.wf
  obtain ⟨_, _, g0, s0, e0⟩ := trmm_tile g3 (tile2.of_shape s3) hC0
  have s230 := s23.trans s0
  have dd0 := s230.dims gk.wf
  rw [getNRows_eq C0 g0.wf] at hn
  cases Except.ok.inj hn
  obtain ⟨_, _, _, gak, sak, eak⟩ := gemm_good hf hex (by trivial) g0.wf gk (TransSafe_ff _ _) hak
  have dall : ∀ i, k < i → i < p → (Y i).nRows = (col i).nRows ∧ (Y i).nCols = (col k).nRows ∧
      (col i).nCols = (col k).nCols := by
    intro i h1 h2
    have := d2 (i - (k + 1)) (by omega)
    rwa [show k + 1 + (i - (k + 1)) = i by omega] at this
  have hr : ∀ i, k < i → i < p → Good ex (rest (i - (k + 1))) ∧ (col i).SameShape (rest (i - (k + 1))) ∧
      ∀ l < (col i).nRows, ∀ j < (col k).nCols, (rest (i - (k + 1))).entry l j =
        (col i).entry l j - ∑ a ∈ range (col k).nRows, (Y i).entry l a * C3.entry a j := by
    intro i h1 h2
    have hg := collect_ok hrest (i - (k + 1)) (by omega)
    simp only [show k + 1 + (i - (k + 1)) = i by omega] at hg
    obtain ⟨_, _, _, a, b, c⟩ := gemm_good hf hex (hY i (by omega) h2) g3.wf (hcol i (by omega) h2)
      (TransSafe_ff _ _) hg
    refine ⟨a, b, fun l hl j hj => ?_⟩
    rw [c l hl j (by rw [(dall i h1 h2).2.2]; exact hj), dd3.1]
    simp only [opEntry]
    rw [one_mul, neg_mul, one_mul, neg_add_eq_sub]
    rfl
  have hw3 : ∀ a < (col k).nRows, ∀ j < (col k).nCols, C3.entry a j =
      ∑ b ∈ range (col k).nRows, opFun trans (t.tri .upper false) a b *
        ∑ x ∈ rowsFrom k p (fun i => (col i).nRows), refv k Y x b * colv col j x := by
    intro a ha j hj
    rw [e3 a (by rw [dd2.1]; exact ha) j (by rw [dd2.2]; exact hj), trows, dd2.1]
    refine Finset.sum_congr rfl (fun b hb => ?_)
    have hb := Finset.mem_range.1 hb
    congr 1
    rw [e2 b hb j hj, e1 b hb j hj, sum_rowsFrom hkp]
    congr 1
    · rw [yrows]
      exact Finset.sum_congr rfl (fun l _ => by
        simp only [refv, colv, if_true, hy, triEntry_dense]; rfl)
    · refine Finset.sum_congr rfl (fun u _ => Finset.sum_congr rfl (fun l _ => ?_))
      simp only [refv, colv, if_neg (show k + 1 + u ≠ k by omega)]
  refine ⟨hkp, ⟨y, hy, ysq, yrows⟩, trows.trans dd2.1, (tsq.symm.trans trows).trans dd2.1, htile, dall,
    ?_, ?_, ?_, ?_⟩
  · intro i h1 h2
    by_cases hik : i = k
    · subst hik
      simp only [if_true]
      exact ⟨gak, sak⟩
    · simp only [if_neg hik, if_pos (show k < i ∧ i < p by omega)]
      exact ⟨(hr i (by omega) h2).1, (hr i (by omega) h2).2.1⟩
  · intro i hi
    show (if i = k then ak else if k < i ∧ i < p then rest (i - (k + 1)) else col i) = col i
    rw [if_neg (by omega), if_neg (by omega)]
  · intro ho i h1 h2 hti c hc
    simp only [if_neg (show i ≠ k by omega), if_pos (show k < i ∧ i < p by omega)] at hc
    have hg := collect_ok hrest (i - (k + 1)) (by omega)
    simp only [show k + 1 + (i - (k + 1)) = i by omega] at hg
    rw [hc] at hg
    have sh := (hr i h1 h2).2.1
    rw [hc] at sh
    generalize hci : col i = ci at sh hg
    cases ci with
    | dense => exact sh.elim
    | hier => exact sh.elim
    | empty => exact sh.elim
    | lowRank l =>
      obtain ⟨c', hc', h'⟩ := gemm_leftOrth ho hti (tile2.of_shape s3) hg
      cases hc'
      exact h'
  · intro j hj x hx
    obtain ⟨⟨h1, h2⟩, h3⟩ := mem_rowsFrom.1 hx
    obtain ⟨i, l⟩ := x
    simp only at h1 h2 h3
    unfold refl
    by_cases hik : i = k
    · subst hik
      simp only [colv, if_true]
      rw [eak l h3 j hj, dd0.1]
      simp only [opEntry, Bool.false_eq_true, if_false]
      rw [ident_mul l j h3, e0 l (by rw [dd3.1]; exact h3) j (by rw [dd3.2]; exact hj), one_mul,
        neg_mul, one_mul, neg_add_eq_sub, yrows]
      congr 1
      refine Finset.sum_congr rfl (fun a ha => ?_)
      rw [hw3 a (Finset.mem_range.1 ha) j hj]
      congr 1
      simp only [refv, if_true, hy, triEntry_dense]
      rfl
    · simp only [colv, if_neg hik, if_pos (show k < i ∧ i < p by omega)]
      rw [(hr i (by omega) h2).2.2 l h3 j hj]
      congr 1
      refine Finset.sum_congr rfl (fun a ha => ?_)
      rw [hw3 a (Finset.mem_range.1 ha) j hj]
      congr 1
      simp only [refv, if_neg hik]

/-! ### factoring one block column -/

/-- The left factor of a tile: the identity for a dense one, `U` for a low-rank one. -/
def leftF : Mat R → Nat → Nat → R
  | .lowRank l, i, a => l.U.val i a
  | _, i, a => if i = a then 1 else 0

/-- A tile whose left factor has orthonormal columns. -/
def LeftO : Mat R → Prop
  | .dense _ => True
  | .lowRank l => l.LeftOrth
  | _ => False

theorem rightFactor_spec {M : Mat R} {D : Dense R} (hw : M.WF) (h : rightFactor M = .ok D) :
    M.IsTile ∧ D.cols = M.nCols ∧
    (∀ l < M.nRows, ∀ y, M.entry l y = ∑ a ∈ range D.rows, M.leftF l a * D.val a y) ∧
    (M.LeftO → ∀ a < D.rows, ∀ b < D.rows,
      ∑ l ∈ range M.nRows, M.leftF l a * M.leftF l b = if a = b then 1 else 0) := by
  cases M with
  | hier => cases h
  | empty => cases h
  | dense d =>
    cases Except.ok.inj h
    refine ⟨trivial, rfl, fun l hl y => ?_, fun _ a ha b _ => ?_⟩
    · simp only [leftF, ite_mul, one_mul, zero_mul, entry]
      rw [Finset.sum_ite_eq, if_pos (Finset.mem_range.2 (by exact hl))]
    · simp only [leftF, ite_mul, one_mul, zero_mul]
      rw [Finset.sum_ite_eq', if_pos (Finset.mem_range.2 (by exact ha))]
  | lowRank l =>
    obtain ⟨h1, h2, h3, h4⟩ := Dense_gemmNew_spec h
    simp only [dop, Bool.false_eq_true, if_false] at h1 h2 h3 h4
    have hw : l.WF := hw
    refine ⟨trivial, h3.trans hw.vcols, fun i _ y => ?_, fun ho a ha b hb => ?_⟩
    · simp only [leftF, entry, LowRank_entry_mm]
      rw [mm_assoc, h4, h2]
      unfold mm smul
      simp only [one_mul]
    · rw [h2, hw.srows] at ha hb
      exact ho a ha b hb

theorem updateRightFactor_spec {M M' : Mat R} {D X : Dense R} (hw : M.WF) (hs : M.Square)
    (h : rightFactor M = .ok D) (hr : X.rows = D.rows) (hc : X.cols = D.cols)
    (hu : updateRightFactor M X = .ok M') :
    M.SameShape M' ∧ M'.WF ∧ M'.Square ∧ (M.LeftO → M'.LeftO) ∧
    ∀ l < M.nRows, ∀ y, M'.entry l y = ∑ a ∈ range D.rows, M.leftF l a * X.val a y := by
  cases M with
  | hier => cases h
  | empty => cases h
  | dense d =>
    cases Except.ok.inj h
    cases Except.ok.inj hu
    refine ⟨⟨hr.symm, hc.symm⟩, trivial, trivial, fun _ => trivial, fun l hl y => ?_⟩
    simp only [leftF, ite_mul, one_mul, zero_mul, entry]
    rw [Finset.sum_ite_eq, if_pos (Finset.mem_range.2 (by exact hl))]
  | lowRank l =>
    have hw : l.WF := hw
    have hs : l.S.cols = l.rank := hs
    obtain ⟨h1, h2, h3, h4⟩ := Dense_gemmNew_spec h
    simp only [dop, Bool.false_eq_true, if_false] at h1 h2 h3 h4
    cases Except.ok.inj hu
    refine ⟨⟨rfl, rfl⟩, ⟨hw.urows, hw.ucols, hw.srows, ?_, ?_⟩, hs, fun ho => ho, fun i hi y => ?_⟩
    · show X.rows = l.S.cols
      rw [hr, h2, hw.srows, hs]
    · show X.cols = l.dim1
      rw [hc, h3, hw.vcols]
    · show ∑ b ∈ range l.S.cols, (∑ a ∈ range l.S.rows, l.U.val i a * (if a = b then 1 else 0)) *
        X.val b y = _
      simp only [leftF]
      rw [h2, hs, hw.srows]
      refine Finset.sum_congr rfl (fun b hb => ?_)
      simp only [mul_ite, mul_one, mul_zero]
      rw [Finset.sum_ite_eq' (range l.rank), if_pos hb]

/-- Row of the stacked right factors to row of the block column. -/
def stackW (j p : Nat) (r : Nat → Nat) (col : Nat → Mat R) (x : Ix) (c : Nat) : R :=
  if (locate r (p - j) c).1 = x.1 - j then (col x.1).leftF x.2 (locate r (p - j) c).2 else 0

theorem stackW_sum {j p : Nat} {r : Nat → Nat} {col : Nat → Mat R} {x : Ix} (h1 : j ≤ x.1)
    (h2 : x.1 < p) (g : Nat → R) :
    ∑ c ∈ range (psum r (p - j)), stackW j p r col x c * g c =
      ∑ a ∈ range (r (x.1 - j)), (col x.1).leftF x.2 a * g (psum r (x.1 - j) + a) := by
  rw [sum_blocks, Finset.sum_eq_single (x.1 - j)]
  · refine Finset.sum_congr rfl (fun a ha => ?_)
    unfold stackW
    rw [locate_at r (p - j) (x.1 - j) a (by omega) (Finset.mem_range.1 ha), if_pos rfl]
  · intro b hb hne
    refine Finset.sum_eq_zero (fun a ha => ?_)
    unfold stackW
    rw [locate_at r (p - j) b a (Finset.mem_range.1 hb) (Finset.mem_range.1 ha), if_neg hne, zero_mul]
  · intro h
    exact absurd (Finset.mem_range.2 (by omega)) h

theorem stackW_orth {j p : Nat} (hj : j < p) {r h : Nat → Nat} {col : Nat → Mat R}
    (ho : ∀ u < p - j, ∀ a < r u, ∀ b < r u,
      ∑ l ∈ range (h (j + u)), (col (j + u)).leftF l a * (col (j + u)).leftF l b =
        if a = b then 1 else 0) :
    ∀ c < psum r (p - j), ∀ d < psum r (p - j),
      ∑ x ∈ rowsFrom j p h, stackW j p r col x c * stackW j p r col x d = if c = d then 1 else 0 := by
  intro c hc d hd
  obtain ⟨b, hb, a, ha, rfl⟩ := exists_block r (p - j) c hc
  obtain ⟨b', hb', a', ha', rfl⟩ := exists_block r (p - j) d hd
  unfold rowsFrom
  rw [Finset.sum_sigma, Finset.sum_Ico_eq_sum_range, Finset.sum_eq_single b]
  · unfold stackW
    simp only [locate_at r (p - j) b a hb ha, locate_at r (p - j) b' a' hb' ha', Nat.add_sub_cancel_left,
      if_true]
    by_cases hbb : b' = b
    · subst hbb
      simp only [if_true]
      rw [ho b' hb a ha a' ha']
      simp
    · simp only [if_neg hbb, mul_zero, Finset.sum_const_zero]
      rw [if_neg]
      intro e
      have := locate_at r (p - j) b a hb ha
      rw [e, locate_at r (p - j) b' a' hb' ha'] at this
      exact hbb (Prod.mk.inj this).1
  · intro u _ hne
    refine Finset.sum_eq_zero (fun l _ => ?_)
    unfold stackW
    simp only [locate_at r (p - j) b a hb ha, Nat.add_sub_cancel_left, if_neg (Ne.symm hne), zero_mul]
  · intro h'
    exact absurd (Finset.mem_range.2 hb) h'

/-- What factoring block column `j` gives. -/
structure TriPost (ex : Prop) (p j : Nat) (col new : Nat → Mat R) (t : Dense R) : Prop where
  lt : j < p
  tile : ∀ i, j ≤ i → i < p → (col i).IsTile
  good : ∀ i, j ≤ i → i < p → (Good ex (col i) → Good ex (new i)) ∧ (col i).SameShape (new i) ∧
    ((col i).LeftO → (new i).LeftO)
  other : ∀ i, ¬ (j ≤ i ∧ i < p) → new i = col i
  trows : t.rows = (col j).nCols
  tcols : t.cols = (col j).nCols
  orth : (col j).nCols ≤ (col j).nRows → (∃ d, col j = .dense d) →
    (∀ i, j ≤ i → i < p → (col i).LeftO) →
    ReflOrth (rowsFrom j p (fun i => (col i).nRows)) (col j).nCols (refv j new) (t.tri .upper false) ∧
    ∀ y < (col j).nCols, ∀ x ∈ rowsFrom j p (fun i => (col i).nRows),
      refl (rowsFrom j p (fun i => (col i).nRows)) (col j).nCols (refv j new)
        (tr (t.tri .upper false)) (colv col y) x =
      if x.1 = j ∧ x.2 ≤ y then (new j).entry x.2 y else 0

theorem triangularizeCol_ok {K : QrKernels R} (hK : QrContract K) {ex : Prop} {p j : Nat}
    {col : Nat → Mat R} {x : (Nat → Mat R) × Dense R}
    (hw : ∀ i, j ≤ i → i < p → (col i).WF ∧ (col i).Square ∧ (col i).nCols = (col j).nCols)
    (h : triangularizeCol K p j col = .ok x) : TriPost ex p j col x.1 x.2 := by
  unfold triangularizeCol at h
  split at h
  case isFalse => cases h
  case isTrue hj =>
  simp only [except_bind_eq_ok] at h
  obtain ⟨Rj, hRj, D, hD, g, hg, new, hnew, h⟩ := h
  cases Except.ok.inj h
  have hR : ∀ i, j ≤ i → i < p → rightFactor (col i) = .ok (Rj (i - j)) := by
    intro i h1 h2
    have := collect_ok hRj (i - j) (by omega)
    rwa [show j + (i - j) = i by omega] at this
  have rs := fun i h1 h2 => rightFactor_spec (hw i h1 h2).1 (hR i h1 h2)
  set n := (col j).nCols with hn
  set r : Nat → Nat := fun i => (Rj i).rows with hr
  have hcols : ∀ u, u < p - j → (Rj u).cols = n := by
    intro u hu
    have := (rs (j + u) (by omega) (by omega)).2.1
    rw [Nat.add_sub_cancel_left] at this
    rw [this, (hw (j + u) (by omega) (by omega)).2.2]
  -- the stack
  obtain ⟨D', hD', Dr, Dc, De⟩ := toDense_ok (Mat.hier (p - j) 1 (fun i _ => .dense (Rj i)))
    ⟨by omega, by omega, fun i hi k hk => ⟨trivial, rfl, by
      show (Rj i).cols = (Rj 0).cols
      rw [hcols i hi, hcols 0 (by omega)]⟩⟩
  rw [hD] at hD'
  cases Except.ok.inj hD'
  have Dr' : D.rows = psum r (p - j) := by rw [Dr, nRows_hier]; rfl
  have Dc' : D.cols = n := by
    rw [Dc, nCols_hier]
    simp only [psum, Finset.sum_range_one]
    exact hcols 0 (by omega)
  have De' : ∀ u < p - j, ∀ a < r u, ∀ y < n, D.val (psum r u + a) y = (Rj u).val a y := by
    intro u hu a ha y hy
    have e1 : psum r u + a < (Mat.hier (p - j) 1 (fun i _ => Mat.dense (Rj i))).nRows := by
      rw [← Dr, Dr']
      have := psum_le r hu
      omega
    rw [De _ e1 y (by rw [← Dc, Dc']; exact hy)]
    have := entry_block (br := p - j) (bc := 1) (blk := fun i _ => Mat.dense (Rj i)) (a := u) (b := 0)
      (r := a) (s := y) hu (by omega) ha (by
        show y < (Rj 0).cols
        rw [hcols 0 (by omega)]; exact hy)
    simp only [psum, Finset.range_zero, Finset.sum_empty, Nat.zero_add] at this
    exact this
  -- the factorization
  simp only [Dense.geqrt, except_bind_eq_ok] at hg
  obtain ⟨-, -, -, -, hg⟩ := hg
  split at hg
  case isFalse => cases hg
  case isTrue hle =>
  cases Except.ok.inj hg
  simp only at hnew ⊢
  have hN : ∀ i, j ≤ i → i < p → updateRightFactor (col i) (Dense.sub
      ⟨D.rows, D.cols, (K.geqrt3 D).1⟩ (psum r (i - j)) 0 (Rj (i - j)).rows (Rj (i - j)).cols) =
      .ok (new (i - j)) := by
    intro i h1 h2
    have := collect_ok hnew (i - j) (by omega)
    simp only [except_bind_eq_ok] at this
    obtain ⟨-, -, -, -, this⟩ := this
    rwa [show j + (i - j) = i by omega] at this
  have us := fun i h1 h2 => updateRightFactor_spec (hw i h1 h2).1 (hw i h1 h2).2.1 (hR i h1 h2)
    (X := Dense.sub ⟨D.rows, D.cols, (K.geqrt3 D).1⟩ (psum r (i - j)) 0 (Rj (i - j)).rows
      (Rj (i - j)).cols) rfl rfl (hN i h1 h2)
  have newi : ∀ i, j ≤ i → i < p →
      (fun i => if j ≤ i ∧ i < p then new (i - j) else col i) i = new (i - j) := by
    intro i h1 h2
    simp only [if_pos (And.intro h1 h2)]
  refine ⟨hj, fun i h1 h2 => (rs i h1 h2).1, ?_, ?_, Dc', Dc', ?_⟩
  · intro i h1 h2
    simp only [if_pos (And.intro h1 h2)]
    obtain ⟨a, b, c, d, -⟩ := us i h1 h2
    exact ⟨fun hg => hg.of_shape b c a, a, d⟩
  · intro i hi
    show (if j ≤ i ∧ i < p then new (i - j) else col i) = col i
    rw [if_neg hi]
  · intro hsq ⟨d, hd⟩ hlo
    have hr0 : r 0 = (col j).nRows := by
      have := hR j (le_refl _) hj
      rw [hd, Nat.sub_self] at this
      rw [hd]
      exact congrArg Dense.rows (Except.ok.inj this).symm
    set Y : Nat → Mat R := fun i => if j ≤ i ∧ i < p then new (i - j) else col i with hYdef
    set V := Dense.tri ⟨D.rows, D.cols, (K.geqrt3 D).1⟩ .lower true with hV
    have hW := stackW_orth (r := r) (h := fun i => (col i).nRows) (col := col) hj (by
      intro u hu a ha b hb
      have := (rs (j + u) (by omega) (by omega)).2.2.2 (hlo _ (by omega) (by omega)) a (by
        rw [Nat.add_sub_cancel_left]; exact ha) b (by rw [Nat.add_sub_cancel_left]; exact hb)
      exact this)
    have hYV : ∀ x ∈ rowsFrom j p (fun i => (col i).nRows), ∀ a < n,
        refv j Y x a = ∑ c ∈ range (psum r (p - j)), stackW j p r col x c * V c a := by
      rintro ⟨i, l⟩ hx a ha
      obtain ⟨⟨h1, h2⟩, h3⟩ := mem_rowsFrom.1 hx
      simp only at h1 h2 h3
      rw [stackW_sum (x := ⟨i, l⟩) h1 h2]
      simp only [refv]
      have ue := (us i h1 h2).2.2.2.2 l h3
      by_cases hij : i = j
      · subst hij
        rw [if_pos rfl]
        have hYi : Y i = new (i - i) := newi i h1 h2
        rw [hYi, triEntry, ue a]
        simp only [Nat.sub_self, hd, leftF, ite_mul, one_mul, zero_mul]
        have hmem : l ∈ range (r 0) := Finset.mem_range.2 (by show l < r 0; rw [hr0]; exact h3)
        have hrr : (Rj 0).rows = r 0 := rfl
        simp only [hrr, Finset.sum_ite_eq, hmem, if_true]
        simp only [hV, Dense.tri, psum, Finset.range_zero, Finset.sum_empty, Nat.zero_add, Dense.sub, if_true]
      · rw [if_neg hij]
        have hYi : Y i = new (i - j) := newi i h1 h2
        rw [hYi, ue a]
        refine Finset.sum_congr rfl (fun b hb => ?_)
        congr 1
        have : n ≤ psum r (i - j) := by
          have := psum_mono r (show 1 ≤ i - j by omega)
          simp only [psum, Finset.sum_range_one] at this
          simp only [psum]
          omega
        simp only [hV, Dense.tri, Dense.sub, Nat.zero_add]
        rw [if_neg (by omega), if_pos (by omega)]
    have horth : Orthogonal (psum r (p - j)) (reflector n V
        (Dense.tri ⟨D.cols, D.cols, (K.geqrt3 D).2⟩ .upper false)) := by
      have := hK.geqrt_orth D hle
      rw [Dr', Dc'] at this
      rw [hV, Dr', Dc']
      exact this
    refine ⟨reflOrth_lift horth hW hYV, ?_⟩
    intro y hy x hx
    have hx' : ∀ z ∈ rowsFrom j p (fun i => (col i).nRows),
        colv col y z = ∑ c ∈ range (psum r (p - j)), stackW j p r col z c * D.val c y := by
      rintro ⟨i, l⟩ hz
      obtain ⟨⟨h1, h2⟩, h3⟩ := mem_rowsFrom.1 hz
      simp only at h1 h2 h3
      rw [stackW_sum (x := ⟨i, l⟩) h1 h2]
      simp only [colv]
      rw [(rs i h1 h2).2.2.1 l h3 y]
      refine Finset.sum_congr rfl (fun a ha => ?_)
      rw [De' (i - j) (by omega) a (Finset.mem_range.1 ha) y hy]
    rw [refl_lift hW hYV hx' x hx]
    obtain ⟨i, l⟩ := x
    obtain ⟨⟨h1, h2⟩, h3⟩ := mem_rowsFrom.1 hx
    simp only at h1 h2 h3
    have hfac : ∀ c < psum r (p - j), refl (range (psum r (p - j))) n V
        (tr (Dense.tri ⟨D.cols, D.cols, (K.geqrt3 D).2⟩ .upper false)) (fun c => D.val c y) c =
        if c ≤ y then (K.geqrt3 D).1 c y else 0 := by
      intro c hc
      rw [refl_range hc]
      have := hK.geqrt_factor D hle c (by rw [Dr']; exact hc) y (by rw [Dc']; exact hy)
      rw [Dr', Dc'] at this
      rw [hV, Dr', Dc']
      exact this
    rw [Finset.sum_congr rfl (fun c hc => by rw [hfac c (Finset.mem_range.1 hc)]),
      stackW_sum (x := ⟨i, l⟩) h1 h2]
    simp only
    by_cases hij : i = j
    · subst hij
      simp only [Nat.sub_self, psum, Finset.range_zero, Finset.sum_empty, Nat.zero_add, true_and]
      have hc : (i ≤ i ∧ i < p) := ⟨h1, h2⟩
      simp only [hc, and_self, if_true]
      have ue := (us i h1 h2).2.2.2.2 l h3 y
      rw [Nat.sub_self] at ue
      rw [ue]
      simp only [hd, leftF, ite_mul, one_mul, zero_mul]
      have hmem : l ∈ range (r 0) := Finset.mem_range.2 (by show l < r 0; rw [hr0]; exact h3)
      have hrr : (Rj 0).rows = r 0 := rfl
      simp only [hrr, Finset.sum_ite_eq, hmem, if_true]
      simp only [psum, Finset.range_zero, Finset.sum_empty, Nat.zero_add, Dense.sub]
    · rw [if_neg (by tauto)]
      refine Finset.sum_eq_zero (fun a _ => ?_)
      have : n ≤ psum r (i - j) := by
        have := psum_mono r (show 1 ≤ i - j by omega)
        simp only [psum, Finset.sum_range_one] at this
        simp only [psum]
        omega
      rw [if_neg (by omega), mul_zero]

end Mat
end Verif
