import Verif.Model.Mgs
import Verif.Lemmas.QrTotal
import Verif.Lemmas.TiledTotal
import Verif.Lemmas.Split
import Verif.Props.Partition

/-!
Splitting a block column and restoring it.
-/

set_option linter.unusedSectionVars false
set_option linter.unusedVariables false

namespace Verif
open Finset

variable {R : Type} [CommRing R]

namespace Mat

/-! ### cutting a dense matrix into columns -/

/-- Widths of the library's equal splitting. -/
def evenW (n k : Nat) : Nat → Nat := partSizes ((⟨0, n⟩ : IndexRange).split k)

/-- Part `b` of `D` cut into `k` block columns. -/
def cut (k : Nat) (D : Dense R) (b : Nat) : Dense R :=
  D.sub 0 (psum (evenW D.cols k) b) D.rows (evenW D.cols k b)

theorem isPartition_of_inside {n k : Nat} (hk : 0 < k)
    (h : rangesInside n ((⟨0, n⟩ : IndexRange).split k) = true) :
    IsPartition ⟨0, n⟩ ((⟨0, n⟩ : IndexRange).split k) := by
  refine IndexRange.split_isPartition _ _ (by simp) hk ?_
  rw [IndexRange.splitOk_iff _ _ (by simp) hk]
  simp only [rangesInside, List.all_eq_true, decide_eq_true_eq] at h
  have hm : (⟨0, n⟩ : IndexRange).splitChild k ((k - 1 : Nat) : Int)
      ∈ (⟨0, n⟩ : IndexRange).split k := by
    simp only [IndexRange.split, List.mem_map, List.mem_range]
    exact ⟨k - 1, by omega, rfl⟩
  have h0 := (h _ hm).2.1
  have h2 : (((k - 1 : Nat)) : Int) = (k : Int) - 1 := by omega
  simp only [IndexRange.splitChild, h2, if_true] at h0
  show Int.tdiv _ _ * _ ≤ (n : Int)
  simp only at h0 ⊢
  omega

theorem isPartition_one (n : Nat) : IsPartition ⟨0, n⟩ ((⟨0, n⟩ : IndexRange).split 1) :=
  (C01_split_partition_partial 0 n 1 (le_refl _) (Or.inr (Or.inl (by omega)))).2

/-- Cutting one block row. -/
theorem split_row {D : Dense R} {k : Nat} (hk : 0 < k) {s : Mat R} (h : split (.dense D) 1 k = .ok s) :
    IsPartition ⟨0, D.cols⟩ ((⟨0, D.cols⟩ : IndexRange).split k) ∧
      ∀ b < k, s.blocksOf 0 b = .dense (cut k D b) := by
  have h' := h
  simp only [split, splitOmm, splitDense, nRows, nCols] at h
  by_cases hin : rangesInside D.rows ((⟨0, D.rows⟩ : IndexRange).split 1) = true ∧
      rangesInside D.cols ((⟨0, D.cols⟩ : IndexRange).split k) = true
  · clear h
    have hp := isPartition_of_inside hk hin.2
    refine ⟨hp, fun b hb => ?_⟩
    have h1 := isPartition_one D.rows
    obtain ⟨blk, e1, e2⟩ := splitDense_ok (A := D) h1 hp
    simp only [split, splitOmm, nRows, nCols] at h'
    rw [e1] at h'
    rw [← Except.ok.inj h']
    have := e2 0 (by simp) b (by simp; exact hb)
    simp only [blocksOf]
    rw [this]
    have e3 : partSizes ((⟨0, D.rows⟩ : IndexRange).split 1) 0 = D.rows := partition_length_one h1 (by simp)
    rw [e3]
    simp only [psum, Finset.range_zero, Finset.sum_empty]
    rfl
  · exact absurd ((if_neg hin).symm.trans h) (by simp)

theorem split_row_total {D : Dense R} {k : Nat}
    (h : IsPartition ⟨0, D.cols⟩ ((⟨0, D.cols⟩ : IndexRange).split k)) :
    ∃ s, split (.dense D) 1 k = .ok s := by
  obtain ⟨blk, e1, -⟩ := splitDense_ok (A := D) (isPartition_one D.rows) h
  exact ⟨_, e1⟩

theorem evenW_total {n k : Nat} (h : IsPartition ⟨0, n⟩ ((⟨0, n⟩ : IndexRange).split k)) :
    psum (evenW n k) k = n := by
  have := partition_total h
  simpa [evenW] using this

/-- Putting a row of blocks together. -/
theorem row_ok {k : Nat} (hk : 0 < k) {g : Nat → Mat R} {m : Nat} (hg : ∀ b < k, (g b).WF ∧ (g b).nRows = m) :
    (Mat.hier 1 k (fun _ b => g b)).WF ∧ (Mat.hier 1 k (fun _ b => g b)).nRows = m ∧
      (Mat.hier 1 k (fun _ b => g b)).nCols = psum (fun b => (g b).nCols) k ∧
      ∀ x < m, ∀ b < k, ∀ y < (g b).nCols,
        (Mat.hier 1 k (fun _ b => g b)).entry x (psum (fun b => (g b).nCols) b + y) = (g b).entry x y := by
  refine ⟨⟨by omega, hk, fun i hi j hj => ⟨(hg j hj).1, (hg j hj).2.trans (hg 0 hk).2.symm, rfl⟩⟩, ?_, ?_, ?_⟩
  · rw [nRows_hier]
    simp only [psum, Finset.sum_range_one]
    exact (hg 0 hk).2
  · rw [nCols_hier]
  · intro x hx b hb y hy
    have := entry_block (br := 1) (bc := k) (blk := fun _ b => g b) (a := 0) (b := b) (r := x) (s := y)
      (by omega) hb (by rw [(hg 0 hk).2]; exact hx) hy
    simp only [psum, Finset.range_zero, Finset.sum_empty, Nat.zero_add] at this
    exact this

theorem row_congr {k : Nat} {g g' : Nat → Mat R} (h : ∀ b < k, g b = g' b)
    (hw : (Mat.hier 1 k (fun _ b => g' b)).WF) : (Mat.hier 1 k (fun _ b => g b)).WF := by
  obtain ⟨h1, h2, h3⟩ := hw
  refine ⟨h1, h2, fun i hi j hj => ?_⟩
  have e := h3 i hi j hj
  beta_reduce at e ⊢
  rw [h j hj, h 0 h2]
  exact e

/-! ### writing the storage -/

theorem writeRow_spec {rows cols r n : Nat} {g : Nat → Mat R} {S S' : Cells R}
    (h : writeRow rows cols r n g S = .ok S') :
    (0 < n → r < rows ∧ n ≤ cols) ∧ ∀ a b, S' a b = if a = r ∧ b < n then some (g b) else S a b := by
  unfold writeRow at h
  have key := loop_inv (fun u (S' : Cells R) => (0 < u → r < rows ∧ u ≤ cols) ∧
      ∀ a b, S' a b = if a = r ∧ b < u then some (g b) else S a b) (by
    refine ⟨fun h => absurd h (by omega), fun a b => ?_⟩
    rw [if_neg (by omega)]) (by
    intro u hu X Y ⟨i1, i2⟩ hs
    simp only [except_bind_eq_ok, assertM_eq_ok, decide_eq_true_eq] at hs
    obtain ⟨_, e1, _, e2, hs⟩ := hs
    refine ⟨fun _ => ⟨e1, by omega⟩, fun a b => ?_⟩
    rw [← Except.ok.inj hs]
    simp only
    by_cases hab : a = r ∧ b = u
    · rw [if_pos hab, if_pos (by omega), hab.2]
    · rw [if_neg hab, i2]
      by_cases hc : a = r ∧ b < u
      · rw [if_pos hc, if_pos (by omega)]
      · rw [if_neg hc, if_neg (by omega)]) h
  exact key

theorem writeRow_total {rows cols r n : Nat} {g : Nat → Mat R} {S : Cells R} (hr : r < rows) (hn : n ≤ cols) :
    ∃ S', writeRow rows cols r n g S = .ok S' := by
  obtain ⟨b, h, -⟩ := loop_ok (n := n) (f := fun j (S : Cells R) => do
    assertM (decide (r < rows))
    assertM (decide (j < cols))
    .ok (fun a b => if a = r ∧ b = j then some (g j) else S a b)) (a := S) (I := fun _ _ => True) trivial (by
      intro u hu x _
      refine ⟨fun a b => if a = r ∧ b = u then some (g u) else x a b, ?_, trivial⟩
      rw [decide_eq_true hr, decide_eq_true (show u < cols by omega)]
      simp only [assertM, if_true, except_bind_ok])
  exact ⟨b, h⟩

/-- Block rows that a block takes in the split block column. -/
def rowsOf : Mat R → Nat
  | .hier br _ _ => br
  | _ => 1

/-- Block columns that are written. -/
def widthOf (k : Nat) : Mat R → Nat
  | .hier _ bc _ => bc
  | _ => k

/-- The blocks `g` are those of `M`, cut into `k` block columns, and `q` is the left
factor that was set aside. -/
def Parts (k : Nat) (M : Mat R) (q : Dense R) (g : Nat → Nat → Mat R) : Prop :=
  match M with
  | .dense d => IsPartition ⟨0, d.cols⟩ ((⟨0, d.cols⟩ : IndexRange).split k) ∧
      ∀ b < k, g 0 b = .dense (cut k d b)
  | .lowRank l => q = l.U ∧ ∃ sv, Dense.gemmNew l.S l.V 1 false false = .ok sv ∧
      IsPartition ⟨0, sv.cols⟩ ((⟨0, sv.cols⟩ : IndexRange).split k) ∧ ∀ b < k, g 0 b = .dense (cut k sv b)
  | .hier br bc blk => ∀ a < br, ∀ b < bc, g a b = blk a b
  | .empty _ _ => False

theorem Parts.congr {k : Nat} {M : Mat R} {q : Dense R} {g g' : Nat → Nat → Mat R} (h : Parts k M q g)
    (he : ∀ a < rowsOf M, ∀ b < widthOf k M, g' a b = g a b) : Parts k M q g' := by
  cases M with
  | dense d => exact ⟨h.1, fun b hb => by rw [he 0 (by simp [rowsOf]) b hb]; exact h.2 b hb⟩
  | lowRank l =>
    obtain ⟨h1, sv, h2, h3, h4⟩ := h
    exact ⟨h1, sv, h2, h3, fun b hb => by rw [he 0 (by simp [rowsOf]) b hb]; exact h4 b hb⟩
  | hier br bc blk => exact fun a ha b hb => by rw [he a ha b hb]; exact h a ha b hb
  | empty => exact h.elim

theorem splitByColumn_spec {rows cols : Nat} (hk : 0 < cols) {M : Mat R} {S : Cells R} {r : Nat} {x}
    (hw : M.WF) (h : splitByColumn rows cols M (S, r) = .ok x) :
    x.2.2 = r + rowsOf M ∧ widthOf cols M ≤ cols ∧ ∃ g, Parts cols M x.1 g ∧
      ∀ a b, x.2.1 a b = if (r ≤ a ∧ a < r + rowsOf M) ∧ b < widthOf cols M then some (g (a - r) b) else S a b := by
  cases M with
  | empty => cases h
  | dense d =>
    simp only [splitByColumn, except_bind_eq_ok] at h
    obtain ⟨s, h1, S', h2, h⟩ := h
    cases Except.ok.inj h
    obtain ⟨p1, p2⟩ := split_row hk h1
    refine ⟨rfl, le_refl _, fun _ b => s.blocksOf 0 b, ⟨p1, p2⟩, fun a b => ?_⟩
    simp only
    rw [(writeRow_spec h2).2 a b]
    by_cases hab : a = r ∧ b < cols
    · rw [if_pos hab, if_pos (by simp only [rowsOf, widthOf]; omega)]
    · rw [if_neg hab, if_neg (by simp only [rowsOf, widthOf]; omega)]
  | lowRank l =>
    simp only [splitByColumn, makeLeftOrthogonal, except_bind_eq_ok] at h
    obtain ⟨y, ⟨sv, h0, hy⟩, s, h1, S', h2, h⟩ := h
    cases Except.ok.inj hy
    cases Except.ok.inj h
    obtain ⟨p1, p2⟩ := split_row hk h1
    refine ⟨rfl, le_refl _, fun _ b => s.blocksOf 0 b, ⟨rfl, sv, h0, p1, p2⟩, fun a b => ?_⟩
    simp only
    rw [(writeRow_spec h2).2 a b]
    by_cases hab : a = r ∧ b < cols
    · rw [if_pos hab, if_pos (by simp only [rowsOf, widthOf]; omega)]
    · rw [if_neg hab, if_neg (by simp only [rowsOf, widthOf]; omega)]
  | hier br bc blk =>
    simp only [splitByColumn, except_bind_eq_ok] at h
    obtain ⟨S', h1, h⟩ := h
    cases Except.ok.inj h
    obtain ⟨hbr, hbc, -⟩ := hw
    have key := loop_inv (fun u (S' : Cells R) => (0 < u → bc ≤ cols) ∧
        ∀ a b, S' a b = if (r ≤ a ∧ a < r + u) ∧ b < bc then some (blk (a - r) b) else S a b) (by
      refine ⟨fun h => absurd h (by omega), fun a b => ?_⟩
      rw [if_neg (by omega)]) (by
      intro u hu X Y ⟨i1, i2⟩ hs
      obtain ⟨w1, w2⟩ := writeRow_spec hs
      refine ⟨fun _ => (w1 hbc).2, fun a b => ?_⟩
      rw [w2, i2]
      by_cases hab : a = r + u ∧ b < bc
      · rw [if_pos hab, if_pos (by omega), show a - r = u by omega]
      · rw [if_neg hab]
        by_cases hc : (r ≤ a ∧ a < r + u) ∧ b < bc
        · rw [if_pos hc, if_pos (by omega)]
        · rw [if_neg hc, if_neg (by omega)]) h1
    refine ⟨rfl, key.1 hbr, blk, fun a _ b _ => rfl, fun a b => ?_⟩
    exact key.2 a b

theorem splitSize_fst (p : Nat) (A : Nat → Mat R) : (splitSize p A).1 = psum (fun i => rowsOf (A i)) p := by
  unfold splitSize
  induction p with
  | zero => rfl
  | succ p ih =>
    rw [List.range_succ, List.foldl_append, List.foldl_cons, List.foldl_nil, psum_succ, ← ih]
    generalize List.foldl (fun s i => updateSplittedSize (A i) s) (0, 1) (List.range p) = s
    cases A p <;> rfl

theorem splitSize_snd (p : Nat) (A : Nat → Mat R) :
    (∃ i < p, ∃ br bc blk, A i = .hier br bc blk ∧ (splitSize p A).2 = bc) ∨
      ((∀ i < p, ∀ br bc blk, A i ≠ .hier br bc blk) ∧ (splitSize p A).2 = 1) := by
  unfold splitSize
  induction p with
  | zero => exact Or.inr ⟨fun i hi => absurd hi (by omega), rfl⟩
  | succ p ih =>
    rw [List.range_succ, List.foldl_append, List.foldl_cons, List.foldl_nil]
    generalize List.foldl (fun s i => updateSplittedSize (A i) s) (0, 1) (List.range p) = s at ih
    by_cases hp : ∃ br bc blk, A p = .hier br bc blk
    · obtain ⟨br, bc, blk, e⟩ := hp
      refine Or.inl ⟨p, by omega, br, bc, blk, e, ?_⟩
      rw [e]
      rfl
    · have e : (updateSplittedSize (A p) s).2 = s.2 := by
        generalize A p = M at hp
        cases M with
        | hier => exact absurd ⟨_, _, _, rfl⟩ hp
        | _ => rfl
      rw [e]
      rcases ih with ⟨i, hi, r⟩ | ⟨h1, h2⟩
      · exact Or.inl ⟨i, by omega, r⟩
      · refine Or.inr ⟨fun i hi br bc blk he => ?_, h2⟩
        by_cases hip : i = p
        · subst hip
          exact hp ⟨_, _, _, he⟩
        · exact h1 i (by omega) br bc blk he

theorem splitSize_pos {p : Nat} {A : Nat → Mat R} (hw : ∀ i < p, (A i).WF) : 0 < (splitSize p A).2 := by
  rcases splitSize_snd p A with ⟨i, hi, br, bc, blk, e, h⟩ | ⟨-, h⟩
  · have := hw i hi
    rw [e] at this
    rw [h]
    exact this.2.1
  · omega

/-- The loop of `split_block_col`. -/
theorem splitLoop_spec {p rows k : Nat} {A : Nat → Mat R} (hw : ∀ i < p, (A i).WF) (hk : 0 < k)
    {x : (Cells R × Nat) × (Nat → Dense R)}
    (h1 : loop p (fun i (st : (Cells R × Nat) × (Nat → Dense R)) => do
      let y ← splitByColumn rows k (A i) st.1
      .ok (y.2, fun a => if a = i then y.1 else st.2 a))
      (((fun _ _ => none), 0), fun _ => Dense.zero 0 0) = .ok x) :
    x.1.2 = psum (fun i => rowsOf (A i)) p ∧
      (∀ i' < p, widthOf k (A i') ≤ k ∧ ∃ g, Parts k (A i') (x.2 i') g ∧
        ∀ a < rowsOf (A i'), ∀ b, x.1.1 (psum (fun i => rowsOf (A i)) i' + a) b =
          if b < widthOf k (A i') then some (g a b) else none) ∧
      ∀ a, x.1.2 ≤ a → ∀ b, x.1.1 a b = none := by
  have key := loop_inv (fun i (st : (Cells R × Nat) × (Nat → Dense R)) =>
      st.1.2 = psum (fun i => rowsOf (A i)) i ∧
      (∀ i' < i, widthOf k (A i') ≤ k ∧ ∃ g, Parts k (A i') (st.2 i') g ∧
        ∀ a < rowsOf (A i'), ∀ b, st.1.1 (psum (fun i => rowsOf (A i)) i' + a) b =
          if b < widthOf k (A i') then some (g a b) else none) ∧
      ∀ a, st.1.2 ≤ a → ∀ b, st.1.1 a b = none) (by
    exact ⟨by simp [psum], fun i' h => absurd h (by omega), fun _ _ _ => rfl⟩) (by
    intro i hi st st' ⟨i1, i2, i3⟩ hs
    simp only [except_bind_eq_ok] at hs
    obtain ⟨y, hy, hs⟩ := hs
    cases Except.ok.inj hs
    obtain ⟨s1, s2, g, s3, s4⟩ := splitByColumn_spec hk (hw i hi) hy
    refine ⟨?_, ?_, ?_⟩
    · simp only
      rw [s1, i1, psum_succ]
    · intro i' hi'
      by_cases e : i' = i
      · subst e
        simp only [if_true]
        refine ⟨s2, g, s3, fun a ha b => ?_⟩
        rw [s4, i1]
        by_cases hb : b < widthOf k (A i')
        · rw [if_pos ⟨⟨by omega, by omega⟩, hb⟩, if_pos hb, Nat.add_sub_cancel_left]
        · rw [if_neg (fun h => hb h.2), if_neg hb]
          exact i3 _ (by rw [i1]; omega) b
      · simp only [if_neg e]
        obtain ⟨j1, g', j2, j3⟩ := i2 i' (by omega)
        refine ⟨j1, g', j2, fun a ha b => ?_⟩
        rw [s4, if_neg, j3 a ha b]
        have := psum_le (fun i => rowsOf (A i)) (show i' < i by omega)
        rw [i1]
        omega
    · intro a ha b
      have ha : y.2.2 ≤ a := ha
      show y.2.1 a b = none
      rw [s1] at ha
      rw [s4, if_neg (by omega)]
      exact i3 a (by exact le_trans (by omega : st.1.2 ≤ st.1.2 + rowsOf (A i)) ha) b) h1
  exact key

/-- What `split_block_col` returns. -/
theorem splitBlockCol_spec {p : Nat} {A : Nat → Mat R} {s : SplitCol R} (hw : ∀ i < p, (A i).WF)
    (h : splitBlockCol p A = .ok s) :
    s.rows = psum (fun i => rowsOf (A i)) p ∧ s.cols = (splitSize p A).2 ∧ 0 < s.cols ∧
      ∀ i < p, widthOf s.cols (A i) = s.cols ∧
        Parts s.cols (A i) (s.left i) (fun a b => s.blk (psum (fun i => rowsOf (A i)) i + a) b) := by
  simp only [splitBlockCol, except_bind_eq_ok] at h
  obtain ⟨x, h1, blk, h2, h⟩ := h
  cases Except.ok.inj h
  have hk := splitSize_pos hw
  refine ⟨splitSize_fst p A, rfl, hk, ?_⟩
  generalize (splitSize p A).2 = k at h1 h2 hk ⊢
  have key := splitLoop_spec hw hk h1
  obtain ⟨-, k2, -⟩ := key
  intro i hi
  obtain ⟨m1, g, m2, m3⟩ := k2 i hi
  have rp : 0 < rowsOf (A i) := by
    have := hw i hi
    generalize A i = M at this
    cases M with
    | hier => exact this.1
    | _ => simp [rowsOf]
  have inb : ∀ a < rowsOf (A i), psum (fun i => rowsOf (A i)) i + a < (splitSize p A).1 := by
    intro a ha
    rw [splitSize_fst]
    have := psum_le (fun i => rowsOf (A i)) hi
    omega
  have all : ∀ a < rowsOf (A i), ∀ b < k, b < widthOf k (A i) ∧
      blk (psum (fun i => rowsOf (A i)) i + a) b = g a b := by
    intro a ha b hb
    have := collect2_ok h2 _ (inb a ha) b hb
    rw [m3 a ha b] at this
    by_cases hbw : b < widthOf k (A i)
    · rw [if_pos hbw] at this
      exact ⟨hbw, (Except.ok.inj this).symm⟩
    · rw [if_neg hbw] at this
      cases this
  have hwd : widthOf k (A i) = k := by
    by_contra hne
    have := (all 0 rp (widthOf k (A i)) (by omega)).1
    omega
  refine ⟨hwd, m2.congr (fun a ha b hb => (all a ha b (by omega)).2)⟩

/-! ### restoring -/

theorem concatColumns_next {rows cols : Nat} {S : Nat → Nat → Mat R} {M : Mat R} {q : Dense R} {r : Nat} {x}
    (h : concatColumns rows cols S M q r = .ok x) : x.2 = r + rowsOf M := by
  cases M with
  | empty => cases h
  | _ =>
    simp only [concatColumns, except_bind_eq_ok] at h
    first
    | (obtain ⟨_, _, _, _, _, _, h⟩ := h; cases Except.ok.inj h; rfl)
    | (obtain ⟨_, _, _, _, _, _, _, _, h⟩ := h; cases Except.ok.inj h; rfl)
    | (obtain ⟨_, _, _, _, h⟩ := h; cases Except.ok.inj h; rfl)

theorem restoreBlockCol_spec {p rows cols : Nat} {S : Nat → Nat → Mat R} {left : Nat → Dense R}
    {Q Q' : Nat → Mat R} (h : restoreBlockCol p rows cols S left Q = .ok Q') :
    (∀ i < p, concatColumns rows cols S (Q i) (left i) (psum (fun i => rowsOf (Q i)) i) =
      .ok (Q' i, psum (fun i => rowsOf (Q i)) (i + 1))) ∧ ∀ i, p ≤ i → Q' i = Q i := by
  simp only [restoreBlockCol, except_bind_eq_ok] at h
  obtain ⟨x, h1, h⟩ := h
  rw [← Except.ok.inj h]
  have key := loop_inv (fun i (st : (Nat → Mat R) × Nat) =>
      st.2 = psum (fun i => rowsOf (Q i)) i ∧
      (∀ i' < i, concatColumns rows cols S (Q i') (left i') (psum (fun i => rowsOf (Q i)) i') =
        .ok (st.1 i', psum (fun i => rowsOf (Q i)) (i' + 1))) ∧
      ∀ i', i ≤ i' → st.1 i' = Q i') (by
    exact ⟨by simp [psum], fun i' h => absurd h (by omega), fun _ _ => rfl⟩) (by
    intro i hi st st' ⟨i1, i2, i3⟩ hs
    simp only [except_bind_eq_ok] at hs
    obtain ⟨y, hy, hs⟩ := hs
    rw [i3 i (le_refl _)] at hy
    have hn := concatColumns_next hy
    cases Except.ok.inj hs
    refine ⟨?_, fun i' hi' => ?_, fun i' hi' => ?_⟩
    · show y.2 = _
      rw [hn, i1, psum_succ]
    · by_cases e : i' = i
      · subst e
        simp only [if_true]
        rw [← i1, hy, psum_succ, ← i1, ← hn]
      · simp only [if_neg e]
        exact i2 i' (by omega)
    · show (if i' = i then y.1 else st.1 i') = _
      rw [if_neg (by omega)]
      exact i3 i' (by omega)) h1
  exact ⟨key.2.1, key.2.2⟩

theorem concatRow_spec {rows cols : Nat} {S : Nat → Nat → Mat R} {r m : Nat} {d : Dense R} (hk : 0 < cols)
    (hS : ∀ b < cols, (S r b).WF ∧ (S r b).nRows = m) (h : concatRow rows cols S r = .ok d) :
    r < rows ∧ d.rows = m ∧ d.cols = psum (fun b => (S r b).nCols) cols ∧
      ∀ x < m, ∀ b < cols, ∀ y < (S r b).nCols,
        d.val x (psum (fun b => (S r b).nCols) b + y) = (S r b).entry x y := by
  simp only [concatRow, except_bind_eq_ok] at h
  obtain ⟨row, h1, h⟩ := h
  have hr := collect_ok h1
  have hb : ∀ b < cols, r < rows ∧ row b = S r b := by
    intro b hb
    have := hr b hb
    simp only [blockAt, except_bind_eq_ok, assertM_eq_ok, decide_eq_true_eq] at this
    obtain ⟨_, e1, _, e2, e3⟩ := this
    exact ⟨e1, (Except.ok.inj e3).symm⟩
  have hrow : ∀ b < cols, (row b).WF ∧ (row b).nRows = m := by
    intro b hb'
    rw [(hb b hb').2]
    exact hS b hb'
  obtain ⟨w1, w2, w3, w4⟩ := row_ok hk hrow
  obtain ⟨D, e, d1, d2, d3⟩ := toDense_ok _ w1
  rw [e] at h
  cases Except.ok.inj h
  have hps : ∀ b ≤ cols, psum (fun b => (row b).nCols) b = psum (fun b => (S r b).nCols) b :=
    fun b hb' => psum_congr (fun a ha => by rw [(hb a (by omega)).2])
  refine ⟨(hb 0 hk).1, d1.trans w2, (d2.trans w3).trans (hps _ (le_refl _)), ?_⟩
  intro x hx b hb' y hy
  have hy' : y < (row b).nCols := by rw [(hb b hb').2]; exact hy
  rw [d3 x (by rw [w2]; exact hx) _ (by
    rw [w3, ← hps b (by omega)]
    have := psum_le (fun b => (row b).nCols) hb'
    omega), ← hps b (by omega), w4 x hx b hb' y hy', (hb b hb').2]

theorem blockAt_in {p q i j : Nat} (A : Nat → Nat → Mat R) (hi : i < p) (hj : j < q) :
    blockAt p q A i j = .ok (A i j) := by
  simp only [blockAt, hi, hj, decide_true, assertM, if_true, except_bind_ok]

theorem concatRow_total {rows cols : Nat} {S : Nat → Nat → Mat R} {r m : Nat} (hk : 0 < cols) (hr : r < rows)
    (hS : ∀ b < cols, (S r b).WF ∧ (S r b).nRows = m) : ∃ d, concatRow rows cols S r = .ok d := by
  obtain ⟨w1, -⟩ := row_ok hk hS
  obtain ⟨row, h1⟩ := collect_exists (n := cols) (f := fun i => blockAt rows cols S r i)
    (fun i hi => ⟨S r i, blockAt_in S hr hi⟩)
  have h2 := collect_ok h1
  have hrow : ∀ b < cols, row b = S r b := fun b hb => by
    have := h2 b hb
    rw [blockAt_in S hr hb] at this
    exact (Except.ok.inj this).symm
  obtain ⟨D, e, -⟩ := toDense_ok _ (row_congr hrow w1)
  refine ⟨D, ?_⟩
  simp only [concatRow, h1, except_bind_ok, e]

/-- Entries of a cut. -/
theorem cut_entry {k : Nat} {D : Dense R} (h : IsPartition ⟨0, D.cols⟩ ((⟨0, D.cols⟩ : IndexRange).split k))
    {rows : Nat} {S : Nat → Nat → Mat R} {r : Nat} {d : Dense R} (hk : 0 < k)
    (hS : ∀ b < k, S r b = .dense (cut k D b)) (hd : concatRow rows k S r = .ok d) :
    d.rows = D.rows ∧ d.cols = D.cols ∧ ∀ x < D.rows, ∀ y < D.cols, d.val x y = D.val x y := by
  obtain ⟨-, d1, d2, d3⟩ := concatRow_spec (m := D.rows) hk (fun b hb => by
    rw [hS b hb]; exact ⟨trivial, rfl⟩) hd
  have hps : ∀ b ≤ k, psum (fun b => (S r b).nCols) b = psum (evenW D.cols k) b :=
    fun b hb' => psum_congr (fun a ha => by rw [hS a (by omega)]; rfl)
  refine ⟨d1, by rw [d2, hps k (le_refl _), evenW_total h], fun x hx y hy => ?_⟩
  obtain ⟨b, hb, y', hy', rfl⟩ := exists_block (evenW D.cols k) k y (by
    rw [evenW_total h]; exact hy)
  have e := d3 x hx b hb y' (by rw [hS b hb]; exact hy')
  rw [hps b (by omega)] at e
  rw [e, hS b hb]
  simp only [entry, cut, Dense.sub, Nat.zero_add]

/-! ### low-rank blocks -/

theorem lr_entry {l : LowRank R} (hl : l.WF) {sv : Dense R} (h : Dense.gemmNew l.S l.V 1 false false = .ok sv) :
    sv.rows = l.rank ∧ sv.cols = l.dim1 ∧
      ∀ i j, l.entry i j = ∑ a ∈ range l.rank, l.U.val i a * sv.val a j := by
  obtain ⟨h1, h2, h3, h4⟩ := Dense_gemmNew_spec h
  simp only [dop, Bool.false_eq_true, if_false] at h1 h2 h3 h4
  refine ⟨h2.trans hl.srows, h3.trans hl.vcols, fun i j => ?_⟩
  rw [LowRank.entry, h4, hl.srows]
  simp only [smul, mm, one_mul, Finset.sum_mul, Finset.mul_sum]
  rw [Finset.sum_comm]
  simp only [mul_assoc]

theorem lr_gemm_total {l : LowRank R} (hl : l.WF) : ∃ sv, Dense.gemmNew l.S l.V 1 false false = .ok sv :=
  Dense_gemmNew_total (by simp only [dop, Bool.false_eq_true, if_false]; exact hl.vrows.symm)

/-- `LowRank(q, identity, d)` with the tolerance of another matrix. -/
def lrOf (q d : Dense R) (e : R) : LowRank R :=
  { LowRank.ofFactors q (Dense.ident q.cols q.cols) d with eps := e }

theorem lrOf_entry {q d : Dense R} {e : R} (i j : Nat) :
    (lrOf q d e).entry i j = ∑ a ∈ range q.cols, q.val i a * d.val a j := by
  simp only [LowRank.entry, lrOf, LowRank.ofFactors, Dense.ident]
  refine Finset.sum_congr rfl (fun b hb => ?_)
  congr 1
  rw [Finset.sum_eq_single b]
  · simp
  · intro a _ hab
    simp [hab]
  · intro h
    exact absurd hb h

theorem lrOf_wf {q d : Dense R} {e : R} (h : q.cols = d.rows) :
    (lrOf q d e).WF ∧ (lrOf q d e).Square ∧ (lrOf q d e).dim0 = q.rows ∧ (lrOf q d e).dim1 = d.cols :=
  ⟨⟨rfl, rfl, rfl, h.symm, rfl⟩, rfl, rfl, rfl⟩

theorem rowsOf_shape {A B : Mat R} (h : A.SameShape B) : rowsOf B = rowsOf A := by
  cases A <;> cases B <;> first | rfl | exact h.elim | exact h.1.symm

end Mat
end Verif
