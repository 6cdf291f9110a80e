import Verif.Model.Construct
import Verif.Spec.Tree
import Verif.Spec.Mat
import Verif.Lemmas.ClusterTree
import Verif.Lemmas.Split

namespace Verif
open Finset
variable {R : Type}

namespace Mat

theorem lowRankAt_hier (br bc : Nat) (blk : Nat → Nat → Mat R) (i j : Nat) :
    (Mat.hier br bc blk).lowRankAt i j ↔
      (blk (locate (fun a => (blk a 0).nRows) br i).1
        (locate (fun b => (blk 0 b).nCols) bc j).1).lowRankAt
        (locate (fun a => (blk a 0).nRows) br i).2 (locate (fun b => (blk 0 b).nCols) bc j).2 := by
  rw [lowRankAt]

/-- A block grid with row heights `h` and column widths `w`. -/
theorem hier_grid [CommRing R] {br bc : Nat} {blk : Nat → Nat → Mat R} {h w : Nat → Nat}
    (hbr : 0 < br) (hbc : 0 < bc)
    (hd : ∀ i < br, ∀ j < bc, (blk i j).WF ∧ (blk i j).nRows = h i ∧ (blk i j).nCols = w j) :
    (Mat.hier br bc blk).WF ∧ (Mat.hier br bc blk).nRows = psum h br ∧
    (Mat.hier br bc blk).nCols = psum w bc ∧
    ∀ a < br, ∀ b < bc, ∀ r < h a, ∀ s < w b,
      (Mat.hier br bc blk).entry (psum h a + r) (psum w b + s) = (blk a b).entry r s ∧
      ((Mat.hier br bc blk).denseAt (psum h a + r) (psum w b + s) ↔ (blk a b).denseAt r s) ∧
      ((Mat.hier br bc blk).lowRankAt (psum h a + r) (psum w b + s) ↔ (blk a b).lowRankAt r s) := by
  have e1 : ∀ a < br, (fun a => (blk a 0).nRows) a = h a := fun a ha => (hd a ha 0 hbc).2.1
  have e2 : ∀ b < bc, (fun b => (blk 0 b).nCols) b = w b := fun b hb => (hd 0 hbr b hb).2.2
  refine ⟨?_, ?_, ?_, ?_⟩
  · rw [WF]
    refine ⟨hbr, hbc, fun i hi j hj => ⟨(hd i hi j hj).1, ?_, ?_⟩⟩
    · rw [(hd i hi j hj).2.1, (hd i hi 0 hbc).2.1]
    · rw [(hd i hi j hj).2.2, (hd 0 hbr j hj).2.2]
  · rw [nRows_hier]; exact psum_congr e1
  · rw [nCols_hier]; exact psum_congr e2
  · intro a ha b hb r hr s hs
    have l1 : locate (fun a => (blk a 0).nRows) br (psum h a + r) = (a, r) := by
      rw [locate_congr e1, locate_at _ _ _ _ ha hr]
    have l2 : locate (fun b => (blk 0 b).nCols) bc (psum w b + s) = (b, s) := by
      rw [locate_congr e2, locate_at _ _ _ _ hb hs]
    rw [entry_hier, denseAt_hier, lowRankAt_hier, l1, l2]
    exact ⟨rfl, Iff.rfl, Iff.rfl⟩

end Mat

/-- Offsets of the parts of an equal splitting. -/
theorem splitChild_offset {r : IndexRange} {k : Nat} (hp : IsPartition r (r.split k)) (hk : 1 ≤ k) :
    (∀ i < k, (r.splitChild k i).n = ((r.splitChild k i).n.toNat : Int) ∧
      (r.splitChild k i).start = r.start + psum (fun i => (r.splitChild k i).n.toNat) i) ∧
    r.n = psum (fun i => (r.splitChild k i).n.toNat) k := by
  have hnn := (ClusterTree.partition_splitChild hp).2.2
  have key : ∀ i < k, (r.splitChild k i).start =
      r.start + psum (fun i => (r.splitChild k i).n.toNat) i := by
    intro i
    induction i with
    | zero => intro _; simp [IndexRange.splitChild, psum]
    | succ i ih =>
      intro hi
      have h1 := IndexRange.splitChild_adjacent r k i hi
      have h2 := ih (by omega)
      have h3 := (hnn i (by omega)).1
      rw [← h1, h2, psum_succ]
      push_cast
      omega
  refine ⟨fun i hi => ⟨?_, key i hi⟩, ?_⟩
  · have := (hnn i hi).1; omega
  · have h1 := IndexRange.splitChild_last r k hk
    have h2 := key (k - 1) (by omega)
    have h3 := (hnn (k-1) (by omega)).1
    obtain ⟨m, rfl⟩ : ∃ m, k = m + 1 := ⟨k - 1, by omega⟩
    rw [psum_succ]
    simp only [Nat.add_sub_cancel] at h1 h2 h3
    push_cast at *
    omega

namespace ClusterTree
variable {K : Type} [Field K] [LinearOrder K]

theorem assign_ok {br bc : Nat} {s s' : Nat → Nat → Mat R} {i j : Nat} {b : Mat R}
    (h : assign br bc s i j b = .ok s') :
    s' i j = b ∧ ∀ i' j', (i', j') ≠ (i, j) → s' i' j' = s i' j' := by
  unfold assign at h
  split at h
  · split at h
    · cases h
      refine ⟨by simp, ?_⟩
      intro i' j' hne
      simp only
      rw [if_neg]
      rintro ⟨e1, e2⟩
      exact hne (by simp; omega)
    · cases h
  · cases h

/-- Filling by assignment at `(i,j)` in row-major order. -/
theorem fill_loop {br bc : Nat} {f : Nat → Nat → Except Err (Mat R)} {s s' : Nat → Nat → Mat R}
    (h : loop br (fun i s => loop bc (fun j s => do
      let b ← f i j
      assign br bc s i j b) s) s = .ok s') :
    ∀ i < br, ∀ j < bc, f i j = .ok (s' i j) := by
  have inner : ∀ (i : Nat) (s s' : Nat → Nat → Mat R), loop bc (fun j s => do
      let b ← f i j
      assign br bc s i j b) s = .ok s' →
      (∀ j < bc, f i j = .ok (s' i j)) ∧ ∀ i' j', i' ≠ i → s' i' j' = s i' j' := by
    intro i s s' hl
    refine loop_inv (fun n (x : Nat → Nat → Mat R) => (∀ j < n, f i j = .ok (x i j)) ∧
      ∀ i' j', i' ≠ i → x i' j' = s i' j') ?_ ?_ hl
    · exact ⟨fun j hj => by omega, fun _ _ _ => rfl⟩
    · intro j hj a b ⟨h1, h2⟩ hb
      rw [except_bind_eq_ok] at hb
      obtain ⟨x, hx, hb⟩ := hb
      obtain ⟨e1, e2⟩ := assign_ok hb
      constructor
      · intro j' hj'
        by_cases hjj : j' = j
        · subst hjj; rw [e1, hx]
        · rw [e2 _ _ (by simp; omega)]; exact h1 j' (by omega)
      · intro i' j' hi'
        rw [e2 _ _ (by simp; omega)]; exact h2 i' j' hi'
  refine loop_inv (fun n (x : Nat → Nat → Mat R) => ∀ i < n, ∀ j < bc, f i j = .ok (x i j)) ?_ ?_ h
  · intro i hi; omega
  · intro i hi a b h1 hb
    obtain ⟨e1, e2⟩ := inner i a b hb
    intro i' hi' j hj
    by_cases hii : i' = i
    · subst hii; exact e1 j hj
    · rw [e2 _ _ hii]; exact h1 i' (by omega) j hj

theorem fill_loop_exists {br bc : Nat} {f : Nat → Nat → Except Err (Mat R)}
    (h : ∀ i < br, ∀ j < bc, ∃ x, f i j = .ok x) (s : Nat → Nat → Mat R) :
    ∃ s', loop br (fun i s => loop bc (fun j s => do
      let b ← f i j
      assign br bc s i j b) s) s = .ok s' := by
  obtain ⟨s', hs, -⟩ := loop_total (n := br) (s := s) (body := fun i s => loop bc (fun j s => do
      let b ← f i j
      assign br bc s i j b) s) (fun _ _ => True) trivial (by
    intro i hi a _
    obtain ⟨b, hb, -⟩ := loop_total (n := bc) (s := a) (body := fun j s => do
      let b ← f i j
      assign br bc s i j b) (fun _ _ => True) trivial (by
        intro j hj a _
        obtain ⟨x, hx⟩ := h i hi j hj
        simp only [hx, except_bind_ok, assign]
        rw [if_pos (by omega), if_pos (by omega)]
        exact ⟨_, rfl, trivial⟩)
    exact ⟨b, hb, trivial⟩)
  exact ⟨s', hs⟩

/-- The block of one child, hierarchical.cpp:55-63. -/
def childBlock (a : Admis K) (fill : FillFn R) (compress : Dense R → Except Err (LowRank R))
    (c : ClusterTree) : Except Err (Mat R) := do
  let adm ← isAdmissible a c.info
  if adm then do
    let d ← fill c.info.rows c.info.cols
    let l ← compress d
    .ok (.lowRank l)
  else if isLeaf c.info then do
    let d ← fill c.info.rows c.info.cols
    .ok (.dense d)
  else c.toMat a fill compress

theorem except_bind_assoc {α β γ : Type _} (x : Except Err α) (f : α → Except Err β)
    (g : β → Except Err γ) : (x >>= f) >>= g = x >>= fun a => f a >>= g := by
  cases x <;> rfl

theorem loop_congr {σ : Type} (n : Nat) (f g : Nat → σ → Except Err σ) (s : σ)
    (hfg : ∀ i < n, ∀ s, f i s = g i s) : loop n f s = loop n g s := by
  induction n with
  | zero => rfl
  | succ n ih =>
    rw [loop_succ, loop_succ, ih (fun i hi => hfg i (by omega))]
    cases loop n g s with
    | error e => rfl
    | ok v => exact hfg n (by omega) v

theorem toMat_node_exists {a : Admis K} {fill : FillFn R} {compress : Dense R → Except Err (LowRank R)}
    {t : NodeInfo} {ch : Nat → Nat → ClusterTree}
    (hrel : ∀ i < t.br, ∀ j < t.bc, (ch i j).info.relRow = i ∧ (ch i j).info.relCol = j)
    (h : ∀ i < t.br, ∀ j < t.bc, ∃ b, childBlock a fill compress (ch i j) = .ok b) :
    ∃ M, toMat a fill compress (.node t ch) = .ok M := by
  obtain ⟨s', hs⟩ := fill_loop_exists h (fun _ _ => default)
  refine ⟨.hier t.br t.bc s', ?_⟩
  rw [toMat, except_bind_eq_ok]
  refine ⟨s', ?_, rfl⟩
  rw [← hs]
  apply loop_congr
  intro i hi s
  apply loop_congr
  intro j hj s
  rw [(hrel i hi j hj).1, (hrel i hi j hj).2, childBlock]

theorem toMat_node {a : Admis K} {fill : FillFn R} {compress : Dense R → Except Err (LowRank R)}
    {t : NodeInfo} {ch : Nat → Nat → ClusterTree} {M : Mat R}
    (hrel : ∀ i < t.br, ∀ j < t.bc, (ch i j).info.relRow = i ∧ (ch i j).info.relCol = j)
    (h : toMat a fill compress (.node t ch) = .ok M) :
    ∃ blk, M = .hier t.br t.bc blk ∧
      ∀ i < t.br, ∀ j < t.bc, childBlock a fill compress (ch i j) = .ok (blk i j) := by
  rw [toMat, except_bind_eq_ok] at h
  obtain ⟨blk, hb, hM⟩ := h
  refine ⟨blk, (Except.ok.inj hM).symm, ?_⟩
  apply fill_loop (s := fun _ _ => default)
  rw [← hb]
  apply loop_congr
  intro i hi s
  apply loop_congr
  intro j hj s
  rw [(hrel i hi j hj).1, (hrel i hi j hj).2, childBlock]

/-- If the constructor succeeds, no range it visited has a negative length, hence
equal splitting was valid there. -/
theorem toMat_nonneg {a : Admis K} {fill : FillFn R}
    {compress : Dense R → Except Err (LowRank R)}
    (hfill : ∀ rows cols d, fill rows cols = .ok d → 0 ≤ rows.n ∧ 0 ≤ cols.n)
    {fuel : Nat} {isRoot : Bool} {t : NodeInfo} {ch : Nat → Nat → ClusterTree} {M : Mat R}
    (h : build fuel isRoot t = .ok (.node t ch)) (hbr : 1 ≤ t.br) (hbc : 1 ≤ t.bc)
    (hM : toMat a fill compress (.node t ch) = .ok M) :
    0 ≤ t.rows.n ∧ 0 ≤ t.cols.n ∧ t.rows.SplitOk t.br ∧ t.cols.SplitOk t.bc := by
  induction fuel generalizing isRoot t ch M with
  | zero => simp [build] at h
  | succ fu ih =>
    obtain ⟨-, -, f', hf', hch⟩ := build_node h
    obtain rfl : f' = fu := by omega
    have hinfo : ∀ i < t.br, ∀ j < t.bc, (ch i j).info = childInfo t i j :=
      fun i hi j hj => build_info (hch i hi j hj)
    obtain ⟨blk, rfl, hblk⟩ := toMat_node (fun i hi j hj => by
      rw [hinfo i hi j hj]; simp [childInfo]) hM
    have key : ∀ i < t.br, ∀ j < t.bc, 0 ≤ (t.rows.splitChild t.br i).n ∧
        0 ≤ (t.cols.splitChild t.bc j).n := by
      intro i hi j hj
      have hb := hblk i hi j hj
      have hin := hinfo i hi j hj
      have hbu := hch i hi j hj
      have hrows : (childInfo t i j).rows = t.rows.splitChild t.br i := rfl
      have hcols : (childInfo t i j).cols = t.cols.splitChild t.bc j := rfl
      rw [childBlock, except_bind_eq_ok] at hb
      obtain ⟨adm, hadm, hb⟩ := hb
      rw [← hrows, ← hcols]
      cases adm with
      | true =>
        simp only [if_true, except_bind_eq_ok] at hb
        obtain ⟨d, hd, -⟩ := hb
        rw [hin] at hd
        exact hfill _ _ _ hd
      | false =>
        simp only [Bool.false_eq_true, if_false] at hb
        split at hb
        · rw [except_bind_eq_ok] at hb
          obtain ⟨d, hd, hb⟩ := hb
          rw [hin] at hd
          exact hfill _ _ _ hd
        · rename_i hnl
          cases hx : ch i j with
          | leaf s =>
            rw [hx] at hbu
            obtain ⟨rfl, -, hl⟩ := build_leaf hbu
            rw [hx] at hnl
            exact absurd hl hnl
          | node s ch' =>
            rw [hx] at hbu hb
            obtain rfl := (build_node hbu).1
            obtain ⟨g1, g2, -⟩ := ih hbu hbr hbc hb
            exact ⟨g1, g2⟩
    have fin : ∀ (r : IndexRange) (k : Nat), 1 ≤ k → (∀ i < k, 0 ≤ (r.splitChild k (i : Nat)).n) →
        0 ≤ r.n ∧ r.SplitOk k := by
      intro r k hk hn
      have h1 := hn (k - 1) (by omega)
      have h0 := hn 0 (by omega)
      have e : (((k - 1 : Nat)) : Int) = (k : Int) - 1 := by omega
      simp only [IndexRange.splitChild, e, if_true] at h1
      have hn0 : 0 ≤ r.n := by
        by_cases hk1 : k = 1
        · subst hk1
          simp at h1
          exact h1
        · have hne : ¬ (((0 : Nat) : Int) = (k : Int) - 1) := by omega
          simp only [IndexRange.splitChild, hne, if_false] at h0
          have : 0 ≤ Int.tdiv (r.n + k - 1) k * ((k : Int) - 1) := Int.mul_nonneg h0 (by omega)
          omega
      refine ⟨hn0, ?_⟩
      rw [IndexRange.splitOk_iff r k hn0 hk]
      omega
    obtain ⟨r1, r2⟩ := fin t.rows t.br hbr (fun i hi => (key i hi 0 hbc).1)
    obtain ⟨c1, c2⟩ := fin t.cols t.bc hbc (fun j hj => (key 0 hbr j hj).2)
    exact ⟨r1, c1, r2, c2⟩

theorem toMat_spec [CommRing R] {a : Admis K} {fill : FillFn R}
    {compress : Dense R → Except Err (LowRank R)}
    (hcomp : ∀ d l, compress d = .ok l → l.WF ∧ l.dim0 = d.rows ∧ l.dim1 = d.cols)
    (hfill : ∀ rows cols d, fill rows cols = .ok d → (d.rows : Int) = rows.n ∧
      (d.cols : Int) = cols.n)
    {fuel : Nat} {isRoot : Bool} {t : NodeInfo} {ch : Nat → Nat → ClusterTree} {M : Mat R}
    (h : build fuel isRoot t = .ok (.node t ch)) (hbr : 1 ≤ t.br) (hbc : 1 ≤ t.bc)
    (hM : toMat a fill compress (.node t ch) = .ok M) :
    M.WF ∧ M.NoEmpty ∧ (M.nRows : Int) = t.rows.n ∧ (M.nCols : Int) = t.cols.n ∧
    (∀ l, Mat.BlockOf (.lowRank l) M → ∃ p s d, (ClusterTree.node t ch).at? p = some s ∧
      isAdmissible a s.info = .ok true ∧ fill s.info.rows s.info.cols = .ok d ∧
      compress d = .ok l) ∧
    ∀ i < M.nRows, ∀ j < M.nCols,
      ∃ p s d, (ClusterTree.node t ch).at? p = some s ∧
        s.info.rows.Has (t.rows.start + i) ∧ s.info.cols.Has (t.cols.start + j) ∧
        fill s.info.rows s.info.cols = .ok d ∧
        ((M.denseAt i j ∧ M.entry i j = d.val (t.rows.start + i - s.info.rows.start).toNat
            (t.cols.start + j - s.info.cols.start).toNat) ∨
        (M.lowRankAt i j ∧ isAdmissible a s.info = .ok true ∧ ∃ l, compress d = .ok l ∧
          M.entry i j = l.entry (t.rows.start + i - s.info.rows.start).toNat
          (t.cols.start + j - s.info.cols.start).toNat)) := by
  induction fuel generalizing isRoot t ch M with
  | zero => simp [build] at h
  | succ fu ih =>
    obtain ⟨-, -, f', hf', hch⟩ := build_node h
    obtain rfl : f' = fu := by omega
    have hinfo : ∀ i < t.br, ∀ j < t.bc, (ch i j).info = childInfo t i j :=
      fun i hi j hj => build_info (hch i hi j hj)
    obtain ⟨blk, rfl, hblk⟩ := toMat_node (fun i hi j hj => by
      rw [hinfo i hi j hj]; simp [childInfo]) hM
    obtain ⟨hr, hc, ok1, ok2⟩ := toMat_nonneg (fun rows cols d hd => by
      obtain ⟨h1, h2⟩ := hfill rows cols d hd
      constructor <;> omega) h hbr hbc hM
    have pr := IndexRange.split_isPartition t.rows t.br hr hbr ok1
    have pc := IndexRange.split_isPartition t.cols t.bc hc hbc ok2
    obtain ⟨or1, or2⟩ := splitChild_offset pr hbr
    obtain ⟨oc1, oc2⟩ := splitChild_offset pc hbc
    generalize hH : (fun i : Nat => (t.rows.splitChild t.br i).n.toNat) = H at or1 or2
    generalize hW : (fun i : Nat => (t.cols.splitChild t.bc i).n.toNat) = W at oc1 oc2
    have eH : ∀ i, (t.rows.splitChild t.br (i : Nat)).n.toNat = H i := fun i => by rw [← hH]
    have eW : ∀ i, (t.cols.splitChild t.bc (i : Nat)).n.toNat = W i := fun i => by rw [← hW]
    simp only [eH] at or1
    simp only [eW] at oc1
    have key : ∀ i < t.br, ∀ j < t.bc, (blk i j).WF ∧ (blk i j).NoEmpty ∧ (blk i j).nRows = H i ∧
        (blk i j).nCols = W j ∧
        (∀ l, Mat.BlockOf (.lowRank l) (blk i j) → ∃ p s d, (ch i j).at? p = some s ∧
          isAdmissible a s.info = .ok true ∧ fill s.info.rows s.info.cols = .ok d ∧
          compress d = .ok l) ∧
        ∀ r < H i, ∀ c < W j,
          ∃ p s d, (ch i j).at? p = some s ∧
            s.info.rows.Has (t.rows.start + (psum H i + r : Nat)) ∧
            s.info.cols.Has (t.cols.start + (psum W j + c : Nat)) ∧
            fill s.info.rows s.info.cols = .ok d ∧
            (((blk i j).denseAt r c ∧ (blk i j).entry r c =
              d.val (t.rows.start + (psum H i + r : Nat) - s.info.rows.start).toNat
                (t.cols.start + (psum W j + c : Nat) - s.info.cols.start).toNat) ∨
            ((blk i j).lowRankAt r c ∧ isAdmissible a s.info = .ok true ∧ ∃ l, compress d = .ok l ∧
            (blk i j).entry r c =
              l.entry (t.rows.start + (psum H i + r : Nat) - s.info.rows.start).toNat
                (t.cols.start + (psum W j + c : Nat) - s.info.cols.start).toNat)) := by
      intro i hi j hj
      have hb := hblk i hi j hj
      have hin := hinfo i hi j hj
      have hrows : (childInfo t i j).rows = t.rows.splitChild t.br i := rfl
      have hcols : (childInfo t i j).cols = t.cols.splitChild t.bc j := rfl
      obtain ⟨rn, rst⟩ := or1 i hi
      obtain ⟨cn, cst⟩ := oc1 j hj
      have hbu := hch i hi j hj
      rw [childBlock, except_bind_eq_ok] at hb
      obtain ⟨adm, hadm, hb⟩ := hb
      cases adm with
      | true =>
        simp only [if_true, except_bind_eq_ok] at hb
        obtain ⟨d, hd, l, hl, hb⟩ := hb
        rw [← Except.ok.inj hb]
        obtain ⟨lwf, l0, l1⟩ := hcomp d l hl
        obtain ⟨d0, d1⟩ := hfill _ _ _ hd
        rw [hin, hrows] at d0
        rw [hin, hcols] at d1
        refine ⟨lwf, trivial, ?_, ?_, ?_, ?_⟩
        · rw [Mat.nRows]; omega
        · rw [Mat.nCols]; omega
        · intro l' hl'
          generalize hx : Mat.lowRank l = x at hl'
          cases hl' with
          | refl => cases hx; exact ⟨[], ch i j, d, by cases ch i j <;> rfl, hadm, hd, hl⟩
          | block => cases hx
        · intro r hr' c hc'
          refine ⟨[], ch i j, d, by cases ch i j <;> rfl, ?_, ?_, hd,
            Or.inr ⟨trivial, hadm, l, hl, ?_⟩⟩
          · rw [hin, hrows]; constructor <;> omega
          · rw [hin, hcols]; constructor <;> omega
          · rw [hin, hrows, hcols, rst, cst, Mat.entry]
            congr 1 <;> omega
      | false =>
        simp only [Bool.false_eq_true, if_false] at hb
        split at hb
        · rw [except_bind_eq_ok] at hb
          obtain ⟨d, hd, hb⟩ := hb
          rw [← Except.ok.inj hb]
          obtain ⟨d0, d1⟩ := hfill _ _ _ hd
          rw [hin, hrows] at d0
          rw [hin, hcols] at d1
          refine ⟨trivial, trivial, ?_, ?_, ?_, ?_⟩
          · rw [Mat.nRows]; omega
          · rw [Mat.nCols]; omega
          · intro l' hl'
            generalize hx : Mat.dense d = x at hl'
            cases hl' with
            | refl => cases hx
            | block => cases hx
          · intro r hr' c hc'
            refine ⟨[], ch i j, d, by cases ch i j <;> rfl, ?_, ?_, hd, Or.inl ⟨trivial, ?_⟩⟩
            · rw [hin, hrows]; constructor <;> omega
            · rw [hin, hcols]; constructor <;> omega
            · rw [hin, hrows, hcols, rst, cst, Mat.entry]
              congr 1 <;> omega
        · rename_i hnl
          have hcn : ∃ ch', ch i j = .node (childInfo t i j) ch' := by
            cases hx : ch i j with
            | leaf s =>
              rw [hx] at hbu
              obtain ⟨rfl, -, hl⟩ := build_leaf hbu
              rw [hx] at hnl
              exact absurd hl hnl
            | node s ch' =>
              rw [hx] at hbu
              exact ⟨ch', by rw [(build_node hbu).1]⟩
          obtain ⟨ch', hx⟩ := hcn
          rw [hx] at hbu hb
          obtain ⟨g1, g2, g3, g4, g5, g6⟩ := ih hbu hbr hbc hb
          rw [hrows] at g3 g6
          rw [hcols] at g4 g6
          have g3' : (blk i j).nRows = H i := by omega
          have g4' : (blk i j).nCols = W j := by omega
          refine ⟨g1, g2, g3', g4', by rw [hx]; exact g5, ?_⟩
          intro r hr' c hc'
          have e1 : t.rows.start + ((psum H i + r : Nat) : Int) = (t.rows.splitChild t.br i).start + (r : Nat) := by
            rw [rst]; push_cast; omega
          have e2 : t.cols.start + ((psum W j + c : Nat) : Int) = (t.cols.splitChild t.bc j).start + (c : Nat) := by
            rw [cst]; push_cast; omega
          rw [e1, e2, hx]
          exact g6 r (by omega) c (by omega)
    obtain ⟨gw, gr, gc, ge⟩ := Mat.hier_grid (h := H) (w := W) hbr hbc
      (fun i hi j hj => ⟨(key i hi j hj).1, (key i hi j hj).2.2.1, (key i hi j hj).2.2.2.1⟩)
    refine ⟨gw, ?_, by rw [gr, or2], by rw [gc, oc2], ?_, ?_⟩
    · rw [Mat.NoEmpty]; exact fun i hi j hj => (key i hi j hj).2.1
    · intro l hl
      generalize hx : Mat.hier t.br t.bc blk = x at hl
      cases hl with
      | refl => cases hx
      | block br bc blk' i j hi hj hB =>
        cases hx
        obtain ⟨p, s, d, h1, h2, h3, h4⟩ := (key i hi j hj).2.2.2.2.1 l hB
        exact ⟨(i, j) :: p, s, d, by simp [at?, hi, hj, h1], h2, h3, h4⟩
    · intro i hi j hj
      rw [gr] at hi
      rw [gc] at hj
      obtain ⟨p, hp, r, hr', rfl⟩ := Mat.exists_block _ _ _ hi
      obtain ⟨q, hq, c, hc', rfl⟩ := Mat.exists_block _ _ _ hj
      obtain ⟨e1, e2, e3⟩ := ge p hp q hq r hr' c hc'
      obtain ⟨pa, s, d, h2, h3, h4, h5, h6⟩ := (key p hp q hq).2.2.2.2.2 r hr' c hc'
      refine ⟨(p, q) :: pa, s, d, by simp [at?, hp, hq, h2], h3, h4, h5, ?_⟩
      rcases h6 with ⟨h1, h2⟩ | ⟨h1, h2, l, h3, h4⟩
      · exact Or.inl ⟨e2.2 h1, by rw [e1, h2]⟩
      · exact Or.inr ⟨e3.2 h1, h2, l, h3, by rw [e1, h4]⟩

/-- On a square tree no low-rank leaf meets the diagonal. -/
theorem toMat_diag [CommRing R] {admis : Int} (hadm0 : 0 ≤ admis) {fill : FillFn R}
    {compress : Dense R → Except Err (LowRank R)}
    (hcomp : ∀ d l, compress d = .ok l → l.WF ∧ l.dim0 = d.rows ∧ l.dim1 = d.cols)
    (hfill : ∀ rows cols d, fill rows cols = .ok d → (d.rows : Int) = rows.n ∧
      (d.cols : Int) = cols.n)
    {fuel : Nat} {isRoot : Bool} {t : NodeInfo} {ch : Nat → Nat → ClusterTree} {M : Mat R}
    (h : build fuel isRoot t = .ok (.node t ch)) (hbr : 1 ≤ t.br) (hb : t.br = t.bc)
    (hsq : t.rows = t.cols) (habs : t.absRow = t.absCol)
    (hM : toMat (Admis.position admis : Admis K) fill compress (.node t ch) = .ok M) :
    ∀ i < M.nRows, ¬ M.lowRankAt i i := by
  induction fuel generalizing isRoot t ch M with
  | zero => simp [build] at h
  | succ fu ih =>
    obtain ⟨-, -, f', hf', hch⟩ := build_node h
    obtain rfl : f' = fu := by omega
    have hinfo : ∀ i < t.br, ∀ j < t.bc, (ch i j).info = childInfo t i j :=
      fun i hi j hj => build_info (hch i hi j hj)
    have hspec := toMat_spec hcomp hfill h hbr (hb ▸ hbr) hM
    obtain ⟨blk, rfl, hblk⟩ := toMat_node (fun i hi j hj => by
      rw [hinfo i hi j hj]; simp [childInfo]) hM
    have hnn : ∀ rows cols d, fill rows cols = .ok d → 0 ≤ rows.n ∧ 0 ≤ cols.n := by
      intro rows cols d hd
      obtain ⟨h1, h2⟩ := hfill rows cols d hd
      constructor <;> omega
    obtain ⟨hr, hc, ok1, ok2⟩ := toMat_nonneg hnn h hbr (hb ▸ hbr) hM
    have hsq2 : (Mat.hier t.br t.bc blk).nRows = (Mat.hier t.br t.bc blk).nCols := by
      have h1 := hspec.2.2.1
      have h2 := hspec.2.2.2.1
      rw [hsq] at h1
      omega
    -- heights of the block rows are the widths of the block columns
    have hw := hspec.1
    rw [Mat.WF] at hw
    have dims : ∀ i < t.br, ∀ j < t.bc, (blk i j).WF ∧ ((blk i j).nRows : Int) = (t.rows.splitChild t.br i).n ∧
        ((blk i j).nCols : Int) = (t.cols.splitChild t.bc j).n := by
      intro i hi j hj
      refine ⟨(hw.2.2 i hi j hj).1, ?_⟩
      have hb' := hblk i hi j hj
      have hin := hinfo i hi j hj
      have hbu := hch i hi j hj
      rw [childBlock, except_bind_eq_ok] at hb'
      obtain ⟨adm, hadm, hb'⟩ := hb'
      cases adm with
      | true =>
        simp only [if_true, except_bind_eq_ok] at hb'
        obtain ⟨d, hd, l, hl, hb'⟩ := hb'
        rw [← Except.ok.inj hb']
        obtain ⟨lwf, l0, l1⟩ := hcomp d l hl
        obtain ⟨d0, d1⟩ := hfill _ _ _ hd
        rw [hin] at d0 d1
        rw [Mat.nRows, Mat.nCols, l0, l1, d0, d1]
        exact ⟨rfl, rfl⟩
      | false =>
        simp only [Bool.false_eq_true, if_false] at hb'
        split at hb'
        · rw [except_bind_eq_ok] at hb'
          obtain ⟨d, hd, hb'⟩ := hb'
          rw [← Except.ok.inj hb']
          obtain ⟨d0, d1⟩ := hfill _ _ _ hd
          rw [hin] at d0 d1
          rw [Mat.nRows, Mat.nCols, d0, d1]
          exact ⟨rfl, rfl⟩
        · rename_i hnl
          cases hx : ch i j with
          | leaf s =>
            rw [hx] at hbu
            obtain ⟨rfl, -, hl⟩ := build_leaf hbu
            rw [hx] at hnl
            exact absurd hl hnl
          | node s ch' =>
            rw [hx] at hbu hb'
            obtain rfl := (build_node hbu).1
            obtain ⟨-, -, g3, g4, -⟩ := toMat_spec hcomp hfill hbu hbr (hb ▸ hbr : 1 ≤ t.bc) hb'
            exact ⟨g3, g4⟩
    have hHW : ∀ i < t.br, (blk i 0).nRows = (blk 0 i).nCols := by
      intro i hi
      have h1 := (dims i hi 0 (by omega)).2.1
      have h2 := (dims 0 (by omega) i (by omega)).2.2
      rw [hsq, hb] at h1
      omega
    intro x hx
    rw [Mat.nRows_hier] at hx
    obtain ⟨p, hp, r, hr', rfl⟩ := Mat.exists_block _ _ _ hx
    have e : psum (fun i => (blk i 0).nRows) p = psum (fun i => (blk 0 i).nCols) p :=
      psum_congr (fun a ha => hHW a (by omega))
    rw [Mat.lowRankAt_hier, Mat.locate_at _ _ _ _ hp hr']
    rw [e, Mat.locate_at _ _ _ _ (hb ▸ hp) (by rw [← hHW p hp]; exact hr')]
    simp only
    have hpc : p < t.bc := hb ▸ hp
    have hb' := hblk p hp p hpc
    have hin := hinfo p hp p hpc
    have hbu := hch p hp p hpc
    have habs' : (childInfo t p p).absRow = (childInfo t p p).absCol := by
      simp [childInfo, habs, hb]
    rw [childBlock, except_bind_eq_ok] at hb'
    obtain ⟨adm, hadm, hb'⟩ := hb'
    have : adm = false := by
      rw [hin] at hadm
      simp only [isAdmissible, distToDiag, habs'] at hadm
      rw [← Except.ok.inj hadm]
      simp
      intro _ _; omega
    subst this
    simp only [Bool.false_eq_true, if_false] at hb'
    split at hb'
    · rw [except_bind_eq_ok] at hb'
      obtain ⟨d, hd, hb'⟩ := hb'
      rw [← Except.ok.inj hb']
      exact id
    · rename_i hnl
      cases hx : ch p p with
      | leaf s =>
        rw [hx] at hbu
        obtain ⟨rfl, -, hl⟩ := build_leaf hbu
        rw [hx] at hnl
        exact absurd hl hnl
      | node s ch' =>
        rw [hx] at hbu hb'
        obtain rfl := (build_node hbu).1
        have hr2 : r < (blk p p).nRows := by
          rw [(hw.2.2 p hp p hpc).2.1]; exact hr'
        refine ih hbu hbr hb ?_ habs' hb' r hr2
        simp [childInfo, hsq, hb]

/-- The constructor succeeds if filling, compressing and deciding admissibility do. -/
theorem toMat_total {a : Admis K} {fill : FillFn R}
    {compress : Dense R → Except Err (LowRank R)}
    (hcomp : ∀ d, ∃ l, compress d = .ok l) {fuel : Nat} {isRoot : Bool} {t : NodeInfo}
    {ch : Nat → Nat → ClusterTree} (h : build fuel isRoot t = .ok (.node t ch))
    (hfill : ∀ p s, (ClusterTree.node t ch).at? p = some s →
      (∃ b, isAdmissible a s.info = .ok b) ∧ ∃ d, fill s.info.rows s.info.cols = .ok d) :
    ∃ M, toMat a fill compress (.node t ch) = .ok M := by
  induction fuel generalizing isRoot t ch with
  | zero => simp [build] at h
  | succ fu ih =>
    obtain ⟨-, -, f', hf', hch⟩ := build_node h
    obtain rfl : f' = fu := by omega
    have hinfo : ∀ i < t.br, ∀ j < t.bc, (ch i j).info = childInfo t i j :=
      fun i hi j hj => build_info (hch i hi j hj)
    refine toMat_node_exists (fun i hi j hj => by rw [hinfo i hi j hj]; simp [childInfo]) ?_
    intro i hi j hj
    have hat : ∀ p s, (ch i j).at? p = some s → (ClusterTree.node t ch).at? ((i, j) :: p) = some s := by
      intro p s hp; simp [at?, hi, hj, hp]
    obtain ⟨⟨adm, hadm⟩, d, hd⟩ := hfill [(i, j)] (ch i j) (hat [] _ (by cases ch i j <;> rfl))
    rw [childBlock]
    simp only [hadm, except_bind_ok, hd]
    obtain ⟨l, hl⟩ := hcomp d
    cases adm with
    | true => simp only [if_true, hl, except_bind_ok]; exact ⟨_, rfl⟩
    | false =>
      simp only [Bool.false_eq_true, if_false]
      split
      · exact ⟨_, rfl⟩
      · rename_i hnl
        have hbu := hch i hi j hj
        cases hx : ch i j with
        | leaf s =>
          rw [hx] at hbu
          obtain ⟨rfl, -, hl⟩ := build_leaf hbu
          rw [hx] at hnl
          exact absurd hl hnl
        | node s ch' =>
          rw [hx] at hbu
          obtain rfl := (build_node hbu).1
          refine ih hbu (fun p s hp => hfill ((i, j) :: p) s (hat p s (by rw [hx]; exact hp)))

end ClusterTree
end Verif
