import Verif.Lemmas.HeapGemm
import Verif.Lemmas.GemmRec
import Verif.Lemmas.Construct

/-
The recursion of `gemm` on stored targets follows the recursion on values.
-/

namespace Verif
open Finset

variable {R : Type} [CommRing R]

namespace Tgt
open Mat

theorem split_partition {n k : Nat} (hk : 1 ≤ k)
    (h : rangesInside n ((⟨0, n⟩ : IndexRange).split k) = true) :
    IsPartition ⟨0, n⟩ ((⟨0, n⟩ : IndexRange).split k) :=
  splitOk_of_last_nonneg _ _ hk (rangesInside_nonneg h (by simp; omega))

/-- The views of a matrix along partitions of its dimensions: they are parts of the matrix, hold
the parts of its value, and what they hold later is what the matrix holds then. -/
theorem views {d : DObj} {c : Dense R} {h : Heap R} (hd : d.Ok h)
    (hc : (Tgt.dense d).Holds h (.dense c)) {rs cs : List IndexRange} {m n : Nat}
    (lr : rs.length = m) (lc : cs.length = n) (hr : 1 ≤ m) (hn : 1 ≤ n)
    (pr : IsPartition ⟨0, d.rows⟩ rs) (pc : IsPartition ⟨0, d.cols⟩ cs) :
    (Tgt.hier m n (fun i j => .dense (viewAt d rs cs i j))).Ok h ∧
    (∀ i < m, ∀ j < n, (Tgt.dense (viewAt d rs cs i j)).Holds h (.dense (c.sub
      (rangeAt rs i).start.toNat (rangeAt cs j).start.toNat (rangeAt rs i).n.toNat
      (rangeAt cs j).n.toNat))) ∧
    (∀ b k, (Tgt.hier m n (fun i j => .dense (viewAt d rs cs i j))).Cell b k → d.Cell b k) ∧
    ∀ (h' : Heap R) (hh ww : Nat → Nat) (e : Nat → Nat → Dense R), (∀ i < m, hh i = partSizes rs i) →
      (∀ j < n, ww j = partSizes cs j) →
      (∀ i < m, ∀ j < n, (Tgt.dense (viewAt d rs cs i j)).Holds h' (.dense (e i j))) →
      (Tgt.dense d).Holds h' (.dense ⟨c.rows, c.cols, joinVal m n hh ww e⟩) := by
  obtain ⟨c1, c2, c3⟩ := hc
  have sr : ∀ i < m, (rangeAt rs i).start.toNat = psum (partSizes rs) i := fun i hi => by
    rw [partition_starts pr i (by omega)]; rfl
  have sc : ∀ j < n, (rangeAt cs j).start.toNat = psum (partSizes cs) j := fun j hj => by
    rw [partition_starts pc j (by omega)]; rfl
  have tr := partition_total pr
  have tc := partition_total pc
  rw [lr] at tr
  rw [lc] at tc
  have ir : ∀ i < m, psum (partSizes rs) i + partSizes rs i ≤ d.rows := fun i hi => by
    rw [← tr]; exact psum_le _ hi
  have ic : ∀ j < n, psum (partSizes cs) j + partSizes cs j ≤ d.cols := fun j hj => by
    rw [← tc]; exact psum_le _ hj
  have lb : ∀ i < m, ∀ j < n, ∀ x y, (viewAt d rs cs i j).loc x y =
      d.loc (psum (partSizes rs) i + x) (psum (partSizes cs) j + y) := by
    intro i hi j hj x y
    unfold viewAt
    rw [DObj.loc_block hd]
    simp only [sr i hi, sc j hj]
  refine ⟨⟨hr, hn, ?_, ?_⟩, ?_, ?_, ?_⟩
  · intro i hi j hj
    refine hd.block ?_ ?_
    · simp only [sr i hi]; exact ir i hi
    · simp only [sc j hj]; exact ic j hj
  · intro i hi j hj i' hi' j' hj' hne b k h1 h2
    obtain ⟨-, x, hx, y, hy, rfl⟩ := h1
    obtain ⟨-, x', hx', y', hy', he⟩ := h2
    rw [lb i hi j hj, lb i' hi' j' hj'] at he
    change x < partSizes rs i at hx
    change x' < partSizes rs i' at hx'
    change y < partSizes cs j at hy
    change y' < partSizes cs j' at hy'
    have b1 := ic j hj
    have b2 := ic j' hj'
    obtain ⟨e1, e2⟩ := hd.loc_inj (by omega) (by omega) he
    have q1 := locate_at (partSizes rs) m i x hi hx
    have q2 := locate_at (partSizes rs) m i' x' hi' hx'
    have q3 := locate_at (partSizes cs) n j y hj hy
    have q4 := locate_at (partSizes cs) n j' y' hj' hy'
    rw [e1, q2] at q1
    rw [e2, q4] at q3
    injection q1 with u1
    injection q3 with u3
    omega
  · intro i hi j hj
    refine ⟨rfl, rfl, fun x hx y hy => ?_⟩
    change x < partSizes rs i at hx
    change y < partSizes cs j at hy
    have b1 := ir i hi
    have b2 := ic j hj
    rw [lb i hi j hj]
    simp only [Dense.sub, sr i hi, sc j hj]
    exact c3 _ (by omega) _ (by omega)
  · rintro b k ⟨i, hi, j, hj, h0, x, hx, y, hy, rfl⟩
    change x < partSizes rs i at hx
    change y < partSizes cs j at hy
    have b1 := ir i hi
    have b2 := ic j hj
    exact ⟨h0, psum (partSizes rs) i + x, by omega, psum (partSizes cs) j + y, by omega,
      lb i hi j hj x y⟩
  · intro h' hh ww e e1 e2 hH
    refine ⟨c1, c2, fun i hi j hj => ?_⟩
    rw [← tr] at hi
    rw [← tc] at hj
    obtain ⟨p, hp, x, hx, rfl⟩ := exists_block _ _ _ hi
    obtain ⟨q, hq, y, hy, rfl⟩ := exists_block _ _ _ hj
    simp only [joinVal, locate_congr e1, locate_congr e2, locate_at _ m p x hp hx,
      locate_at _ n q y hq hy]
    have := (hH p hp q hq).2.2 x hx y hy
    rw [lb p hp q hq] at this
    exact this

/-- Splitting a stored matrix and its value. -/
theorem sim_split {d : DObj} {c : Dense R} {h : Heap R} (hd : d.Ok h)
    (hc : (Tgt.dense d).Holds h (.dense c)) {nr nc : Nat} (hr : 1 ≤ nr) (hn : 1 ≤ nc) :
    Both (fun (CH : Mat R) (T : Tgt) => T.Ok h ∧ T.Holds h CH ∧ (∀ b k, T.Cell b k → d.Cell b k) ∧
        ∀ h' CH', T.Holds h' CH' → ∃ c', joinDense c CH' = .ok (.dense c') ∧
          (Tgt.dense d).Holds h' (.dense c'))
      ((Mat.dense c).split nr nc) (ofSplit d nr nc) := by
  obtain ⟨c1, c2, c3⟩ := id hc
  simp only [Mat.split, splitOmm, splitDense, ofSplit, ofViews, Mat.nRows, Mat.nCols, c1, c2,
    IndexRange.length_split]
  by_cases hin : rangesInside d.rows ((⟨0, d.rows⟩ : IndexRange).split nr) = true ∧
      rangesInside d.cols ((⟨0, d.cols⟩ : IndexRange).split nc) = true
  swap
  · rw [if_neg hin, if_neg hin]
    exact Both.err _ _
  rw [if_pos hin, if_pos hin]
  obtain ⟨v1, v2, v3, v4⟩ := views hd hc (IndexRange.length_split (⟨0, d.rows⟩ : IndexRange) nr)
    (IndexRange.length_split (⟨0, d.cols⟩ : IndexRange) nc) hr hn (split_partition hr hin.1)
    (split_partition hn hin.2)
  refine Both.ok ⟨v1, ⟨rfl, rfl, v2⟩, v3, ?_⟩
  intro h' CH' hH
  cases CH' <;> try exact hH.elim
  rename_i m n blk
  obtain ⟨rfl, rfl, hH⟩ := hH
  have leaf : ∀ i < m, ∀ j < n, ∃ e : Dense R, blk i j = .dense e := by
    intro i hi j hj
    have := hH i hi j hj
    cases hb : blk i j <;> rw [hb] at this <;> try exact this.elim
    exact ⟨_, rfl⟩
  obtain ⟨g, hg⟩ := collect2_exists (m := m) (n := n) (f := fun i j => (blk i j).asDense)
    (fun i hi j hj => by
      obtain ⟨e, he⟩ := leaf i hi j hj
      exact ⟨e, by rw [he]; rfl⟩)
  have hgv : ∀ i < m, ∀ j < n, blk i j = .dense (g i j) := fun i hi j hj => by
    obtain ⟨e, he⟩ := leaf i hi j hj
    have := collect2_ok hg i hi j hj
    rw [he] at this ⊢
    rw [Except.ok.inj this]
  refine ⟨⟨c.rows, c.cols, joinVal m n (fun i => (blk i 0).nRows) (fun j => (blk 0 j).nCols) g⟩,
    by simp only [joinDense, hg, except_bind_ok], v4 h' _ _ g ?_ ?_ ?_⟩
  · intro i hi
    have := hH i hi 0 hn
    rw [hgv i hi 0 hn] at this ⊢
    exact this.1
  · intro j hj
    have := hH 0 hr j hj
    rw [hgv 0 hr j hj] at this ⊢
    exact this.2.1
  · intro i hi j hj
    have := hH i hi j hj
    rw [hgv i hi j hj] at this
    exact this

/-- Working on the views of a split is working on the matrix. -/
theorem sim_through {d : DObj} {c : Dense R} {h : Heap R} (hd : d.Ok h)
    (hc : (Tgt.dense d).Holds h (.dense c)) {nr nc : Nat} (hr : 1 ≤ nr) (hn : 1 ≤ nc)
    {f : Mat R → Except Err (Mat R)} {F : Tgt → Heap R → Except Err (Heap R)}
    (hf : ∀ T CH, T.Ok h → T.Holds h CH → Sim T h (f CH) (F T h)) :
    Sim (.dense d) h (do
      let CH ← (Mat.dense c).split nr nc
      let CH' ← f CH
      joinDense c CH') (do
      let T ← ofSplit d nr nc
      F T h) := by
  refine (sim_split hd hc hr hn).bind (fun CH T _ _ ⟨t1, t2, t3, t4⟩ => ?_)
  refine (hf T CH t1 t2).then_ok (fun CH' h' hA => ?_)
  obtain ⟨c', e1, e2⟩ := t4 h' CH' hA.1
  exact ⟨_, e1, e2, hA.2.mono t3⟩

/-- A product on the heap that does what the product of values does. -/
def GemmSim (g : GemmT R) (G : GemmH R) : Prop :=
  ∀ (A B : Mat R) (T : Tgt) (c : Mat R) (α β : R) (ta tb : Bool) (h : Heap R), A.WF → B.WF →
    T.Ok h → T.Holds h c → Sim T h (g A B c α β ta tb) (G A B T α β ta tb h)

omit [CommRing R] in
theorem wf_opBlk {t : Bool} {p q : Nat} {A : Nat → Nat → Mat R} (h : (Mat.hier p q A).WF)
    {i k : Nat} (hi : i < opDim0 t p q) (hk : k < opDim1 t p q) : (opBlk t A i k).WF := by
  cases t
  · exact (h.2.2 i hi k hk).1
  · exact (h.2.2 k hk i hi).1

omit [CommRing R] in
theorem wf_vecAt {p q : Nat} {A : Nat → Nat → Mat R} (h : (Mat.hier p q A).WF) {k : Nat} {x : Mat R}
    (e : Mat.vecAt p q A k = .ok x) : x.WF := by
  simp only [Mat.vecAt, except_bind_eq_ok, assertM_eq_ok, decide_eq_true_eq] at e
  simp only [WF] at h
  obtain ⟨-, h0, -, h1, e⟩ := e
  have e := Except.ok.inj e
  by_cases hp : p = 1
  · subst hp
    simp at e h1
    subst e
    exact (h.2.2 0 (by omega) k h1).1
  · simp [hp] at e h1 h0
    subst e
    exact (h.2.2 k h1 0 (by omega)).1

theorem wf_split {a : Dense R} {nr nc : Nat} (hr : 1 ≤ nr) (hc : 1 ≤ nc) {M : Mat R}
    (h : (Mat.dense a).split nr nc = .ok M) : M.WF := by
  obtain ⟨b, rfl, hw, -⟩ := split_dense_leaves hr hc h
  exact hw

omit [CommRing R] in
theorem opDim_pos {t : Bool} {p q : Nat} {A : Nat → Nat → Mat R} (h : (Mat.hier p q A).WF) :
    1 ≤ opDim0 t p q ∧ 1 ≤ opDim1 t p q := by
  have h1 := h.1
  have h2 := h.2.1
  cases t
  · exact ⟨h1, h2⟩
  · exact ⟨h2, h1⟩

/-- Products accumulated in one target. -/
theorem sim_accumulate {T : Tgt} {c : Mat R} {h : Heap R} (hT : T.Ok h) (hc : T.Holds h c) {n : Nat}
    {f : Nat → Mat R → Except Err (Mat R)} {F : Nat → Heap R → Except Err (Heap R)}
    (hf : ∀ k < n, ∀ c' h', T.Ok h' → T.Holds h' c' → Sim T h' (f k c') (F k h')) :
    Sim T h (loop n f c) (loop n F h) := by
  refine loop_loop (P := fun _ c' h' => T.After h c' h') ⟨hc, Heap.Same.refl _ _⟩ ?_
  intro k hk c' h' hA
  exact (hf k hk c' h' (hT.same hA.2) hA.1).mono (fun c2 h2 hB => ⟨hB.1, hA.2.trans hB.2⟩)

section
variable {g : GemmT R} {G : GemmH R} (hg : GemmSim g G)
include hg

theorem sim_toDense {A B : Mat R} (hA : A.WF) (hB : B.WF) {d : DObj} {c : Dense R} {h : Heap R}
    (hd : d.Ok h) (hc : (Tgt.dense d).Holds h (.dense c)) (α β : R) (ta tb : Bool) :
    Sim (.dense d) h (Mat.gemmToDense g A B c α β ta tb) (gemmToDense G A B d α β ta tb h) := by
  have right : ∀ (A : Mat R) (r s : Nat) (B : Nat → Nat → Mat R), A.WF → (Mat.hier r s B).WF →
      Sim (.dense d) h
        (if r = 1 ∧ s = 1 then g A (B 0 0) (.dense c) α β ta tb
          else do
            let CH ← (Mat.dense c).split 1 (opDim1 tb r s)
            let CH' ← g A (.hier r s B) CH α β ta tb
            joinDense c CH')
        (if r = 1 ∧ s = 1 then G A (B 0 0) (.dense d) α β ta tb h
          else do
            let CH ← ofSplit d 1 (opDim1 tb r s)
            G A (.hier r s B) CH α β ta tb h) := by
    intro A r s B hA hB
    split
    · exact hg _ _ _ _ _ _ _ _ _ hA (hB.2.2 0 hB.1 0 hB.2.1).1 hd hc
    · exact sim_through hd hc (le_refl _) (opDim_pos hB).2
        (f := fun CH => g A (.hier r s B) CH α β ta tb)
        (F := fun T h => G A (.hier r s B) T α β ta tb h)
        (fun T CH t1 t2 => hg _ _ _ _ _ _ _ _ _ hA hB t1 t2)
  have left : ∀ (p q : Nat) (A : Nat → Nat → Mat R) (B : Mat R), (Mat.hier p q A).WF → B.WF →
      Sim (.dense d) h
        (if p = 1 ∧ q = 1 then g (A 0 0) B (.dense c) α β ta tb
          else do
            let CH ← (Mat.dense c).split (opDim0 ta p q) 1
            let CH' ← g (.hier p q A) B CH α β ta tb
            joinDense c CH')
        (if p = 1 ∧ q = 1 then G (A 0 0) B (.dense d) α β ta tb h
          else do
            let CH ← ofSplit d (opDim0 ta p q) 1
            G (.hier p q A) B CH α β ta tb h) := by
    intro p q A B hA hB
    split
    · exact hg _ _ _ _ _ _ _ _ _ (hA.2.2 0 hA.1 0 hA.2.1).1 hB hd hc
    · exact sim_through hd hc (opDim_pos hA).1 (le_refl _)
        (f := fun CH => g (.hier p q A) B CH α β ta tb)
        (F := fun T h => G (.hier p q A) B T α β ta tb h)
        (fun T CH t1 t2 => hg _ _ _ _ _ _ _ _ _ hA hB t1 t2)
  cases A with
  | dense a =>
    cases B with
    | dense b => exact sim_update hd hc (local_gemm a b α β ta tb)
    | lowRank b => exact sim_update hd hc (local_bind _ (fun x => local_bind _ (fun y => local_gemm _ _ _ _ _ _)))
    | hier r s B => exact right _ r s B hA hB
    | empty => exact Both.err _ _
  | lowRank a =>
    cases B with
    | dense b => exact sim_update hd hc (local_bind _ (fun x => local_bind _ (fun y => local_gemm _ _ _ _ _ _)))
    | lowRank b => exact sim_update hd hc (local_bind _ (fun x => local_bind _ (fun y =>
        local_bind _ (fun z => local_bind _ (fun w => local_gemm _ _ _ _ _ _)))))
    | hier r s B => exact right _ r s B hA hB
    | empty => exact Both.err _ _
  | hier p q A =>
    cases B with
    | dense b => exact left p q A _ hA hB
    | lowRank b => exact left p q A _ hA hB
    | hier r s B =>
      simp only [Mat.gemmToDense, gemmToDense, Mat.gemmHHD, gemmHHD]
      refine Both.assert (fun _ => ?_)
      split
      · exact sim_accumulate (T := .dense d) hd hc (fun k hk c' h' t1 t2 =>
          Both.bind_same _ (fun a ha => Both.bind_same _ (fun b hb =>
            hg _ _ _ _ _ _ _ _ _ (wf_vecAt hA ha) (wf_vecAt hB hb) t1 t2)))
      · exact sim_through hd hc (opDim_pos hA).1 (opDim_pos hB).2
          (f := fun CH => g (.hier p q A) (.hier r s B) CH α β ta tb)
          (F := fun T h => G (.hier p q A) (.hier r s B) T α β ta tb h)
          (fun T CH t1 t2 => hg _ _ _ _ _ _ _ _ _ hA hB t1 t2)
    | empty m n => exact left p q A _ hA hB
  | empty m n =>
    cases B with
    | dense b => exact Both.err _ _
    | lowRank b => exact Both.err _ _
    | hier r s B => exact right _ r s B hA hB
    | empty => exact Both.err _ _

omit hg [CommRing R] in
theorem vecAt_row_eq {n : Nat} (C : Nat → Nat → Mat R) (j : Nat) :
    Mat.vecAt 1 n C j = (assertM (decide (j < n)) >>= fun _ => .ok (C 0 j)) := by
  simp [Mat.vecAt, assertM]

omit hg [CommRing R] in
theorem vecAt_col_eq {m : Nat} (C : Nat → Nat → Mat R) (i : Nat) :
    Mat.vecAt m 1 C i = (assertM (decide (i < m)) >>= fun _ => .ok (C i 0)) := by
  by_cases hm : m = 1
  · subst hm
    by_cases hi : i = 0
    · subst hi; simp [Mat.vecAt, assertM]
    · simp [Mat.vecAt, assertM, hi]
  · simp [Mat.vecAt, assertM, hm]

omit hg [CommRing R] in
theorem vecAt_row_eq' {n : Nat} (C : Nat → Nat → Tgt) (j : Nat) :
    vecAt 1 n C j = (assertM (decide (j < n)) >>= fun _ => .ok (C 0 j)) := by
  simp [vecAt, assertM]

omit hg [CommRing R] in
theorem vecAt_col_eq' {m : Nat} (C : Nat → Nat → Tgt) (i : Nat) :
    vecAt m 1 C i = (assertM (decide (i < m)) >>= fun _ => .ok (C i 0)) := by
  by_cases hm : m = 1
  · subst hm
    by_cases hi : i = 0
    · subst hi; simp [vecAt, assertM]
    · simp [vecAt, assertM, hi]
  · simp [vecAt, assertM, hm]

theorem sim_rowLoop {A : Mat R} {r s n : Nat} {B : Nat → Nat → Mat R} (hA : A.WF)
    (hB : (Mat.hier r s B).WF) {T : Nat → Nat → Tgt} {C : Nat → Nat → Mat R} {h : Heap R}
    (hT : (Tgt.hier 1 n T).Ok h) (hC : (Tgt.hier 1 n T).Holds h (.hier 1 n C)) (α β : R) (ta tb : Bool) :
    Sim (.hier 1 n T) h (Mat.gemmRowLoop g A r s B 1 n C α β ta tb)
      (gemmRowLoop G A r s B 1 n T α β ta tb h) := by
  have key : Both (fun (f : Nat → Mat R) h' => h.Same (Tgt.hier 1 n T).Cell h' ∧ ∀ j < n,
        (T 0 j).Holds h' (if j < opDim1 tb r s then f j else C 0 j))
      (collect (opDim1 tb r s) (fun j => do
        let b ← Mat.vecAt r s B j
        let c ← Mat.vecAt 1 n C j
        g A b c α β ta tb))
      (gemmRowLoop G A r s B 1 n T α β ta tb h) := by
    refine collect_loop (P := fun k (f : Nat → Mat R) h' => h.Same (Tgt.hier 1 n T).Cell h' ∧
      ∀ j < n, (T 0 j).Holds h' (if j < k then f j else C 0 j)) ?_ ?_
    · exact ⟨Heap.Same.refl _ _, fun j hj => by
        rw [if_neg (by omega)]; exact hC.2.2 0 (by omega) j hj⟩
    · intro k hk f h1 hP
      refine Both.bind_same _ (fun b hb => ?_)
      rw [vecAt_row_eq, vecAt_row_eq']
      rw [ClusterTree.except_bind_assoc, ClusterTree.except_bind_assoc]
      refine Both.assert (fun hkn => ?_)
      simp only [except_bind_ok]
      have hT1 := hT.same hP.1
      have hold := hP.2 k hkn
      rw [if_neg (by omega)] at hold
      refine (hg A b (T 0 k) (C 0 k) α β ta tb h1 hA (wf_vecAt hB hb) (hT1.2.2.1 0 (by omega) k hkn)
        hold).mono (fun c' h2 hQ => ⟨hP.1.trans (hQ.2.mono
          (fun b k' hc => ⟨0, by omega, k, hkn, hc⟩)), fun j hj => ?_⟩)
      by_cases hjk : j = k
      · subst hjk
        rw [if_pos (by omega)]
        simp only [if_true]
        exact hQ.1
      · have h4 := (hP.2 j hj).same (hT1.2.2.1 0 (by omega) j hj) hQ.2
          (fun b k' u v => hT1.2.2.2 0 (by omega) j hj 0 (by omega) k hkn (Or.inr hjk) b k' u v)
        by_cases hlt : j < k
        · rw [if_pos hlt] at h4
          rw [if_pos (by omega)]
          simp only [if_neg hjk]
          exact h4
        · rw [if_neg hlt] at h4
          rw [if_neg (by omega)]
          exact h4
  unfold Mat.gemmRowLoop
  refine key.then_ok (fun f h' hf => ⟨_, rfl, ⟨rfl, rfl, fun i hi j hj => ?_⟩, hf.1⟩)
  obtain rfl : i = 0 := by omega
  exact hf.2 j hj

theorem sim_colLoop {B : Mat R} {p q m : Nat} {A : Nat → Nat → Mat R} (hA : (Mat.hier p q A).WF)
    (hB : B.WF) {T : Nat → Nat → Tgt} {C : Nat → Nat → Mat R} {h : Heap R}
    (hT : (Tgt.hier m 1 T).Ok h) (hC : (Tgt.hier m 1 T).Holds h (.hier m 1 C)) (α β : R) (ta tb : Bool) :
    Sim (.hier m 1 T) h (Mat.gemmColLoop g p q A B m 1 C α β ta tb)
      (gemmColLoop G p q A B m 1 T α β ta tb h) := by
  have key : Both (fun (f : Nat → Mat R) h' => h.Same (Tgt.hier m 1 T).Cell h' ∧ ∀ i < m,
        (T i 0).Holds h' (if i < opDim0 ta p q then f i else C i 0))
      (collect (opDim0 ta p q) (fun i => do
        let a ← Mat.vecAt p q A i
        let c ← Mat.vecAt m 1 C i
        g a B c α β ta tb))
      (gemmColLoop G p q A B m 1 T α β ta tb h) := by
    refine collect_loop (P := fun k (f : Nat → Mat R) h' => h.Same (Tgt.hier m 1 T).Cell h' ∧
      ∀ i < m, (T i 0).Holds h' (if i < k then f i else C i 0)) ?_ ?_
    · exact ⟨Heap.Same.refl _ _, fun i hi => by
        rw [if_neg (by omega)]; exact hC.2.2 i hi 0 (by omega)⟩
    · intro k hk f h1 hP
      refine Both.bind_same _ (fun a ha => ?_)
      rw [vecAt_col_eq, vecAt_col_eq']
      rw [ClusterTree.except_bind_assoc, ClusterTree.except_bind_assoc]
      refine Both.assert (fun hkn => ?_)
      simp only [except_bind_ok]
      have hT1 := hT.same hP.1
      have hold := hP.2 k hkn
      rw [if_neg (by omega)] at hold
      refine (hg a B (T k 0) (C k 0) α β ta tb h1 (wf_vecAt hA ha) hB (hT1.2.2.1 k hkn 0 (by omega))
        hold).mono (fun c' h2 hQ => ⟨hP.1.trans (hQ.2.mono
          (fun b k' hc => ⟨k, hkn, 0, by omega, hc⟩)), fun i hi => ?_⟩)
      by_cases hik : i = k
      · subst hik
        rw [if_pos (by omega)]
        simp only [if_true]
        exact hQ.1
      · have h4 := (hP.2 i hi).same (hT1.2.2.1 i hi 0 (by omega)) hQ.2
          (fun b k' u v => hT1.2.2.2 i hi 0 (by omega) k hkn 0 (by omega) (Or.inl hik) b k' u v)
        by_cases hlt : i < k
        · rw [if_pos hlt] at h4
          rw [if_pos (by omega)]
          simp only [if_neg hik]
          exact h4
        · rw [if_neg hlt] at h4
          rw [if_neg (by omega)]
          exact h4
  unfold Mat.gemmColLoop
  refine key.then_ok (fun f h' hf => ⟨_, rfl, ⟨rfl, rfl, fun i hi j hj => ?_⟩, hf.1⟩)
  obtain rfl : j = 0 := by omega
  exact hf.2 i hi

theorem sim_toHier (o : LrOps R) (gn : GemmNewT R) {A B : Mat R} (hA : A.WF) (hB : B.WF) {m n : Nat}
    {T : Nat → Nat → Tgt} {C : Nat → Nat → Mat R} {h : Heap R} (hT : (Tgt.hier m n T).Ok h)
    (hC : (Tgt.hier m n T).Holds h (.hier m n C)) (α β : R) (ta tb : Bool) :
    Sim (.hier m n T) h (Mat.gemmToHier o g gn A B m n C α β ta tb)
      (gemmToHier G gn A B m n T α β ta tb h) := by
  have pm : 1 ≤ m := hT.1
  have pn : 1 ≤ n := hT.2.1
  have ifp : ∀ (t : Bool) (x y : Nat), 1 ≤ x → 1 ≤ y → 1 ≤ (if t then x else y) := by
    intro t x y hx hy
    cases t
    · exact hy
    · exact hx
  cases A with
  | dense a =>
    cases B with
    | dense b =>
      simp only [Mat.gemmToHier, gemmToHier, Mat.gemmDDH, gemmDDH]
      split
      · exact Both.err _ _
      split
      · exact Both.bind_same _ (fun AH hAH => hg _ _ _ _ _ _ _ _ _
          (wf_split (ifp _ _ _ (le_refl _) pm) (ifp _ _ _ pm (le_refl _)) hAH) hB hT hC)
      split
      · exact Both.bind_same _ (fun BH hBH => hg _ _ _ _ _ _ _ _ _ hA
          (wf_split (ifp _ _ _ pn (le_refl _)) (ifp _ _ _ (le_refl _) pn) hBH) hT hC)
      · exact Both.bind_same _ (fun AH hAH => Both.bind_same _ (fun BH hBH => hg _ _ _ _ _ _ _ _ _
          (wf_split (ifp _ _ _ (le_refl _) pm) (ifp _ _ _ pm (le_refl _)) hAH)
          (wf_split (ifp _ _ _ pn (le_refl _)) (ifp _ _ _ (le_refl _) pn) hBH) hT hC))
    | lowRank b => exact Both.bind_same _ (fun U _ => sim_scaleAdd o hT hC _ _)
    | hier r s B =>
      simp only [Mat.gemmToHier, gemmToHier, Mat.gemmDHH, gemmDHH]
      refine Both.assert (fun _ => ?_)
      split
      · exact hg _ _ _ _ _ _ _ _ _ hA (hB.2.2 0 hB.1 0 hB.2.1).1 hT hC
      split
      · rename_i h1
        obtain ⟨-, rfl⟩ := h1
        exact sim_rowLoop hg hA hB hT hC α β ta tb
      · exact Both.bind_same _ (fun AH hAH => hg _ _ _ _ _ _ _ _ _
          (wf_split (ifp _ _ _ (opDim_pos hB).1 pm) (ifp _ _ _ pm (opDim_pos hB).1) hAH) hB hT hC)
    | empty => exact Both.err _ _
  | lowRank a =>
    cases B with
    | dense b => exact Both.bind_same _ (fun V _ => sim_scaleAdd o hT hC _ _)
    | lowRank b => exact Both.bind_same _ (fun x _ => Both.bind_same _ (fun y _ => Both.bind_same _
        (fun S _ => sim_scaleAdd o hT hC _ _)))
    | hier r s B =>
      simp only [Mat.gemmToHier, gemmToHier, Mat.gemmLrHH, gemmLrHH]
      refine Both.assert (fun _ => ?_)
      split
      · exact hg _ _ _ _ _ _ _ _ _ hA (hB.2.2 0 hB.1 0 hB.2.1).1 hT hC
      split
      · rename_i h1
        obtain ⟨-, rfl⟩ := h1
        exact sim_rowLoop hg hA hB hT hC α β ta tb
      · exact Both.bind_same _ (fun V _ => Both.bind_same _ (fun V' _ => sim_scaleAdd o hT hC _ _))
    | empty => exact Both.err _ _
  | hier p q A =>
    cases B with
    | dense b =>
      simp only [Mat.gemmToHier, gemmToHier, Mat.gemmHDH, gemmHDH]
      split
      · exact hg _ _ _ _ _ _ _ _ _ (hA.2.2 0 hA.1 0 hA.2.1).1 hB hT hC
      split
      · rename_i h1
        obtain ⟨-, rfl⟩ := h1
        exact sim_colLoop hg hA hB hT hC α β ta tb
      · exact Both.bind_same _ (fun BH hBH => hg _ _ _ _ _ _ _ _ _ hA
          (wf_split (ifp _ _ _ pn (opDim_pos hA).2) (ifp _ _ _ (opDim_pos hA).2 pn) hBH) hT hC)
    | lowRank b =>
      simp only [Mat.gemmToHier, gemmToHier, Mat.gemmHLrH, gemmHLrH]
      split
      · exact hg _ _ _ _ _ _ _ _ _ (hA.2.2 0 hA.1 0 hA.2.1).1 hB hT hC
      split
      · rename_i h1
        obtain ⟨-, rfl⟩ := h1
        exact sim_colLoop hg hA hB hT hC α β ta tb
      · exact Both.bind_same _ (fun V _ => Both.bind_same _ (fun V' _ => sim_scaleAdd o hT hC _ _))
    | hier r s B =>
      simp only [Mat.gemmToHier, gemmToHier, Mat.gemmHHH, gemmHHH]
      refine Both.assert (fun e1 => Both.assert (fun e2 => Both.assert (fun e3 => ?_)))
      refine sim_blocks hT hC (fun i hi j hj h' hT' hh => ?_)
      refine sim_accumulate (hT'.2.2.1 i hi j hj) hh (fun k hk c' h'' t1 t2 => ?_)
      exact hg _ _ _ _ _ _ _ _ _ (wf_opBlk hA (by omega) hk) (wf_opBlk hB (by omega) (by omega)) t1 t2
    | empty => exact Both.err _ _
  | empty =>
    cases B <;> exact Both.err _ _

end

/-- The recursion, to any depth. -/
theorem gemm_sim [DecidableEq R] (o : LrOps R) (fuel : Nat) :
    GemmSim (Mat.gemm o fuel) (Tgt.gemm o fuel) := by
  induction fuel with
  | zero => intro A B T c α β ta tb h _ _ _ _; exact Both.err _ _
  | succ fuel ih =>
    intro A B T c α β ta tb h hA hB hT hc
    obtain ⟨d1, d2⟩ := hc.dims hT
    simp only [Mat.gemm, Mat.gemmBoth, Tgt.gemm, d1, d2]
    refine Both.assert (fun _ => Both.assert (fun _ => Both.assert (fun _ => ?_)))
    cases T with
    | dense d =>
      cases c <;> try exact hc.elim
      exact sim_toDense ih hA hB hT hc α β ta tb
    | hier m n T =>
      cases c <;> try exact hc.elim
      obtain ⟨rfl, rfl, -⟩ := id hc
      exact sim_toHier ih o _ hA hB hT hc α β ta tb

/-! ### filling a matrix -/

/-- The blocks of a matrix written one after the other, each in full. -/
theorem sim_fill (A : Mat R) (hA : A.WF) {d : DObj} {c : Dense R} {h : Heap R} (hd : d.Ok h)
    (hc : (Tgt.dense d).Holds h (.dense c)) :
    Both (fun (c' : Dense R) h' => (Tgt.dense d).Holds h' (.dense c') ∧ h.Same d.Cell h')
      (A.fillDenseFrom c) (fillFrom A d h) := by
  have store : ∀ {d : DObj} {c : Dense R} {h : Heap R}, d.Ok h → (Tgt.dense d).Holds h (.dense c) →
      ∀ v : Nat → Nat → R, Both (fun (c' : Dense R) h' => (Tgt.dense d).Holds h' (.dense c') ∧
      h.Same d.Cell h') (.ok ⟨c.rows, c.cols, v⟩ : Except Err (Dense R)) (d.store h v) := by
    intro d c h hd hc v
    obtain ⟨b, hb, -⟩ := id hd
    obtain ⟨h', s1, s2, s3⟩ := DObj.store_ok hb (DObj.readable_of (Or.inl hd)) hd.stride_le v
    rw [s1]
    refine Both.ok ⟨⟨hc.1, hc.2.1, fun i hi j hj => ?_⟩, s2⟩
    rw [hb]; exact s3 i hi j hj
  induction A generalizing d c h with
  | dense a =>
    simp only [fillDenseFrom, fillFrom, hc.1, hc.2.1]
    rw [← hc.1, ← hc.2.1]
    exact Both.assert (fun _ => Both.assert (fun _ => store hd hc _))
  | lowRank l =>
    have := sim_update hd hc (local_bind (Dense.gemmNew l.U l.S 1 false false)
      (fun US => local_gemm US l.V 1 0 false false))
    simp only [fillDenseFrom, fillFrom, LowRank.fillDense]
    rcases this with ⟨a, b, e1, e2, e3⟩ | ⟨e, e1, e2⟩
    · obtain ⟨r, hr, hr'⟩ := except_bind_eq_ok.1 e1
      cases Except.ok.inj hr'
      exact Or.inl ⟨r, b, hr, e2, e3⟩
    · refine Or.inr ⟨e, ?_, e2⟩
      cases hx : (do let US ← Dense.gemmNew l.U l.S 1 false false; Dense.gemm US l.V c 1 0 false false :
        Except Err (Dense R)) with
      | ok r => rw [hx] at e1; cases e1
      | error e' => rw [hx] at e1; exact congrArg Except.error (Except.error.inj e1)
  | empty m n =>
    simp only [fillDenseFrom, fillFrom, hc.1, hc.2.1, Dense.fill]
    rw [← hc.1, ← hc.2.1]
    exact Both.assert (fun _ => Both.assert (fun _ => store hd hc _))
  | hier m n blk ih =>
    obtain ⟨c1, c2, -⟩ := id hc
    simp only [fillDenseFrom, fillFrom, splitLikeH, Mat.nRows, Mat.nCols, c1, c2,
      ClusterTree.except_bind_assoc]
    refine Both.assert (fun e1 => Both.assert (fun e2 => ?_))
    obtain ⟨p1, l1⟩ := splitLike_isPartition m (fun i => (blk i 0).nRows) d.rows e1
    obtain ⟨p2, l2⟩ := splitLike_isPartition n (fun j => (blk 0 j).nCols) d.cols e2
    have s1 := partSizes_splitLike d.rows m (fun i => (blk i 0).nRows)
    have s2 := partSizes_splitLike d.cols n (fun j => (blk 0 j).nCols)
    simp only [splitOmm, splitDense, ofViews, c1, c2, blockHeights, blockWidths]
    have i1 := rangesInside_of_partition p1
    have i2 := rangesInside_of_partition p2
    simp only [i1, i2, and_self, if_true, except_bind_ok, asDense]
    obtain ⟨v1, v2, v3, v4⟩ := views hd hc l1 l2 hA.1 hA.2.1 p1 p2
    refine (sim_each (α := Dense R) Mat.dense (C := fun i j => .dense (c.sub _ _ _ _)) v1
      ⟨rfl, rfl, v2⟩ (f := fun i j => (blk i j).fillDenseFrom (c.sub _ _ _ _))
      (body := fun i j h => fillFrom (blk i j) (viewAt d _ _ i j) h)
      (fun i hi j hj h' hT' hh => ih i j (hA.2.2 i hi j hj).1 (hT'.2.2.1 i hi j hj) hh)).then_ok
      (fun g h' hg => ⟨_, rfl, ?_, hg.1.mono v3⟩)
    rw [← c1, ← c2]
    exact v4 h' _ _ g (fun i hi => (s1 i hi).symm) (fun j hj => (s2 j hj).symm) hg.2

end Tgt
end Verif
