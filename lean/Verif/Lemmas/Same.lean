import Verif.Lemmas.HeapGemmRec

/-
Operations on matrices that are stored alike give results that are stored alike: the basic
operations.
-/

namespace Verif
open Finset

variable {R : Type}

/-- Computing two vectors side by side. -/
theorem collect_both {α β : Type} [Inhabited α] [Inhabited β] {n : Nat} {f : Nat → Except Err α}
    {f' : Nat → Except Err β} {P : Nat → α → β → Prop} (h : ∀ i < n, Both (P i) (f i) (f' i)) :
    Both (fun g g' => ∀ i < n, P i (g i) (g' i)) (collect n f) (collect n f') := by
  induction n with
  | zero => exact Both.ok (fun i hi => absurd hi (by omega))
  | succ n ih =>
    simp only [collect]
    refine (ih (fun i hi => h i (by omega))).bind (fun g g' _ _ hg => ?_)
    refine (h n (by omega)).bind (fun x x' _ _ hx => Both.ok (fun i hi => ?_))
    by_cases hin : i = n
    · subst hin; simpa using hx
    · simp only [if_neg hin]; exact hg i (by omega)

theorem collect2_both {α β : Type} [Inhabited α] [Inhabited β] {m n : Nat}
    {f : Nat → Nat → Except Err α} {f' : Nat → Nat → Except Err β} {P : Nat → Nat → α → β → Prop}
    (h : ∀ i < m, ∀ j < n, Both (P i j) (f i j) (f' i j)) :
    Both (fun g g' => ∀ i < m, ∀ j < n, P i j (g i j) (g' i j)) (collect2 m n f) (collect2 m n f') :=
  collect_both (P := fun i (g : Nat → α) (g' : Nat → β) => ∀ j < n, P i j (g j) (g' j)) (fun i hi => collect_both (h i hi))

/-- Checks that have the same truth value. -/
theorem Both.assert' {γ δ : Type _} {Q : γ → δ → Prop} {p p' : Prop} [Decidable p] [Decidable p']
    (hp : p ↔ p') {f : Unit → Except Err γ} {g : Unit → Except Err δ}
    (hfg : p → Both Q (f ()) (g ())) :
    Both Q (assertM (decide p) >>= f) (assertM (decide p') >>= g) := by
  by_cases h : p
  · rw [decide_eq_true h, decide_eq_true (hp.1 h)]
    exact hfg h
  · rw [decide_eq_false h, decide_eq_false (fun h' => h (hp.2 h'))]
    exact Both.err _ _

/-- A last step that only packs the result. -/
theorem Both.map {α β γ δ : Type _} {P : α → β → Prop} {Q : γ → δ → Prop} {x : Except Err α}
    {y : Except Err β} (h : Both P x y) {f : α → γ} {g : β → δ} (hf : ∀ a b, P a b → Q (f a) (g b)) :
    Both Q (x >>= fun a => .ok (f a)) (y >>= fun b => .ok (g b)) :=
  h.bind (fun a b _ _ hP => Both.ok (hf a b hP))

namespace Dense

theorem Same.refl (A : Dense R) : A.Same A := ⟨rfl, rfl, fun _ _ _ _ => rfl⟩

theorem Same.symm {A B : Dense R} (h : A.Same B) : B.Same A :=
  ⟨h.1.symm, h.2.1.symm, fun i hi j hj => (h.2.2 i (h.1 ▸ hi) j (h.2.1 ▸ hj)).symm⟩

theorem Same.trans {A B C : Dense R} (h : A.Same B) (k : B.Same C) : A.Same C :=
  ⟨h.1.trans k.1, h.2.1.trans k.2.1, fun i hi j hj =>
    (h.2.2 i hi j hj).trans (k.2.2 i (h.1 ▸ hi) j (h.2.1 ▸ hj))⟩

theorem Same.transpose {A B : Dense R} (h : A.Same B) : A.transpose.Same B.transpose :=
  ⟨h.2.1, h.1, fun i hi j hj => h.2.2 j hj i hi⟩

theorem Same.scale [Mul R] {A B : Dense R} (h : A.Same B) (b : R) : (A.scale b).Same (B.scale b) :=
  ⟨h.1, h.2.1, fun i hi j hj => by simp only [Dense.scale]; rw [h.2.2 i hi j hj]⟩

theorem Same.sub {A B : Dense R} (h : A.Same B) {r c m n : Nat} (hr : r + m ≤ A.rows)
    (hc : c + n ≤ A.cols) : (A.sub r c m n).Same (B.sub r c m n) :=
  ⟨rfl, rfl, fun i hi j hj => h.2.2 _ (by change i < m at hi; omega) _ (by change j < n at hj; omega)⟩

theorem Same.ite {A A' B B' : Dense R} {p : Prop} [Decidable p] (h : A.Same A') (k : B.Same B') :
    (if p then A else B).Same (if p then A' else B') := by
  split <;> assumption

section
variable [CommRing R]

omit [CommRing R] in
theorem Same.opVal {A A' : Dense R} (h : A.Same A') {t : Bool} {i j : Nat}
    (hi : i < if t then A.cols else A.rows) (hj : j < if t then A.rows else A.cols) :
    A.opVal t i j = A'.opVal t i j := by
  cases t
  · exact h.2.2 i hi j hj
  · exact h.2.2 j hj i hi

theorem Same.gemm {A A' B B' C C' : Dense R} (hA : A.Same A') (hB : B.Same B') (hC : C.Same C')
    (α β : R) (ta tb : Bool) :
    Both (fun X X' => X.Same X' ∧ X.rows = C.rows ∧ X.cols = C.cols) (Dense.gemm A B C α β ta tb)
      (Dense.gemm A' B' C' α β ta tb) := by
  obtain ⟨a1, a2, -⟩ := id hA
  obtain ⟨b1, b2, -⟩ := id hB
  obtain ⟨c1, c2, c3⟩ := id hC
  unfold Dense.gemm
  refine Both.assert' (by rw [a1, a2, c1]) (fun g1 => Both.assert' (by rw [a1, a2, b1, b2])
    (fun g2 => Both.assert' (by rw [b1, b2, c2]) (fun g3 => Both.ok ?_)))
  refine ⟨⟨c1, c2, fun i hi j hj => ?_⟩, rfl, rfl⟩
  change i < C.rows at hi
  change j < C.cols at hj
  simp only
  rw [c3 i hi j hj, a1, a2]
  congr 2
  refine Finset.sum_congr rfl (fun l hl => ?_)
  have hl : l < if ta then A.rows else A.cols := by rw [a1, a2]; simpa using hl
  rw [hA.opVal (g1 ▸ hi) hl, hB.opVal (g2 ▸ hl) (g3 ▸ hj)]

theorem Same.gemmNew {A A' B B' : Dense R} (hA : A.Same A') (hB : B.Same B') (α : R) (ta tb : Bool) :
    Both (fun X X' => X.Same X' ∧ X.rows = (if ta then A.cols else A.rows) ∧
      X.cols = (if tb then B.rows else B.cols)) (Dense.gemmNew A B α ta tb)
      (Dense.gemmNew A' B' α ta tb) := by
  obtain ⟨a1, a2, -⟩ := id hA
  obtain ⟨b1, b2, -⟩ := id hB
  unfold Dense.gemmNew
  refine Both.assert' (by rw [a1, a2, b1, b2]) (fun g1 => ?_)
  have := Same.gemm hA hB (C := Dense.zero (if ta then A.cols else A.rows) (if tb then B.rows else B.cols))
    (Same.refl _) α 0 ta tb
  rw [a1, a2, b1, b2] at this ⊢
  exact this

theorem Same.gemmNew' {A A' B B' : Dense R} (hA : A.Same A') (hB : B.Same B') (α : R) (ta tb : Bool) :
    Both Dense.Same (Dense.gemmNew A B α ta tb) (Dense.gemmNew A' B' α ta tb) :=
  (hA.gemmNew hB α ta tb).mono (fun _ _ h => h.1)

theorem Same.addAssign {A A' B B' : Dense R} (hA : A.Same A') (hB : B.Same B') :
    Both (fun X X' => X.Same X' ∧ X.rows = A.rows ∧ X.cols = A.cols) (A.addAssign B)
      (A'.addAssign B') := by
  obtain ⟨a1, a2, a3⟩ := id hA
  obtain ⟨b1, b2, b3⟩ := id hB
  unfold Dense.addAssign
  refine Both.assert' (by rw [a1, a2, b1, b2]) (fun g => Both.ok ⟨⟨a1, a2, fun i hi j hj => ?_⟩, rfl, rfl⟩)
  change i < A.rows at hi
  change j < A.cols at hj
  simp only
  rw [a3 i hi j hj, b3 i (by omega) j (by omega)]

theorem Same.add {A A' B B' : Dense R} (hA : A.Same A') (hB : B.Same B') :
    Both Dense.Same (A.add B) (A'.add B') :=
  (hA.addAssign hB).mono (fun _ _ h => h.1)

theorem Same.addLowRank {A A' : Dense R} {b b' : LowRank R} (hA : A.Same A') (hb : b.Same b') :
    Both (fun X X' => X.Same X' ∧ X.rows = A.rows ∧ X.cols = A.cols) (A.addLowRank b)
      (A'.addLowRank b') := by
  unfold Dense.addLowRank
  exact (hb.U.gemmNew hb.S 1 false false).bind (fun X X' _ _ h => h.1.gemm hb.V hA 1 1 false false)

omit [CommRing R] in
theorem Same.resize {A A' : Dense R} (hA : A.Same A') (m n : Nat) :
    Both (fun X X' => X.Same X' ∧ X.rows = m ∧ X.cols = n) (A.resize m n) (A'.resize m n) := by
  unfold Dense.resize
  refine Both.assert' (by rw [hA.1]) (fun g => Both.assert' (by rw [hA.2.1]) (fun g' => Both.ok ?_))
  exact ⟨⟨rfl, rfl, fun i hi j hj => hA.2.2 _ (by change i < m at hi; omega) _
    (by change j < n at hj; omega)⟩, rfl, rfl⟩

omit [CommRing R] in
theorem Same.copyTo {A A' : Dense R} (hA : A.Same A') (m n : Nat) :
    Both (fun X X' => X.Same X' ∧ X.rows = m ∧ X.cols = n) (A.copyTo m n) (A'.copyTo m n) := by
  unfold Dense.copyTo
  refine Both.assert' (by rw [hA.1]) (fun g => Both.assert' (by rw [hA.2.1]) (fun g' => Both.ok ?_))
  exact ⟨⟨rfl, rfl, fun i hi j hj => hA.2.2 _ (by change i < m at hi; omega) _
    (by change j < n at hj; omega)⟩, rfl, rfl⟩

end
end Dense

namespace LowRank

theorem Same.refl (a : LowRank R) : a.Same a :=
  ⟨rfl, rfl, rfl, rfl, Dense.Same.refl _, Dense.Same.refl _, Dense.Same.refl _⟩

theorem Same.symm {a b : LowRank R} (h : a.Same b) : b.Same a :=
  ⟨h.dim0.symm, h.dim1.symm, h.rank.symm, h.eps.symm, h.U.symm, h.S.symm, h.V.symm⟩

theorem Same.ofFactors [Zero R] {U U' S S' V V' : Dense R} (h1 : U.Same U') (h2 : S.Same S')
    (h3 : V.Same V') : (LowRank.ofFactors U S V).Same (LowRank.ofFactors U' S' V') :=
  ⟨h1.1, h3.2.1, h2.1, rfl, h1, h2, h3⟩

theorem Same.scale [Mul R] {a a' : LowRank R} (h : a.Same a') (b : R) : (a.scale b).Same (a'.scale b) :=
  ⟨h.dim0, h.dim1, h.rank, h.eps, h.U, h.S.scale b, h.V⟩

section
variable [CommRing R]

theorem Same.fillDense {a a' : LowRank R} {B B' : Dense R} (h : a.Same a') (hB : B.Same B') :
    Both (fun X X' => X.Same X' ∧ X.rows = B.rows ∧ X.cols = B.cols) (a.fillDense B) (a'.fillDense B') := by
  unfold LowRank.fillDense
  exact (h.U.gemmNew h.S 1 false false).bind (fun X X' _ _ hX => hX.1.gemm h.V hB 1 0 false false)

theorem Same.toDense {a a' : LowRank R} (h : a.Same a') :
    Both (fun X X' => X.Same X' ∧ X.rows = a.dim0 ∧ X.cols = a.dim1) a.toDense a'.toDense := by
  unfold LowRank.toDense
  rw [← h.dim0, ← h.dim1]
  exact h.fillDense (Dense.Same.refl _)

end
end LowRank

namespace Mat

theorem Same.refl (A : Mat R) : A.Same A := by
  induction A with
  | dense d => exact Dense.Same.refl d
  | lowRank l => exact LowRank.Same.refl l
  | hier br bc A ih => exact ⟨rfl, rfl, fun i _ j _ => ih i j⟩
  | empty m n => exact ⟨rfl, rfl⟩

theorem Same.symm {A B : Mat R} (h : A.Same B) : B.Same A := by
  induction A generalizing B with
  | dense d => cases B <;> first | exact h.elim | exact Dense.Same.symm h
  | lowRank l => cases B <;> first | exact h.elim | exact LowRank.Same.symm h
  | hier br bc A ih =>
    cases B <;> try exact h.elim
    obtain ⟨rfl, rfl, h⟩ := h
    exact ⟨rfl, rfl, fun i hi j hj => ih i j (h i hi j hj)⟩
  | empty m n => cases B <;> first | exact h.elim | exact ⟨h.1.symm, h.2.symm⟩

/-- Matrices stored alike have the same dimensions. -/
theorem Same.dims {A B : Mat R} (h : A.Same B) (hA : A.HasBlocks) :
    A.nRows = B.nRows ∧ A.nCols = B.nCols := by
  induction A generalizing B with
  | dense d => cases B <;> first | exact h.elim | exact ⟨h.1, h.2.1⟩
  | lowRank l => cases B <;> first | exact h.elim | exact ⟨h.dim0, h.dim1⟩
  | hier br bc A ih =>
    cases B <;> try exact h.elim
    obtain ⟨rfl, rfl, h⟩ := h
    obtain ⟨p1, p2, p3⟩ := hA
    constructor
    · simp only [Mat.nRows]
      exact Finset.sum_congr rfl (fun i hi => (ih i 0 (h i (by simpa using hi) 0 p2)
        (p3 i (by simpa using hi) 0 p2)).1)
    · simp only [Mat.nCols]
      exact Finset.sum_congr rfl (fun j hj => (ih 0 j (h 0 p1 j (by simpa using hj))
        (p3 0 p1 j (by simpa using hj))).2)
  | empty m n => cases B <;> first | exact h.elim | exact h

theorem Same.hasBlocks {A B : Mat R} (h : A.Same B) (hA : A.HasBlocks) : B.HasBlocks := by
  induction A generalizing B with
  | dense d => cases B <;> first | exact h.elim | trivial
  | lowRank l => cases B <;> first | exact h.elim | trivial
  | hier br bc A ih =>
    cases B <;> try exact h.elim
    obtain ⟨rfl, rfl, h⟩ := h
    exact ⟨hA.1, hA.2.1, fun i hi j hj => ih i j (h i hi j hj) (hA.2.2 i hi j hj)⟩
  | empty m n => cases B <;> first | exact h.elim | trivial

theorem WF.hasBlocks {A : Mat R} (h : A.WF) : A.HasBlocks := by
  induction A with
  | hier br bc A ih => exact ⟨h.1, h.2.1, fun i hi j hj => ih i j (h.2.2 i hi j hj).1⟩
  | _ => trivial

/-- The second matrix has the structure of the first: dense blocks of the same dimensions,
low-rank blocks where the first has some. -/
def Shape : Mat R → Mat R → Prop
  | .dense a, .dense b => b.rows = a.rows ∧ b.cols = a.cols
  | .lowRank _, .lowRank _ => True
  | .hier br bc A, .hier br' bc' B => br' = br ∧ bc' = bc ∧ ∀ i < br, ∀ j < bc, (A i j).Shape (B i j)
  | .empty m n, .empty m' n' => m' = m ∧ n' = n
  | _, _ => False

theorem Shape.refl (A : Mat R) : A.Shape A := by
  induction A with
  | dense d => exact ⟨rfl, rfl⟩
  | lowRank l => trivial
  | hier br bc A ih => exact ⟨rfl, rfl, fun i _ j _ => ih i j⟩
  | empty m n => exact ⟨rfl, rfl⟩

theorem Shape.trans {A B C : Mat R} (h : A.Shape B) (k : B.Shape C) : A.Shape C := by
  induction A generalizing B C with
  | dense d =>
    cases B <;> try exact h.elim
    cases C <;> try exact k.elim
    exact ⟨k.1.trans h.1, k.2.trans h.2⟩
  | lowRank l =>
    cases B <;> try exact h.elim
    cases C <;> try exact k.elim
    trivial
  | hier br bc A ih =>
    cases B <;> try exact h.elim
    cases C <;> try exact k.elim
    obtain ⟨rfl, rfl, h⟩ := h
    obtain ⟨rfl, rfl, k⟩ := k
    exact ⟨rfl, rfl, fun i hi j hj => ih i j (h i hi j hj) (k i hi j hj)⟩
  | empty m n =>
    cases B <;> try exact h.elim
    cases C <;> try exact k.elim
    exact ⟨k.1.trans h.1, k.2.trans h.2⟩

theorem Shape.hasBlocks {A B : Mat R} (h : A.Shape B) (hA : A.HasBlocks) : B.HasBlocks := by
  induction A generalizing B with
  | dense d => cases B <;> first | exact h.elim | trivial
  | lowRank l => cases B <;> first | exact h.elim | trivial
  | hier br bc A ih =>
    cases B <;> try exact h.elim
    obtain ⟨rfl, rfl, h⟩ := h
    exact ⟨hA.1, hA.2.1, fun i hi j hj => ih i j (h i hi j hj) (hA.2.2 i hi j hj)⟩
  | empty m n => cases B <;> first | exact h.elim | trivial

/-- The results are stored alike and have the structure of the target. -/
def KeepsLike (C : Mat R) (X X' : Mat R) : Prop := X.Same X' ∧ C.Shape X

/-- The two computations agree on a target. -/
abbrev Alike (C : Mat R) (x y : Except Err (Mat R)) : Prop := Both (KeepsLike C) x y

theorem Same.blk {p q p' q' : Nat} {A A' : Nat → Nat → Mat R} (h : (Mat.hier p q A).Same (.hier p' q' A')) :
    p' = p ∧ q' = q ∧ ∀ i < p, ∀ j < q, (A i j).Same (A' i j) := ⟨h.1.symm, h.2.1.symm, h.2.2⟩

theorem same_opBlk {t : Bool} {p q : Nat} {A A' : Nat → Nat → Mat R}
    (h : ∀ i < p, ∀ j < q, (A i j).Same (A' i j)) {i k : Nat} (hi : i < opDim0 t p q)
    (hk : k < opDim1 t p q) : (opBlk t A i k).Same (opBlk t A' i k) := by
  cases t
  · exact h i hi k hk
  · exact h k hk i hi

theorem hasBlocks_opBlk {t : Bool} {p q : Nat} {A : Nat → Nat → Mat R}
    (h : (Mat.hier p q A).HasBlocks) {i k : Nat} (hi : i < opDim0 t p q) (hk : k < opDim1 t p q) :
    (opBlk t A i k).HasBlocks := by
  cases t
  · exact h.2.2 i hi k hk
  · exact h.2.2 k hk i hi

theorem hasBlocks_opDim {t : Bool} {p q : Nat} {A : Nat → Nat → Mat R}
    (h : (Mat.hier p q A).HasBlocks) : 1 ≤ opDim0 t p q ∧ 1 ≤ opDim1 t p q := by
  have h1 := h.1
  have h2 := h.2.1
  cases t
  · exact ⟨h1, h2⟩
  · exact ⟨h2, h1⟩

theorem same_vecAt {p q : Nat} {A A' : Nat → Nat → Mat R} (hp : (Mat.hier p q A).HasBlocks)
    (h : ∀ i < p, ∀ j < q, (A i j).Same (A' i j)) (k : Nat) :
    Both (fun x x' => x.Same x' ∧ x.HasBlocks ∧ x = if p = 1 then A 0 k else A k 0)
      (Mat.vecAt p q A k) (Mat.vecAt p q A' k) := by
  obtain ⟨p1, p2, p3⟩ := hp
  unfold Mat.vecAt
  refine Both.assert (fun g1 => Both.assert (fun g2 => Both.ok ?_))
  by_cases hp : p = 1
  · rw [if_neg (by simpa using hp)] at g2
    rw [if_pos hp, if_pos hp]
    exact ⟨h 0 p1 k g2, p3 0 p1 k g2, rfl⟩
  · rw [if_pos hp] at g2
    rw [if_neg hp, if_neg hp]
    exact ⟨h k g2 0 p2, p3 k g2 0 p2, rfl⟩

theorem same_asDense {A A' : Mat R} (h : A.Same A') : Both Dense.Same A.asDense A'.asDense := by
  cases A <;> cases A' <;> first | exact h.elim | exact Both.err _ _ | exact Both.ok h

section
variable [CommRing R]

omit [CommRing R] in
/-- Parts of matrices stored alike. -/
theorem same_splitDense {a a' : Dense R} (h : a.Same a') (rs cs : List IndexRange)
    (hr : rs ≠ []) (hc : cs ≠ []) :
    Both (fun M M' => M.Same M' ∧ M.HasBlocks) (splitDense a rs cs) (splitDense a' rs cs) := by
  obtain ⟨h1, h2, h3⟩ := id h
  unfold splitDense
  rw [h1, h2]
  split
  · rename_i hin
    refine Both.ok ⟨⟨rfl, rfl, fun i hi j hj => ?_⟩, List.length_pos_iff.2 hr, List.length_pos_iff.2 hc,
      fun i hi j hj => trivial⟩
    have e1 := List.all_eq_true.1 hin.1 (rangeAt rs i) (by
      simp [rangeAt, List.getD_eq_getElem?_getD, hi])
    have e2 := List.all_eq_true.1 hin.2 (rangeAt cs j) (by
      simp [rangeAt, List.getD_eq_getElem?_getD, hj])
    simp only [decide_eq_true_eq] at e1 e2
    exact h.sub (by omega) (by omega)
  · exact Both.err _ _

theorem split_ne_nil {r : IndexRange} {k : Nat} (hk : 1 ≤ k) : r.split k ≠ [] := by
  intro h
  have := congrArg List.length h
  rw [IndexRange.length_split] at this
  simp at this
  omega

theorem same_split {a a' : Dense R} (h : a.Same a') {nr nc : Nat} (hr : 1 ≤ nr) (hc : 1 ≤ nc) :
    Both (fun M M' => M.Same M' ∧ M.HasBlocks) ((Mat.dense a).split nr nc) ((Mat.dense a').split nr nc) := by
  simp only [Mat.split, splitOmm, Mat.nRows, Mat.nCols, ← h.1, ← h.2.1]
  exact same_splitDense h _ _ (split_ne_nil hr) (split_ne_nil hc)

/-- Working on the parts of a target. -/
theorem same_through {c c' : Dense R} (h : c.Same c') {nr nc : Nat} (hr : 1 ≤ nr) (hc : 1 ≤ nc)
    {f f' : Mat R → Except Err (Mat R)}
    (hf : ∀ CH CH', CH.Same CH' → CH.HasBlocks → Alike CH (f CH) (f' CH')) :
    Alike (.dense c) (do
      let CH ← (Mat.dense c).split nr nc
      let CH' ← f CH
      joinDense c CH') (do
      let CH ← (Mat.dense c').split nr nc
      let CH' ← f' CH
      joinDense c' CH') := by
  refine (same_split h hr hc).bind (fun CH CH' e1 _ ⟨s1, s2⟩ => ?_)
  refine (hf CH CH' s1 s2).bind (fun X X' _ _ ⟨x1, x2⟩ => ?_)
  have hsp : ∃ b, CH = .hier nr nc b ∧ rangesInside c.rows ((⟨0, c.rows⟩ : IndexRange).split nr) = true ∧
      rangesInside c.cols ((⟨0, c.cols⟩ : IndexRange).split nc) = true ∧
      ∀ i j, b i j = .dense (c.sub (rangeAt ((⟨0, c.rows⟩ : IndexRange).split nr) i).start.toNat
        (rangeAt ((⟨0, c.cols⟩ : IndexRange).split nc) j).start.toNat
        (rangeAt ((⟨0, c.rows⟩ : IndexRange).split nr) i).n.toNat
        (rangeAt ((⟨0, c.cols⟩ : IndexRange).split nc) j).n.toNat) := by
    simp only [Mat.split, splitOmm, splitDense, Mat.nRows, Mat.nCols, IndexRange.length_split] at e1
    split at e1
    · rename_i hin
      exact ⟨_, (Except.ok.inj e1).symm, hin.1, hin.2, fun i j => rfl⟩
    · exact (nomatch e1)
  obtain ⟨b, rfl, i1, i2, hb⟩ := hsp
  cases X with
  | hier m n blk => ?_
  | _ => exact x2.elim
  obtain ⟨rfl, rfl, x2⟩ := x2
  cases X' with
  | hier m' n' blk' => ?_
  | _ => exact x1.elim
  obtain ⟨rfl, rfl, x1⟩ := x1
  set rs := (⟨0, c.rows⟩ : IndexRange).split m with hrs
  set cs := (⟨0, c.cols⟩ : IndexRange).split n with hcs
  have lr : rs.length = m := IndexRange.length_split _ _
  have lc : cs.length = n := IndexRange.length_split _ _
  have tr := partition_total (Tgt.split_partition hr i1)
  have tc := partition_total (Tgt.split_partition hc i2)
  rw [← hrs, lr] at tr
  rw [← hcs, lc] at tc
  have leaf : ∀ i < m, ∀ j < n, ∃ e e' : Dense R, blk i j = .dense e ∧ blk' i j = .dense e' ∧ e.Same e' ∧
      e.rows = partSizes rs i ∧ e.cols = partSizes cs j := by
    intro i hi j hj
    have h1 := x2 i hi j hj
    have h2 := x1 i hi j hj
    rw [hb i j] at h1
    cases hx : blk i j <;> rw [hx] at h1 h2 <;> try exact h1.elim
    cases hy : blk' i j <;> rw [hy] at h2 <;> try exact h2.elim
    exact ⟨_, _, rfl, rfl, h2, h1⟩
  simp only [joinDense]
  refine (collect2_both (P := fun i j (e e' : Dense R) => e.Same e' ∧ blk i j = .dense e ∧
    e.rows = partSizes rs i ∧ e.cols = partSizes cs j ∧ e'.rows = partSizes rs i ∧ e'.cols = partSizes cs j)
    (fun i hi j hj => ?_)).bind (fun g g' _ _ hg => Both.ok ⟨⟨h.1, h.2.1, ?_⟩, rfl, rfl⟩)
  · obtain ⟨e, e', k1, k2, k3, k4, k5⟩ := leaf i hi j hj
    rw [k1, k2]
    exact Both.ok ⟨k3, rfl, k4, k5, k3.1 ▸ k4, k3.2.1 ▸ k5⟩
  · intro i hi j hj
    change i < c.rows at hi
    change j < c.cols at hj
    have q1 : ∀ i < m, (blk i 0).nRows = partSizes rs i := fun i hi => by
      obtain ⟨e, e', k1, k2, k3, k4, k5⟩ := leaf i hi 0 hc
      rw [k1]; exact k4
    have q2 : ∀ j < n, (blk 0 j).nCols = partSizes cs j := fun j hj => by
      obtain ⟨e, e', k1, k2, k3, k4, k5⟩ := leaf 0 hr j hj
      rw [k1]; exact k5
    have q3 : ∀ i < m, (blk' i 0).nRows = partSizes rs i := fun i hi => by
      obtain ⟨e, e', k1, k2, k3, k4, k5⟩ := leaf i hi 0 hc
      rw [k2]; exact k3.1.symm.trans k4
    have q4 : ∀ j < n, (blk' 0 j).nCols = partSizes cs j := fun j hj => by
      obtain ⟨e, e', k1, k2, k3, k4, k5⟩ := leaf 0 hr j hj
      rw [k2]; exact k3.2.1.symm.trans k5
    rw [← tr] at hi
    rw [← tc] at hj
    obtain ⟨p, hp, x, hx, rfl⟩ := exists_block _ _ _ hi
    obtain ⟨q, hq, y, hy, rfl⟩ := exists_block _ _ _ hj
    simp only [joinVal, locate_congr q1, locate_congr q2, locate_congr q3, locate_congr q4,
      locate_at _ m p x hp hx, locate_at _ n q y hq hy]
    obtain ⟨s1, -, s2, s3, -, -⟩ := hg p hp q hq
    exact s1.2.2 x (s2 ▸ hx) y (s3 ▸ hy)

theorem same_scale {C C' : Mat R} (h : C.Same C') (β : R) : Alike C (C.scale β) (C'.scale β) := by
  induction C generalizing C' with
  | dense c =>
    cases C' <;> try exact h.elim
    exact Both.ok ⟨Dense.Same.scale h β, rfl, rfl⟩
  | lowRank l =>
    cases C' <;> try exact h.elim
    exact Both.ok ⟨LowRank.Same.scale h β, trivial⟩
  | hier m n C ih =>
    cases C' <;> try exact h.elim
    obtain ⟨rfl, rfl, h⟩ := h
    simp only [Mat.scale]
    exact (collect2_both (fun i hi j hj => ih i j (h i hi j hj))).map (fun g g' hg =>
      ⟨⟨rfl, rfl, fun i hi j hj => (hg i hi j hj).1⟩, rfl, rfl, fun i hi j hj => (hg i hi j hj).2⟩)
  | empty m n =>
    cases C' <;> try exact h.elim
    exact Both.err _ _

/-- Parts of low-rank matrices stored alike. -/
theorem same_splitLowRank {b b' : LowRank R} (h : b.Same b') {m n : Nat} (hm : 1 ≤ m) (hn : 1 ≤ n) :
    Both (fun M M' => M.Same M' ∧ M.HasBlocks) ((Mat.lowRank b).split m n) ((Mat.lowRank b').split m n) := by
  simp only [Mat.split, splitOmm, Mat.nRows, Mat.nCols, ← h.dim0, ← h.dim1]
  generalize hrs : (⟨0, b.dim0⟩ : IndexRange).split m = rs
  generalize hcs : (⟨0, b.dim1⟩ : IndexRange).split n = cs
  have lr : rs.length = m := by rw [← hrs, IndexRange.length_split]
  have lc : cs.length = n := by rw [← hcs, IndexRange.length_split]
  unfold splitLowRank
  have hiff : ((rs.length ≤ 1 ∨ rangesInside b.U.rows rs = true) ∧
      (cs.length ≤ 1 ∨ rangesInside b.V.cols cs = true)) ↔
      ((rs.length ≤ 1 ∨ rangesInside b'.U.rows rs = true) ∧
      (cs.length ≤ 1 ∨ rangesInside b'.V.cols cs = true)) := by rw [h.U.1, h.V.2.1]
  by_cases hin : (rs.length ≤ 1 ∨ rangesInside b.U.rows rs = true) ∧
      (cs.length ≤ 1 ∨ rangesInside b.V.cols cs = true)
  · rw [if_pos hin, if_pos (hiff.1 hin)]
    refine Both.ok ⟨⟨rfl, rfl, fun i hi j hj => ?_⟩, by omega, by omega,
      fun i hi j hj => trivial⟩
    refine LowRank.Same.ofFactors ?_ h.S ?_
    · split
      · rename_i h1
        have e1 := List.all_eq_true.1 (hin.1.resolve_left (by omega)) _ (show rangeAt rs i ∈ rs by
          simp [rangeAt, List.getD_eq_getElem?_getD, hi])
        simp only [decide_eq_true_eq] at e1
        rw [← h.U.2.1]
        exact h.U.sub (by omega) (by omega)
      · exact h.U
    · split
      · rename_i h1
        have e1 := List.all_eq_true.1 (hin.2.resolve_left (by omega)) _ (show rangeAt cs j ∈ cs by
          simp [rangeAt, List.getD_eq_getElem?_getD, hj])
        simp only [decide_eq_true_eq] at e1
        rw [← h.V.1]
        exact h.V.sub (by omega) (by omega)
      · exact h.V
  · rw [if_neg hin, if_neg (fun h' => hin (hiff.2 h'))]
    exact Both.err _ _

omit [CommRing R] in
theorem _root_.Verif.LrOps.Local.addAssign {o : LrOps R} (ho : o.Local) {a a' b b' : LowRank R} (ha : a.Same a')
    (hb : b.Same b') : Both LowRank.Same (o.addAssign a b) (o.addAssign a' b') := by
  unfold LrOps.addAssign
  refine Both.assert' (by rw [ha.dim0, hb.dim0]) (fun _ => Both.assert' (by rw [ha.dim1, hb.dim1])
    (fun _ => ho.add _ _ _ _ ha hb))

theorem same_addAssign {o : LrOps R} (ho : o.Local) {C C' X X' : Mat R} (hC : C.Same C')
    (hX : X.Same X') (hb : C.HasBlocks) : Alike C (C.addAssign o X) (C'.addAssign o X') := by
  induction C generalizing C' X X' with
  | dense c =>
    cases C' <;> try exact hC.elim
    cases X <;> cases X' <;> first | exact hX.elim | skip
    · exact (Dense.Same.addAssign hC hX).map (fun _ _ h => ⟨h.1, h.2⟩)
    · exact (Dense.Same.addLowRank hC hX).map (fun _ _ h => ⟨h.1, h.2⟩)
    · exact Both.err _ _
    · exact Both.err _ _
  | lowRank l =>
    cases C' <;> try exact hC.elim
    cases X <;> cases X' <;> first | exact hX.elim | skip
    · exact Both.err _ _
    · exact (LrOps.Local.addAssign ho hC hX).map (fun _ _ h => ⟨h, trivial⟩)
    · exact Both.err _ _
    · exact Both.err _ _
  | hier m n C ih =>
    cases C' <;> try exact hC.elim
    obtain ⟨rfl, rfl, hC⟩ := hC
    cases X <;> cases X' <;> first | exact hX.elim | skip
    · exact Both.err _ _
    · simp only [Mat.addAssign]
      refine (same_splitLowRank hX hb.1 hb.2.1).bind (fun BH BH' _ _ ⟨hs, _⟩ => ?_)
      cases BH <;> cases BH' <;> first | exact hs.elim | exact Both.err _ _ | skip
      obtain ⟨rfl, rfl, hs⟩ := hs
      exact (collect2_both (fun i hi j hj => Both.assert (fun k1 => Both.assert (fun k2 =>
        ih i j (hC i hi j hj) (hs i k1 j k2) (hb.2.2 i hi j hj))))).map (fun g g' hg =>
        ⟨⟨rfl, rfl, fun i hi j hj => (hg i hi j hj).1⟩, rfl, rfl, fun i hi j hj => (hg i hi j hj).2⟩)
    · obtain ⟨rfl, rfl, hX⟩ := hX
      simp only [Mat.addAssign]
      exact (collect2_both (fun i hi j hj => Both.assert (fun k1 => Both.assert (fun k2 =>
        ih i j (hC i hi j hj) (hX i k1 j k2) (hb.2.2 i hi j hj))))).map (fun g g' hg =>
        ⟨⟨rfl, rfl, fun i hi j hj => (hg i hi j hj).1⟩, rfl, rfl, fun i hi j hj => (hg i hi j hj).2⟩)
    · exact Both.err _ _
  | empty m n =>
    cases C' <;> try exact hC.elim
    cases X <;> cases X' <;> first | exact hX.elim | exact Both.err _ _

theorem same_scaleAdd {o : LrOps R} (ho : o.Local) {C C' : Mat R} {X X' : LowRank R} (hC : C.Same C')
    (hX : X.Same X') (hb : C.HasBlocks) (β : R) :
    Alike C (scaleAdd o C β X) (scaleAdd o C' β X') := by
  unfold scaleAdd
  refine (same_scale hC β).bind (fun Y Y' _ _ ⟨y1, y2⟩ => ?_)
  exact (same_addAssign ho (X := .lowRank X) (X' := .lowRank X') y1 hX (y2.hasBlocks hb)).mono (fun Z Z' hz =>
    ⟨hz.1, y2.trans hz.2⟩)

end
end Mat
end Verif
