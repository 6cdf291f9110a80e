import Verif.Spec.Id
import Verif.Lemmas.Trsm
import Mathlib.LinearAlgebra.Matrix.Block
import Mathlib.LinearAlgebra.Matrix.NonsingularInverse
import Mathlib.LinearAlgebra.Matrix.ToLin

/-!
The interpolative decomposition.
-/

namespace Verif
open Finset

variable {R : Type}

theorem getD_eq {P : List Nat} {j : Nat} (h : j < P.length) : P.getD j 0 = P[j] := by
  simp [List.getD, List.getElem?_eq_getElem h]

theorem getD_mem {P : List Nat} {j : Nat} (h : j < P.length) : P.getD j 0 ∈ P := by
  rw [getD_eq h]; exact List.getElem_mem h

theorem getD_inj {P : List Nat} (hn : P.Nodup) {i j : Nat} (hi : i < P.length) (hj : j < P.length)
    (h : P.getD i 0 = P.getD j 0) : i = j := by
  rw [getD_eq hi, getD_eq hj] at h
  exact (List.Nodup.getElem_inj_iff hn).1 h

theorem getD_surj {P : List Nat} {n : Nat} (hp : P.Perm (List.range n)) {c : Nat} (hc : c < n) :
    ∃ j < n, P.getD j 0 = c := by
  have : c ∈ P := hp.mem_iff.2 (List.mem_range.2 hc)
  obtain ⟨j, hj, e⟩ := List.mem_iff_getElem.1 this
  have hl : P.length = n := by simpa using hp.length_eq
  exact ⟨j, by omega, by rw [getD_eq hj, e]⟩

theorem perm_len {P : List Nat} {n : Nat} (hp : P.Perm (List.range n)) : P.length = n := by
  simpa using hp.length_eq

theorem perm_lt {P : List Nat} {n : Nat} (hp : P.Perm (List.range n)) {c : Nat} (hc : c ∈ P) : c < n :=
  List.mem_range.1 (hp.mem_iff.1 hc)

theorem perm_nodup {P : List Nat} {n : Nat} (hp : P.Perm (List.range n)) : P.Nodup :=
  hp.nodup_iff.2 List.nodup_range

namespace Dense

theorem interleaveRow_at [Zero R] [One R] {A : Dense R} {P : List Nat} (hn : P.Nodup) {k i n j : Nat}
    (hj : j < n) (hl : n ≤ P.length) : interleaveRow A P k i n (P.getD j 0) =
      if j < k then (if i = j then 1 else 0) else A.val i (j - k) := by
  induction n with
  | zero => omega
  | succ n ih =>
    rw [interleaveRow]
    beta_reduce
    by_cases h : j = n
    · subst h
      rw [if_pos rfl]
    · rw [if_neg (fun e => h (getD_inj hn (by omega) (by omega) e))]
      exact ih (by omega) (by omega)

theorem interleaveId_ok [Zero R] [One R] {A V : Dense R} {P : List Nat} (hn : P.Nodup)
    (h : interleaveId A P = .ok V) : A.cols ≤ P.length ∧ V.rows = A.rows ∧ V.cols = P.length ∧
      ∀ i, ∀ j < P.length, V.val i (P.getD j 0) =
        if j < P.length - A.cols then (if i = j then 1 else 0) else A.val i (j - (P.length - A.cols)) := by
  simp only [interleaveId, except_bind_eq_ok, assertM_eq_ok, decide_eq_true_eq] at h
  obtain ⟨_, h1, _, -, h⟩ := h
  cases Except.ok.inj h
  exact ⟨h1, rfl, rfl, fun i j hj => interleaveRow_at hn hj (Nat.le_refl _)⟩

theorem interleaveId_exists [Zero R] [One R] {A : Dense R} {P : List Nat} {n : Nat}
    (hp : P.Perm (List.range n)) (hA : A.cols ≤ n) : ∃ V, interleaveId A P = .ok V := by
  have hl := perm_len hp
  refine ⟨⟨A.rows, P.length, fun i => interleaveRow A P (P.length - A.cols) i P.length⟩, ?_⟩
  simp only [interleaveId]
  rw [show assertM (decide (A.cols ≤ P.length)) = .ok () by
      rw [assertM_eq_ok]; simpa using by omega,
    show assertM (decide (A.rows = 0 ∨ ∀ c ∈ P, c < P.length)) = .ok () by
      rw [assertM_eq_ok]
      refine decide_eq_true (Or.inr fun c hc => ?_)
      rw [hl]
      exact perm_lt hp hc]
  rfl

end Dense

/-- The entry `(l,j)` of the triangular factor. -/
def upper [Zero R] (f : Nat → Nat → R) (l j : Nat) : R := if l ≤ j then f l j else 0

theorem resizeIdx_eq {P : List Nat} {k : Nat} (h : k ≤ P.length) : Dense.resizeIdx P k = P.take k := by
  simp [Dense.resizeIdx, Nat.sub_eq_zero_of_le h]

theorem take_getD {P : List Nat} {k j : Nat} (h : j < k) : (P.take k).getD j 0 = P.getD j 0 := by
  simp [List.getD, h]

variable [Field R] [DecidableEq R]

/-- A returned one-sided decomposition. -/
theorem oneSidedId_ok {pqr : PivotedQr R} {A V : Dense R} {k : Nat} {S : List Nat}
    (hq : IsPivotedQr A (pqr A).1 (pqr A).2) (h : A.oneSidedId pqr k = .ok (V, S)) :
    k ≤ min A.rows A.cols ∧ Interp A k V S ∧ S = (pqr A).2.take k ∧
      ∀ p < k, ∀ j < A.cols, ∑ l ∈ range k, upper (pqr A).1 p l * V.val l ((pqr A).2.getD j 0) =
        upper (pqr A).1 p j := by
  simp only [Dense.oneSidedId, except_bind_eq_ok, assertM_eq_ok, decide_eq_true_eq] at h
  obtain ⟨_, hk, h⟩ := h
  have hp := hq.perm
  have hl := perm_len hp
  have hnd := perm_nodup hp
  simp only [Dense.geqp3] at h
  generalize (pqr A).1 = f at *
  generalize (pqr A).2 = P at *
  -- the common part: `V` is the identity in the selected columns
  have fin : (∀ i, ∀ j < k, V.val i (P.getD j 0) = if i = j then 1 else 0) → V.rows = k →
      V.cols = P.length → S = Dense.resizeIdx P k → Interp A k V S ∧ S = P.take k := by
    intro hI h0 h1 hS
    rw [resizeIdx_eq (by omega)] at hS
    subst hS
    refine ⟨⟨by simp; omega, hnd.sublist (List.take_sublist _ _), fun c hc => ?_, h0, by omega,
      fun i hi j hj => ?_⟩, rfl⟩
    · exact perm_lt hp (List.mem_of_mem_take hc)
    · rw [take_getD hj, hI i j hj]
  -- the equations for the selected columns
  have sel : (∀ i, ∀ j < k, V.val i (P.getD j 0) = if i = j then 1 else 0) → ∀ p, ∀ j < k,
      ∑ l ∈ range k, upper f p l * V.val l (P.getD j 0) = upper f p j := by
    intro hI p j hj
    rw [Finset.sum_eq_single j]
    · rw [hI j j hj, if_pos rfl, mul_one]
    · intro b _ hb
      rw [hI b j hj, if_neg hb, mul_zero]
    · intro h; exact absurd (mem_range.2 hj) h
  refine ⟨hk, ?_⟩
  split at h
  · simp only [except_bind_eq_ok] at h
    obtain ⟨X, hX, V', hV, h⟩ := h
    have h := Except.ok.inj h
    simp only [Prod.mk.injEq] at h
    obtain ⟨rfl, hS⟩ := h
    have T := Mat.Dense_trsm_ok (uplo := .upper) (side := .left) (Eq.refl k) hX
    obtain ⟨i1, i2, i3, i4⟩ := Dense.interleaveId_ok hnd hV
    have xc : X.cols = A.cols - k := T.2.1
    have e : P.length - X.cols = k := by omega
    rw [e] at i4
    have hI : ∀ i, ∀ j < k, V'.val i (P.getD j 0) = if i = j then 1 else 0 := by
      intro i j hj
      rw [i4 i j (by omega), if_pos hj]
    obtain ⟨hi, hs⟩ := fin hI (i2.trans T.1) i3 hS.symm
    refine ⟨hi, hs, fun p hp' j hj => ?_⟩
    by_cases hjk : j < k
    · exact sel hI p j hjk
    · have := T.2.2 p hp' (j - k) (show j - k < A.cols - k by omega)
      simp only [Mat.sideProd, Mat.triEntry, Mat.entry] at this
      rw [if_pos (show p < min A.rows A.cols ∧ p ≤ k + (j - k) by omega)] at this
      rw [show k + (j - k) = j by omega] at this
      rw [show upper f p j = f p j from if_pos (by omega), ← this]
      refine Finset.sum_congr rfl (fun l hl => ?_)
      rw [i4 l j (by omega), if_neg hjk]
      congr 1
      have := mem_range.1 hl
      rcases Nat.lt_trichotomy p l with h | h | h
      · rw [if_neg (by omega), if_pos h, if_pos (by omega)]
        exact if_pos h.le
      · subst h
        rw [if_pos rfl, if_neg (by decide), if_pos (by omega)]
        exact if_pos (Nat.le_refl _)
      · rw [if_neg (by omega), if_neg (by omega)]
        exact if_neg (by omega)
  · simp only [except_bind_eq_ok] at h
    obtain ⟨V', hV, h⟩ := h
    have h := Except.ok.inj h
    simp only [Prod.mk.injEq] at h
    obtain ⟨rfl, hS⟩ := h
    obtain ⟨i1, i2, i3, i4⟩ := Dense.interleaveId_ok hnd hV
    have ek : k = P.length := by omega
    have hI : ∀ i, ∀ j < k, V'.val i (P.getD j 0) = if i = j then 1 else 0 := by
      intro i j hj
      rw [i4 i j (by omega), if_neg (by simp only [Dense.ident] at *; omega)]
      simp [Dense.ident, ek]
    obtain ⟨hi, hs⟩ := fin hI i2 i3 hS.symm
    exact ⟨hi, hs, fun p _ j hj => sel hI p j (by omega)⟩

omit [DecidableEq R] in
/-- The triangular factor is the basis transposed times the permuted matrix. -/
theorem pivoted_upper {A : Dense R} {f Q : Nat → Nat → R} {P : List Nat}
    (hO : OrthoCols A.rows (min A.rows A.cols) Q)
    (hf : ∀ i < A.rows, ∀ j < A.cols, A.val i (P.getD j 0) =
      ∑ l ∈ range (min A.rows A.cols), Q i l * upper f l j) {l j : Nat} (hl : l < min A.rows A.cols)
    (hj : j < A.cols) : upper f l j = ∑ i ∈ range A.rows, Q i l * A.val i (P.getD j 0) := by
  rw [Finset.sum_congr rfl (fun i hi => by rw [hf i (mem_range.1 hi) j hj])]
  simp only [Finset.mul_sum, ← mul_assoc]
  rw [Finset.sum_comm]
  simp only [← Finset.sum_mul]
  rw [Finset.sum_congr rfl (fun q hq => by rw [hO l hl q (mem_range.1 hq)])]
  simp [hl]

/-- Exactness if nothing is discarded. -/
theorem reproduces_of_upper {pqr : PivotedQr R} {A V : Dense R} {k : Nat} {S : List Nat}
    (hq : IsPivotedQr A (pqr A).1 (pqr A).2) (h : A.oneSidedId pqr k = .ok (V, S))
    (hz : ∀ l < min A.rows A.cols, k ≤ l → ∀ j < A.cols, upper (pqr A).1 l j = 0) :
    Reproduces A k V S := by
  obtain ⟨hk, hI, rfl, hV⟩ := oneSidedId_ok hq h
  have hp := hq.perm
  obtain ⟨Q, -, hf⟩ := hq.factor
  generalize (pqr A).1 = f at *
  generalize (pqr A).2 = P at *
  have hf' : ∀ i < A.rows, ∀ j < A.cols, A.val i (P.getD j 0) = ∑ l ∈ range k, Q i l * upper f l j := by
    intro i hi j hj
    rw [hf i hi j hj]
    symm
    refine Finset.sum_subset (Finset.range_mono hk) (fun l hl hn => ?_)
    rw [hz l (mem_range.1 hl) (by simpa using hn) j hj, mul_zero]
  intro i hi c hc
  obtain ⟨j, hj, rfl⟩ := getD_surj hp hc
  rw [hf' i hi j hj]
  have e : ∀ l ∈ range k, A.val i ((P.take k).getD l 0) * V.val l (P.getD j 0) =
      ∑ p ∈ range k, Q i p * (upper f p l * V.val l (P.getD j 0)) := by
    intro l hl
    rw [take_getD (mem_range.1 hl), hf' i hi l (by have := mem_range.1 hl; omega), Finset.sum_mul]
    exact Finset.sum_congr rfl (fun _ _ => by ring)
  rw [Finset.sum_congr rfl e, Finset.sum_comm]
  simp only [← Finset.mul_sum]
  exact Finset.sum_congr rfl (fun p hp => by rw [hV p (mem_range.1 hp) j hj])

omit [DecidableEq R] in
/-- Square triangular systems: the determinant. -/
theorem upper_det {k : Nat} (f : Nat → Nat → R) :
    (Matrix.of fun i j : Fin k => upper f i j).det = ∏ i : Fin k, f i i := by
  rw [Matrix.det_of_isUpperTriangular]
  · refine Finset.prod_congr rfl (fun i _ => ?_)
    simp [upper]
  · intro i j hij
    simp only [upper, Matrix.of_apply]
    exact if_neg (by simpa using hij)

omit [DecidableEq R] in
/-- A product with fewer than `k` inner columns is singular. -/
theorem det_zero_of_thin {k r : Nat} (hr : r < k) (X Y : Nat → Nat → R) :
    (Matrix.of fun i j : Fin k => ∑ l ∈ range r, X i l * Y l j).det = 0 := by
  -- the product of a matrix with a zero column
  have e : (Matrix.of fun i j : Fin k => ∑ l ∈ range r, X i l * Y l j) =
      (Matrix.of fun i l : Fin k => if l.1 < r then X i l else 0) * (Matrix.of fun l j : Fin k => Y l j) := by
    ext i j
    simp only [Matrix.mul_apply, Matrix.of_apply]
    rw [Fin.sum_univ_eq_sum_range (fun l => (if l < r then X i l else 0) * Y l j)]
    rw [← Finset.sum_subset (Finset.range_mono hr.le) (fun l _ hn => by
      rw [if_neg (by simpa using hn), zero_mul])]
    exact Finset.sum_congr rfl (fun l hl => by rw [if_pos (mem_range.1 hl)])
  rw [e, Matrix.det_mul, Matrix.det_eq_zero_of_column_eq_zero ⟨r, hr⟩, zero_mul]
  intro i
  simp

omit [DecidableEq R] in
/-- The first `k` diagonal entries are nonzero if and only if the rank is at least
`k`. -/
theorem diag_iff {A : Dense R} {f : Nat → Nat → R} {P : List Nat} (hq : IsPivotedQr A f P) {k : Nat}
    (hk : k ≤ min A.rows A.cols) : (∀ l < k, f l l ≠ 0) ↔ ∀ r < k, ¬ A.RankLe r := by
  obtain ⟨Q, hO, hf⟩ := hq.factor
  constructor
  · rintro hd r hr ⟨X, Y, hXY⟩
    have hD : (Matrix.of fun i j : Fin k => upper f i j).det ≠ 0 := by
      rw [upper_det]
      exact Finset.prod_ne_zero_iff.2 (fun i _ => hd i i.2)
    apply hD
    rw [← det_zero_of_thin hr (fun l p => ∑ i ∈ range A.rows, Q i l * X i p) (fun p j => Y p (P.getD j 0))]
    congr 1
    ext l j
    have hj : j.1 < A.cols := by have := j.2; omega
    simp only [Matrix.of_apply]
    rw [pivoted_upper hO hf (by have := l.2; omega) hj]
    have hc : P.getD j 0 < A.cols := perm_lt hq.perm (getD_mem (by rw [perm_len hq.perm]; exact hj))
    rw [Finset.sum_congr rfl (fun i hi => by rw [hXY i (mem_range.1 hi) _ hc])]
    simp only [Finset.mul_sum, Finset.sum_mul]
    rw [Finset.sum_comm]
    exact Finset.sum_congr rfl (fun _ _ => Finset.sum_congr rfl (fun _ _ => by ring))
  · intro hr l hl h0
    refine hr l hl ⟨Q, fun q c => upper f q (P.idxOf c), fun i hi c hc => ?_⟩
    obtain ⟨j, hj, rfl⟩ := getD_surj hq.perm hc
    have hjl : j < P.length := by rw [perm_len hq.perm]; exact hj
    beta_reduce
    rw [show P.idxOf (P.getD j 0) = j by
      rw [getD_eq hjl]; exact (perm_nodup hq.perm).idxOf_getElem j hjl, hf i hi j hj]
    symm
    refine Finset.sum_subset (Finset.range_mono (by omega)) (fun q hq' hn => ?_)
    have : upper f q j = 0 := by
      unfold upper
      split
      · exact hq.pivot l (by omega) h0 q (mem_range.1 hq') (by simpa using hn) j hj ‹_›
      · rfl
    rw [this, mul_zero]

theorem trsm_returns {k n : Nat} {F G : Nat → Nat → R} (hn : 0 < n) :
    (∃ X, Dense.trsm .upper .left ⟨k, k, F⟩ ⟨k, n, G⟩ = .ok X) ↔ ∀ l < k, F l l ≠ 0 := by
  have ht : ∀ i, Dense.tri ⟨k, k, F⟩ .upper (decide (Uplo.upper = Uplo.lower)) i i = F i i := by
    intro i
    simp [Dense.tri]
  simp only [Dense.trsm, Side.pick, ht]
  constructor
  · rintro ⟨X, h⟩ l hl
    rw [if_neg (by omega)] at h
    split at h
    · rename_i hc
      have := of_decide_eq_true (List.all_eq_true.1 hc.2.2 l (List.mem_range.2 hl))
      simpa using this
    · cases h
  · intro h
    by_cases h0 : k = 0
    · exact ⟨_, if_pos (Or.inl h0)⟩
    · rw [if_neg (by omega), if_pos]
      · exact ⟨_, rfl⟩
      · refine ⟨Nat.le_refl _, Nat.le_refl _, List.all_eq_true.2 (fun l hl => decide_eq_true ?_)⟩
        simpa using h l (List.mem_range.1 hl)

/-- When a one-sided decomposition is returned. -/
theorem oneSidedId_returns_iff {pqr : PivotedQr R} {A : Dense R} {k : Nat}
    (hq : IsPivotedQr A (pqr A).1 (pqr A).2) :
    (∃ v, A.oneSidedId pqr k = .ok v) ↔
      k ≤ min A.rows A.cols ∧ (k = A.cols ∨ ∀ r < k, ¬ A.RankLe r) := by
  by_cases hk : k ≤ min A.rows A.cols
  swap
  · constructor
    · rintro ⟨v, h⟩
      simp only [Dense.oneSidedId, except_bind_eq_ok, assertM_eq_ok, decide_eq_true_eq] at h
      obtain ⟨_, h, _⟩ := h
      exact absurd h hk
    · intro h; exact absurd h.1 hk
  have hp := hq.perm
  have ha : assertM (decide (k ≤ min A.rows A.cols)) = .ok () := by
    rw [assertM_eq_ok]; exact decide_eq_true hk
  by_cases hc : k < min A.rows A.cols ∨ A.rows < A.cols
  · have hkn : k < A.cols := by omega
    have e : (∃ v, A.oneSidedId pqr k = .ok v) ↔
        ∃ X, Dense.trsm .upper .left ⟨k, k, (A.geqp3 pqr).1.val⟩
          ⟨k, A.cols - k, fun i j => (A.geqp3 pqr).1.val i (k + j)⟩ = .ok X := by
      simp only [Dense.oneSidedId]
      rw [ha, except_bind_ok, if_pos hc]
      constructor
      · rintro ⟨v, h⟩
        rw [except_bind_eq_ok] at h
        exact ⟨h.choose, h.choose_spec.1⟩
      · rintro ⟨X, hX⟩
        have hX' : Dense.trsm .upper .left ⟨k, k, (A.geqp3 pqr).1.val⟩
          ⟨k, (A.geqp3 pqr).1.cols - k, fun i j => (A.geqp3 pqr).1.val i (k + j)⟩ = .ok X := hX
        rw [hX', except_bind_ok]
        obtain ⟨V, hV⟩ := Dense.interleaveId_exists hp (A := X)
          (by rw [(Mat.Dense_trsm_dims hX).2]; exact Nat.sub_le _ _)
        exact ⟨(V, Dense.resizeIdx (pqr A).2 k), by
          rw [show (A.geqp3 pqr).2 = (pqr A).2 from rfl, hV, except_bind_ok]⟩
    rw [e, trsm_returns (by omega)]
    rw [show (k = A.cols ∨ ∀ r < k, ¬ A.RankLe r) ↔ ∀ r < k, ¬ A.RankLe r from
      ⟨fun h => h.resolve_left (by omega), Or.inr⟩, ← diag_iff hq hk]
    constructor
    · refine fun h => ⟨hk, fun l hl => ?_⟩
      have := h l hl
      simp only [Dense.geqp3] at this
      rwa [if_pos ⟨by omega, Nat.le_refl _⟩] at this
    · intro h l hl
      simp only [Dense.geqp3]
      rw [if_pos ⟨by omega, Nat.le_refl _⟩]
      exact h.2 l hl
  · constructor
    · intro _
      exact ⟨hk, Or.inl (by omega)⟩
    · intro _
      simp only [Dense.oneSidedId]
      rw [ha, except_bind_ok, if_neg hc]
      obtain ⟨V, hV⟩ := Dense.interleaveId_exists hp (A := (Dense.ident k k : Dense R))
        (by show k ≤ _; omega)
      exact ⟨(V, Dense.resizeIdx (pqr A).2 k), by
          rw [show (A.geqp3 pqr).2 = (pqr A).2 from rfl, hV, except_bind_ok]⟩

/-- Exactness for matrices of rank at most `k`. -/
theorem reproduces_of_rank {pqr : PivotedQr R} {A V : Dense R} {k : Nat} {S : List Nat}
    (hq : IsPivotedQr A (pqr A).1 (pqr A).2) (h : A.oneSidedId pqr k = .ok (V, S)) (hr : A.RankLe k) :
    Reproduces A k V S := by
  refine reproduces_of_upper hq h ?_
  obtain ⟨hk, hret⟩ := (oneSidedId_returns_iff hq).1 ⟨_, h⟩
  intro l hl hkl j hj
  have hd := (diag_iff hq hk).2 (hret.resolve_left (by omega))
  obtain ⟨Q, hO, hf⟩ := hq.factor
  obtain ⟨X, Y, hXY⟩ := hr
  have hp := hq.perm
  generalize (pqr A).1 = f at *
  generalize (pqr A).2 = P at *
  have hc : ∀ {j}, j < A.cols → P.getD j 0 < A.cols := fun hj =>
    perm_lt hp (getD_mem (by rw [perm_len hp]; exact hj))
  -- the selected columns of the right factor are invertible
  have up : ∀ {l j}, l < min A.rows A.cols → j < A.cols → upper f l j =
      ∑ p ∈ range k, (∑ i ∈ range A.rows, Q i l * X i p) * Y p (P.getD j 0) := by
    intro l j hl hj
    rw [pivoted_upper hO hf hl hj,
      Finset.sum_congr rfl (fun i hi => by rw [hXY i (mem_range.1 hi) _ (hc hj)])]
    simp only [Finset.mul_sum, Finset.sum_mul]
    rw [Finset.sum_comm]
    exact Finset.sum_congr rfl (fun _ _ => Finset.sum_congr rfl (fun _ _ => by ring))
  set N : Matrix (Fin k) (Fin k) R := Matrix.of fun p j => Y p (P.getD j 0) with hN
  set M : Matrix (Fin k) (Fin k) R := Matrix.of fun l p => ∑ i ∈ range A.rows, Q i l * X i p with hM
  have hMN : M * N = Matrix.of fun i j : Fin k => upper f i j := by
    ext a b
    rw [Matrix.mul_apply, Matrix.of_apply, up (by have := a.2; omega) (by have := b.2; omega),
      ← Fin.sum_univ_eq_sum_range (fun p => (∑ i ∈ range A.rows, Q i a * X i p) * Y p (P.getD b 0))]
    rfl
  have hNd : IsUnit N.det := by
    refine isUnit_iff_ne_zero.2 (fun h0 => ?_)
    have : (M * N).det = 0 := by rw [Matrix.det_mul, h0, mul_zero]
    rw [hMN, upper_det] at this
    exact Finset.prod_ne_zero_iff.2 (fun i _ => hd i.1 i.2) this
  -- row `l` of the triangle is a combination of zeros
  have hrow : ∀ b : Fin k, ∑ p : Fin k, (∑ i ∈ range A.rows, Q i l * X i p) * N p b = 0 := by
    intro b
    have h1 := up hl (show b.1 < A.cols by have := b.2; omega)
    rw [show upper f l b = 0 from if_neg (by have := b.2; omega)] at h1
    rw [← Fin.sum_univ_eq_sum_range (fun p => (∑ i ∈ range A.rows, Q i l * X i p) * Y p (P.getD b 0))] at h1
    exact h1.symm
  have hz : (fun p : Fin k => ∑ i ∈ range A.rows, Q i l * X i p) = 0 := by
    have h1 : Matrix.vecMul (fun p : Fin k => ∑ i ∈ range A.rows, Q i l * X i p) N = 0 := by
      funext b
      exact hrow b
    have h2 := congrArg (fun v => Matrix.vecMul v N⁻¹) h1
    simpa [Matrix.vecMul_vecMul, Matrix.mul_nonsing_inv _ hNd] using h2
  rw [up hl hj]
  refine Finset.sum_eq_zero (fun p hp' => ?_)
  have := congrFun hz ⟨p, mem_range.1 hp'⟩
  simp only [Pi.zero_apply] at this
  rw [this, zero_mul]

end Verif
