import Verif.Lemmas.EckartYoung
import Verif.Lemmas.MgsLift
import Verif.Props.LrAdd

/-
C26: rounded addition gives a best approximation of its rank, fast rounded addition does
under conditions on the factors.
-/

namespace Verif
open Finset

/-- Sum of the squares of the entries of `A + B - E`. -/
noncomputable def sumErr (A B : LowRank ℝ) (E : Nat → Nat → ℝ) : ℝ :=
  ∑ i ∈ range A.dim0, ∑ j ∈ range A.dim1, (A.entry i j + B.entry i j - E i j) ^ 2

/-- Distance of a result that keeps the first terms of a singular value decomposition. -/
theorem best_of_svd {A B C : LowRank ℝ} {k : Nat} {u : Nat → Nat → ℝ} {s : Nat → ℝ} {v : Nat → Nat → ℝ}
    (hk : C.rank ≤ k) (hf : ∀ i < A.dim0, ∀ j < A.dim1, terms k u s v i j = A.entry i j + B.entry i j)
    (hc : ∀ i < A.dim0, ∀ j < A.dim1, C.entry i j = terms C.rank u s v i j)
    (hu : OrthoCols A.dim0 k u) (hv : OrthoRows A.dim1 k v) (hs0 : ∀ l < k, 0 ≤ s l)
    (hs : ∀ l, ∀ l' < k, l ≤ l' → s l' ≤ s l) (X Y : Nat → Nat → ℝ) :
    sumErr A B C.entry ≤ sumErr A B fun i j => ∑ l ∈ range C.rank, X i l * Y l j := by
  have h := eckart_young hu hv hs0 hs C.rank X Y
  rw [← truncation_dist hu hv hk] at h
  refine le_trans (le_of_eq ?_) (le_trans h (le_of_eq ?_))
  · refine Finset.sum_congr rfl fun i hi => Finset.sum_congr rfl fun j hj => ?_
    rw [hf i (mem_range.1 hi) j (mem_range.1 hj), hc i (mem_range.1 hi) j (mem_range.1 hj)]
  · refine Finset.sum_congr rfl fun i hi => Finset.sum_congr rfl fun j hj => ?_
    rw [hf i (mem_range.1 hi) j (mem_range.1 hj)]

/-- **C26**: no matrix that is a product of `C.rank` columns with `C.rank` rows is closer to
`A + B`, in the Frobenius norm, than the result of rounded addition. -/
theorem C26_rounded_best {L : Lapack ℝ} (hL : L.Factors) (hO : L.Ortho) (hS : L.Sorted) {A B C : LowRank ℝ}
    (hA : A.WF) (hB : B.WF) (h1 : A.dim1 = B.dim1) (h : A.roundedAdd L B = .ok C) (X Y : Nat → Nat → ℝ) :
    sumErr A B C.entry ≤ sumErr A B fun i j => ∑ l ∈ range C.rank, X i l * Y l j := by
  obtain ⟨k, u, s, v, hk, hK, hf, hu, hv, hs0, hs, -⟩ := C26_rounded_svd hL hO hS hA hB h1 h
  obtain ⟨w, sq, d0, d1, -⟩ := C26_rounded hL hA hB h1 h
  exact best_of_svd hk hf (fun i hi j hj => hK.entry w sq (by rw [d0]; exact hi) (by rw [d1]; exact hj)) hu hv hs0 hs X Y

/-! ### fast rounded addition -/

/-- What orthonormal columns leave of a vector is orthogonal to them. -/
theorem residual_ortho {m r : Nat} {U : Nat → Nat → ℝ} (hU : OrthoCols m r U) (b : Nat → Nat → ℝ) {a l : Nat}
    (ha : a < r) : ∑ i ∈ range m, U i a * (b i l - mm r U (mm m (fun a i => U i a) b) i l) = 0 := by
  simp only [mul_sub, Finset.sum_sub_distrib]
  have : ∑ i ∈ range m, U i a * mm r U (mm m (fun a i => U i a) b) i l = mm m (fun a i => U i a) b a l := by
    simp only [mm, Finset.mul_sum]
    rw [Finset.sum_comm, Finset.sum_eq_single a]
    · have e : ∀ i, ∑ x ∈ range m, U i a * (U i a * (U x a * b x l)) = (U i a * U i a) * ∑ x ∈ range m, U x a * b x l := by
        intro i
        rw [Finset.mul_sum]
        exact Finset.sum_congr rfl fun _ _ => by ring
      simp only [e]
      rw [← Finset.sum_mul, hU a ha a ha, if_pos rfl, one_mul]
    · intro c hc hne
      have e : ∀ i, ∑ x ∈ range m, U i a * (U i c * (U x c * b x l)) = (U i a * U i c) * ∑ x ∈ range m, U x c * b x l := by
        intro i
        rw [Finset.mul_sum]
        exact Finset.sum_congr rfl fun _ _ => by ring
      simp only [e]
      rw [← Finset.sum_mul, hU a ha c (mem_range.1 hc), if_neg (Ne.symm hne), zero_mul]
    · intro h
      exact absurd (mem_range.2 ha) h
  rw [this]
  simp only [mm]
  rw [sub_self]

/-- No combination of the columns of `b` (other than the trivial one) is a combination of
those of `a`. -/
def NewDirections (m r t : Nat) (a b : Nat → Nat → ℝ) : Prop :=
  ∀ x y : Nat → ℝ, (∀ i < m, ∑ l ∈ range t, b i l * x l = ∑ l ∈ range r, a i l * y l) → ∀ l < t, x l = 0

/-- Orthonormal columns `U`, and `Q` from a factorization `Q*P` of what they leave of `b`. -/
theorem ortho_extend {m r t : Nat} {U b Q P : Nat → Nat → ℝ} (hU : OrthoCols m r U) (hQ : OrthoCols m t Q)
    (hf : ∀ i < m, ∀ l < t, mm t Q P i l = b i l - mm r U (mm m (fun a i => U i a) b) i l)
    (hn : NewDirections m r t U b) : OrthoCols m (r + t) (Dense.hcat ⟨m, r, U⟩ ⟨m, t, Q⟩).val := by
  obtain ⟨-, hs⟩ := inj_of_factor (K := ℝ) (range t) (fun i => i < m)
    (A := fun i l => b i l - mm r U (mm m (fun a i => U i a) b) i l) (M := Q) (T := P)
    (fun i hi l hl => (hf i hi l (mem_range.1 hl)).symm) (fun x hx l hl => by
      refine hn x (fun a => ∑ l ∈ range t, mm m (fun a i => U i a) b a l * x l) (fun i hi => ?_) l (mem_range.1 hl)
      have := hx i hi
      simp only [sub_mul, Finset.sum_sub_distrib] at this
      rw [sub_eq_zero.1 this]
      simp only [mm, Finset.mul_sum, Finset.sum_mul]
      rw [Finset.sum_comm]
      refine Finset.sum_congr rfl fun a _ => Finset.sum_congr rfl fun l _ => Finset.sum_congr rfl fun i _ => by ring)
  have cross : ∀ a < r, ∀ c < t, ∑ i ∈ range m, U i a * Q i c = 0 := by
    intro a ha c hc
    obtain ⟨v, hv⟩ := hs (fun k => if k = c then 1 else 0)
    have e : ∀ i < m, Q i c = ∑ l ∈ range t, (b i l - mm r U (mm m (fun a i => U i a) b) i l) * v l := by
      intro i hi
      have : ∑ l ∈ range t, (b i l - mm r U (mm m (fun a i => U i a) b) i l) * v l =
          ∑ k ∈ range t, Q i k * ∑ l ∈ range t, P k l * v l := by
        rw [Finset.sum_congr rfl fun l hl => by rw [← hf i hi l (mem_range.1 hl)]]
        simp only [mm, Finset.mul_sum, Finset.sum_mul]
        rw [Finset.sum_comm]
        exact Finset.sum_congr rfl fun _ _ => Finset.sum_congr rfl fun _ _ => by ring
      rw [this, Finset.sum_congr rfl fun k hk => by rw [hv k hk]]
      simp [hc]
    rw [Finset.sum_congr rfl fun i hi => by rw [e i (mem_range.1 hi)]]
    simp only [Finset.mul_sum]
    rw [Finset.sum_comm]
    refine Finset.sum_eq_zero fun l _ => ?_
    have := residual_ortho hU b (l := l) ha
    rw [← mul_eq_zero_of_left this (v l), Finset.sum_mul]
    exact Finset.sum_congr rfl fun _ _ => by ring
  intro a ha c hc
  simp only [Dense.hcat]
  by_cases h1 : a < r <;> by_cases h2 : c < r
  · simp only [if_pos h1, if_pos h2]
    exact hU a h1 c h2
  · simp only [if_pos h1, if_neg h2]
    rw [cross a h1 (c - r) (by omega), if_neg (by omega)]
  · simp only [if_neg h1, if_pos h2]
    rw [if_neg (by omega), ← cross c h2 (a - r) (by omega)]
    exact Finset.sum_congr rfl fun _ _ => mul_comm _ _
  · simp only [if_neg h1, if_neg h2]
    rw [hQ (a - r) (by omega) (c - r) (by omega)]
    by_cases h : a = c
    · rw [if_pos h, if_pos (by omega)]
    · rw [if_neg h, if_neg (by omega)]

/-- **C26**: fast rounded addition gives a best approximation of rank `A.rank` if the factors
of `A` are orthonormal and `B` brings new directions only. -/
theorem C26_fast_best {L : Lapack ℝ} (hL : L.Factors) (hO : L.Ortho) (hS : L.Sorted) {A B C : LowRank ℝ}
    (hA : A.WF) (hAs : A.Square) (hB : B.WF) (h1 : A.dim1 = B.dim1) (he : A.eps = 0)
    (hU : OrthoCols A.dim0 A.rank A.U.val) (hV : OrthoRows A.dim1 A.rank A.V.val)
    (nU : NewDirections A.dim0 A.rank B.rank A.U.val B.U.val)
    (nV : NewDirections A.dim1 A.rank B.S.cols (fun j l => A.V.val l j) fun j l => B.V.val l j)
    (h : A.fastAdd L B = .ok C) (X Y : Nat → Nat → ℝ) :
    sumErr A B C.entry ≤ sumErr A B fun i j => ∑ l ∈ range A.rank, X i l * Y l j := by
  obtain ⟨-, -, hr, k, u, s, v, r, hk, M, Q, P, Y', W, F⟩ := LowRank.fastAdd_ok hA hAs hB h1 he h
  have oU := ortho_extend hU (F.orthoQ hO) (F.qr hL) nU
  have oV := ortho_extend (m := A.dim1) (r := A.rank) (t := B.S.cols) (U := fun j l => A.V.val l j)
    (b := fun j l => B.V.val l j) (Q := fun j l => W l j) (P := fun l l' => Y' l' l) hV (F.orthoW hO)
    (fun j hj l hl => by
      have := F.rq hL l hl j hj
      simp only [mm] at this ⊢
      refine Eq.trans (Finset.sum_congr rfl fun _ _ => mul_comm _ _) (this.trans ?_)
      refine congrArg (B.V.val l j - ·) (Finset.sum_congr rfl fun a _ => ?_)
      rw [mul_comm]
      exact congrArg (A.V.val a j * ·) (Finset.sum_congr rfl fun _ _ => mul_comm _ _)) nV
  have hk' : k = min M.rows M.cols := by rw [hk, F.rows, F.cols, hB.srows]
  have hu : OrthoCols A.dim0 k u := by
    have e : u = mm (A.rank + B.rank) (Dense.hcat ⟨A.dim0, A.rank, A.U.val⟩ ⟨A.dim0, B.rank, Q⟩).val (L.svd M).1 := by
      funext i l
      exact F.u_eq i l
    rw [e]
    refine Lapack.OrthoCols_mm oU ?_
    rw [hk', ← F.rows]
    exact hO.svdU M
  have hv : OrthoRows A.dim1 k v := by
    have e : v = mm (A.rank + B.S.cols) (L.svd M).2.2
        (Dense.vcat ⟨A.rank, A.dim1, A.V.val⟩ ⟨B.S.cols, A.dim1, W⟩).val := by
      funext l j
      exact F.v_eq l j
    rw [e]
    refine Lapack.OrthoRows_mm oV ?_
    rw [hk', ← F.cols]
    exact hO.svdV M
  have := best_of_svd r.rank (r.full hL) (fun i hi j hj => r.keeps.entry r.wf r.sqr (by rw [r.dim0]; exact hi)
    (by rw [r.dim1]; exact hj)) hu hv (fun l hl => by rw [F.s_eq]; exact hS.nonneg M l (by omega))
    (fun l l' hl' hll => by rw [F.s_eq]; exact hS.anti M l l' (by omega) hll) X Y
  rwa [hr] at this

/-- **C26**: fast rounded addition is exact if the columns of `A.U` are orthonormal and those of
`B.U` are combinations of them. -/
theorem C26_fast_exact_of_range {L : Lapack ℝ} (hL : L.Factors) (hO : L.Ortho) (hS : L.Sorted) {A B C : LowRank ℝ}
    (hA : A.WF) (hAs : A.Square) (hB : B.WF) (h1 : A.dim1 = B.dim1) (he : A.eps = 0)
    (hU : OrthoCols A.dim0 A.rank A.U.val) (Z : Nat → Nat → ℝ)
    (hZ : ∀ i < A.dim0, ∀ l < B.rank, B.U.val i l = ∑ a ∈ range A.rank, A.U.val i a * Z a l)
    (h : A.fastAdd L B = .ok C) : ∀ i < A.dim0, ∀ j < A.dim1, C.entry i j = A.entry i j + B.entry i j := by
  obtain ⟨-, -, hr, k, u, s, v, r, hk, M, Q, P, Y, W, F⟩ := LowRank.fastAdd_ok hA hAs hB h1 he h
  have hres : ∀ i < A.dim0, ∀ l < B.rank, mm B.rank Q P i l = 0 := by
    intro i hi l hl
    rw [F.qr hL i hi l hl, hZ i hi l hl, sub_eq_zero]
    refine Finset.sum_congr rfl fun a ha => congrArg (A.U.val i a * ·) ?_
    have e : mm A.dim0 (fun a i => A.U.val i a) B.U.val a l =
        ∑ c ∈ range A.rank, (∑ i ∈ range A.dim0, A.U.val i a * A.U.val i c) * Z c l := by
      simp only [mm]
      rw [Finset.sum_congr rfl fun i hi => by rw [hZ i (mem_range.1 hi) l hl]]
      simp only [Finset.mul_sum, Finset.sum_mul]
      rw [Finset.sum_comm]
      exact Finset.sum_congr rfl fun _ _ => Finset.sum_congr rfl fun _ _ => by ring
    rw [e, Finset.sum_congr rfl fun c hc => by rw [hU a (mem_range.1 ha) c (mem_range.1 hc)]]
    simp [mem_range.1 ha]
  have hP : ∀ a < B.rank, ∀ l < B.rank, P a l = 0 := by
    intro a ha l hl
    have hQ := F.orthoQ hO
    have : ∑ i ∈ range A.dim0, Q i a * mm B.rank Q P i l = P a l := by
      simp only [mm, Finset.mul_sum]
      rw [Finset.sum_comm, Finset.sum_eq_single a]
      · have e : ∀ i, Q i a * (Q i a * P a l) = (Q i a * Q i a) * P a l := fun i => by ring
        simp only [e]
        rw [← Finset.sum_mul, hQ a ha a ha, if_pos rfl, one_mul]
      · intro c hc hne
        have e : ∀ i, Q i a * (Q i c * P c l) = (Q i a * Q i c) * P c l := fun i => by ring
        simp only [e]
        rw [← Finset.sum_mul, hQ a ha c (mem_range.1 hc), if_neg (Ne.symm hne), zero_mul]
      · intro h
        exact absurd (mem_range.2 ha) h
    rw [← this]
    exact Finset.sum_eq_zero fun i hi => by rw [hres i (mem_range.1 hi) l hl, mul_zero]
  obtain ⟨N, hN⟩ := F.low
  have hM : ∀ a < M.rows, ∀ b < M.cols, terms (min M.rows M.cols) (L.svd M).1 (L.svd M).2.1 (L.svd M).2.2 a b =
      mm A.rank (fun a l => if a = l then 1 else 0) M.val a b := by
    intro a ha b hb
    rw [hL.svd M a ha b hb]
    simp only [mm, ite_mul, one_mul, zero_mul, Finset.sum_ite_eq, mem_range]
    by_cases h : a < A.rank
    · rw [if_pos h]
    · rw [if_neg h]
      have h' := hN (a - A.rank) b
      rw [show A.rank + (a - A.rank) = a by omega] at h'
      rw [h']
      refine Finset.sum_eq_zero fun l hl => ?_
      rw [hP (a - A.rank) (by rw [F.rows] at ha; omega) l (mem_range.1 hl), zero_mul]
  have hz := sing_zero_of_rank (hO.svdU M) (hO.svdV M) (hS.nonneg M) (hS.anti M) _ _ hM
  refine C26_nothing_discarded r.rank (r.full hL) (fun i hi j hj => r.keeps.entry r.wf r.sqr (by rw [r.dim0]; exact hi)
    (by rw [r.dim1]; exact hj)) fun l hl hl' => ?_
  rw [F.s_eq]
  exact hz l (by rw [hk, hB.srows] at hl; rw [F.rows, F.cols]; exact hl) (by omega)

section Examples

/-- `x` at position `(p, p)` of a 4-by-3 matrix, as a matrix of rank 1. -/
noncomputable def spike (p : Nat) (x : ℝ) : LowRank ℝ where
  dim0 := 4
  dim1 := 3
  rank := 1
  eps := 0
  U := ⟨4, 1, fun i _ => if i = p then 1 else 0⟩
  S := ⟨1, 1, fun _ _ => x⟩
  V := ⟨1, 3, fun _ j => if j = p then 1 else 0⟩

theorem spike_wf (p : Nat) (x : ℝ) : (spike p x).WF := ⟨rfl, rfl, rfl, rfl, rfl⟩

/-- Keeping the larger of two spikes leaves an error of 1. -/
theorem spike_err : sumErr (spike 0 2) (spike 1 1)
    (fun i j => ∑ _l ∈ range 1, (if i = 0 then 2 else 0) * if j = 0 then 1 else (0 : ℝ)) = 1 := by
  simp [sumErr, LowRank.entry, spike]

/-- C26: both additions of `2*e0*e0ᵀ` and `e1*e1ᵀ` drop the smaller term, or do as well. -/
example : ∃ (L : Lapack ℝ) (C E : LowRank ℝ), (spike 0 2).roundedAdd L (spike 1 1) = .ok C ∧
    (spike 0 2).fastAdd L (spike 1 1) = .ok E ∧ C.rank = 1 ∧
    sumErr (spike 0 2) (spike 1 1) C.entry ≤ 1 ∧ sumErr (spike 0 2) (spike 1 1) E.entry ≤ 1 := by
  obtain ⟨L, hL, hO, hS, -⟩ := Lapack.exists_contract
  have hA := spike_wf 0 2
  have hB := spike_wf 1 1
  obtain ⟨C, hC⟩ := C26_rounded_returns L hA rfl hB rfl rfl rfl (by decide)
  obtain ⟨E, hE⟩ := (C26_fast_returns_iff L hA rfl hB rfl rfl rfl rfl).2 (by decide)
  have hr : C.rank = 1 := by
    obtain ⟨-, -, -, -, -, k, u, s, v, -, -, -, -, -, hr⟩ := C26_rounded hL hA hB rfl hC
    simpa [spike] using hr
  refine ⟨L, C, E, hC, hE, hr, ?_, ?_⟩
  · have := C26_rounded_best hL hO hS hA hB rfl hC (fun i _ => if i = 0 then 2 else 0) (fun _ j => if j = 0 then 1 else 0)
    rw [hr] at this
    exact this.trans spike_err.le
  · refine (C26_fast_best hL hO hS hA rfl hB rfl rfl ?_ ?_ ?_ ?_ hE (fun i _ => if i = 0 then 2 else 0)
      (fun _ j => if j = 0 then 1 else 0)).trans spike_err.le
    · intro a ha b hb
      obtain rfl : a = 0 := Nat.lt_one_iff.1 ha
      obtain rfl : b = 0 := Nat.lt_one_iff.1 hb
      simp [spike]
    · intro a ha b hb
      obtain rfl : a = 0 := Nat.lt_one_iff.1 ha
      obtain rfl : b = 0 := Nat.lt_one_iff.1 hb
      simp [spike]
    · intro x y h l hl
      obtain rfl : l = 0 := Nat.lt_one_iff.1 hl
      simpa [spike] using h 1 (by decide)
    · intro x y h l hl
      obtain rfl : l = 0 := Nat.lt_one_iff.1 hl
      simpa [spike] using h 1 (by decide)

/-- C26: adding `5*e0*e0ᵀ` to `2*e0*e0ᵀ` is exact. -/
example : ∃ (L : Lapack ℝ) (E : LowRank ℝ), (spike 0 2).fastAdd L (spike 0 5) = .ok E ∧ E.entry 0 0 = 7 := by
  obtain ⟨L, hL, hO, hS, -⟩ := Lapack.exists_contract
  have hA := spike_wf 0 2
  have hB := spike_wf 0 5
  obtain ⟨E, hE⟩ := (C26_fast_returns_iff L hA rfl hB rfl rfl rfl rfl).2 (by decide)
  refine ⟨L, E, hE, ?_⟩
  rw [C26_fast_exact_of_range hL hO hS hA rfl hB rfl rfl (fun a ha b hb => by
    obtain rfl : a = 0 := Nat.lt_one_iff.1 ha
    obtain rfl : b = 0 := Nat.lt_one_iff.1 hb
    simp [spike]) (fun _ _ => 1) (fun i _ l _ => by simp [spike]) hE 0 (by decide) 0 (by decide)]
  simp [LowRank.entry, spike]
  norm_num

end Examples

end Verif
