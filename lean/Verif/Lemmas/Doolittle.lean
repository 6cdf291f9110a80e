import Verif.Lemmas.Elim
import Verif.Spec.TriTotal

/-
An LU factorization without interchanges, by elimination: there is an external
routine as assumed in the properties of the factorization.
-/

namespace Verif
open Finset

section
variable {K : Type} [Field K]

/-- What has been subtracted after `k` steps. -/
theorem elim_sum (M : Nat → Nat → K) (k i j : Nat) :
    M i j = elim M k i j + ∑ l ∈ range k, elim M l i l * elim M l l j / elim M l l l := by
  induction k with
  | zero => simp [elim]
  | succ k ih =>
    rw [sum_range_succ]
    simp only [elim]
    rw [ih]
    ring

/-- The packed factors, and whether a pivot is zero. -/
noncomputable def doolittle (D : Dense K) : Dense K × Bool :=
  (⟨D.rows, D.cols, fun i j => if i ≤ j then elim D.val i i j else elim D.val j i j / elim D.val j j j⟩,
    by classical exact decide (∃ l < D.rows, elim D.val l l l = 0))

theorem doolittle_contract : LuContract (doolittle (K := K)) := by
  intro D hD hfl i hi j hj
  have hz : ∀ l < D.rows, elim D.val l l l ≠ 0 := by
    intro l hl h0
    have : ¬ ∃ l < D.rows, elim D.val l l l = 0 := by simpa [doolittle] using hfl
    exact this ⟨l, hl, h0⟩
  have hm : min i j < D.rows := by omega
  rw [elim_sum D.val (min i j) i j, ← sum_range_add_sum_Ico _ (show min i j + 1 ≤ D.rows by omega),
    sum_range_succ]
  have z : ∑ l ∈ Ico (min i j + 1) D.rows,
      (if l < i then (doolittle D).1.val i l else if i = l then 1 else 0) *
        (if j < l then 0 else (doolittle D).1.val l j) = 0 := by
    refine sum_eq_zero (fun l hl => ?_)
    rw [mem_Ico] at hl
    by_cases h : j < l
    · rw [if_pos h, mul_zero]
    · rw [if_neg (by omega : ¬ l < i), if_neg (by omega : ¬ i = l), zero_mul]
  rw [z, add_zero, add_comm]
  congr 1
  · by_cases h : i ≤ j
    · rw [min_eq_left h, if_neg (by omega), if_pos rfl, if_neg (by omega), one_mul]
      simp only [doolittle]
      rw [if_pos h]
    · have h' : j < i := by omega
      rw [min_eq_right h'.le, if_pos h', if_neg (by omega)]
      simp only [doolittle]
      rw [if_neg h, if_pos le_rfl, div_mul_cancel₀ _ (hz j (by omega))]
  · refine sum_congr rfl (fun l hl => ?_)
    rw [mem_range] at hl
    rw [if_pos (by omega), if_neg (by omega)]
    simp only [doolittle]
    rw [if_neg (by omega), if_pos (by omega)]
    ring

end

theorem Mat.ColDominant.colDom {K : Type} [Field K] [LinearOrder K] {A : Mat K}
    (h : A.ColDominant) (hs : A.nRows = A.nCols) : ColDom 0 A.nRows A.entry := by
  intro j _ hj
  rw [Nat.Ico_zero_eq_range]
  exact h j (by rw [← hs]; exact hj)

theorem doolittle_noPivot {K : Type} [Field K] [LinearOrder K] [IsStrictOrderedRing K] :
    LuNoPivot (doolittle (K := K)) := by
  intro D hD h
  have := h.colDom hD
  simp only [doolittle, decide_eq_false_iff_not]
  rintro ⟨l, hl, h0⟩
  exact this.pivots hl h0

end Verif
