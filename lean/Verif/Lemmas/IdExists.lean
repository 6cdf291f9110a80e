import Verif.Spec.Id
import Verif.Lemmas.QrExists
import Mathlib.Tactic.LinearCombination
import Mathlib.Logic.Equiv.Fin.Basic

/-!
Pivoted QR factorizations exist: there is a routine that satisfies
`PivotedQr.Sound` over the real numbers.
-/

namespace Verif
open Finset

/-- The elementary reflector. -/
def elemRefl {m : Nat} (τ : ℝ) (v : Fin m → ℝ) : Matrix (Fin m) (Fin m) ℝ :=
  1 - τ • Matrix.vecMulVec v v

theorem elemRefl_mul {m n : Nat} (τ : ℝ) (v : Fin m → ℝ) (G : Matrix (Fin m) (Fin n) ℝ) (i : Fin m)
    (j : Fin n) : (elemRefl τ v * G) i j = G i j - τ * (v i * ∑ l, v l * G l j) := by
  have e : ∀ l, elemRefl τ v i l = (1 : Matrix (Fin m) (Fin m) ℝ) i l - τ * (v i * v l) := by
    intro l
    simp [elemRefl, Matrix.vecMulVec_apply]
  rw [Matrix.mul_apply]
  simp only [e, sub_mul, Finset.sum_sub_distrib]
  congr 1
  · simp [Matrix.one_apply]
  · simp only [Finset.mul_sum]
    exact Finset.sum_congr rfl (fun _ _ => by ring)

theorem elemRefl_orth {m : Nat} {τ : ℝ} {v : Fin m → ℝ} (h : τ * (τ * ∑ i, v i * v i) = 2 * τ) :
    elemRefl τ v * (elemRefl τ v).transpose = 1 := by
  have hs : (elemRefl τ v).transpose = elemRefl τ v := by
    ext i j
    simp [elemRefl, Matrix.vecMulVec_apply, Matrix.one_apply, eq_comm, mul_comm]
  rw [hs]
  ext i j
  rw [elemRefl_mul]
  have e : ∀ l, elemRefl τ v l j = (1 : Matrix (Fin m) (Fin m) ℝ) l j - τ * (v l * v j) := by
    intro l
    simp [elemRefl, Matrix.vecMulVec_apply]
  simp only [e, mul_sub, Finset.sum_sub_distrib]
  have e1 : ∑ l, v l * (1 : Matrix (Fin m) (Fin m) ℝ) l j = v j := by
    simp [Matrix.one_apply]
  have e2 : ∑ l, v l * (τ * (v l * v j)) = τ * (∑ l, v l * v l) * v j := by
    rw [Finset.mul_sum, Finset.sum_mul]
    exact Finset.sum_congr rfl (fun _ _ => by ring)
  rw [e1, e2]
  linear_combination (v i * v j) * h

theorem exists_pivoted {m n : Nat} (A : Matrix (Fin m) (Fin n) ℝ) (s : Nat) (hm : s ≤ m) (hn : s ≤ n) :
    ∃ (H : Matrix (Fin m) (Fin m) ℝ) (σ : Equiv.Perm (Fin n)), H * H.transpose = 1 ∧
      (∀ (i : Fin m) (j : Fin n), j.1 < s → j.1 < i.1 → (H * A.submatrix id σ) i j = 0) ∧
      (∀ (a : Fin m) (b : Fin n), a.1 = b.1 → a.1 < s → (H * A.submatrix id σ) a b = 0 →
        ∀ (i : Fin m) (j : Fin n), a.1 ≤ i.1 → a.1 ≤ j.1 → (H * A.submatrix id σ) i j = 0) := by
  induction s with
  | zero => exact ⟨1, 1, by simp, fun i j h => absurd h (by omega), fun a b _ h => absurd h (by omega)⟩
  | succ s ih =>
    obtain ⟨H, σ, hH, h1, h2⟩ := ih (by omega) (by omega)
    by_cases hz : ∀ (i : Fin m) (j : Fin n), s ≤ i.1 → s ≤ j.1 → (H * A.submatrix id σ) i j = 0
    · refine ⟨H, σ, hH, fun i j hj hi => ?_, fun a b hab ha h0 => ?_⟩
      · by_cases h : j.1 < s
        · exact h1 i j h hi
        · exact hz i j (by omega) (by omega)
      · by_cases h : a.1 < s
        · exact h2 a b hab h h0
        · exact fun i j hi hj => hz i j (by omega) (by omega)
    · push Not at hz
      obtain ⟨i0, j0, hi0, hj0, hne⟩ := hz
      set ps : Fin m := ⟨s, by omega⟩ with hps
      set pn : Fin n := ⟨s, by omega⟩ with hpn
      set σ' : Equiv.Perm (Fin n) := σ * Equiv.swap pn j0 with hσ'
      set G := H * A.submatrix id σ with hG
      set G' := H * A.submatrix id σ' with hG'
      have hswap : ∀ i j, G' i j = G i (Equiv.swap pn j0 j) := by
        intro i j
        simp [hG, hG', hσ', Matrix.mul_apply]
      have hlow : ∀ j : Fin n, j.1 < s → Equiv.swap pn j0 j = j := by
        intro j hj
        refine Equiv.swap_apply_of_ne_of_ne ?_ ?_
        · intro h; rw [h, hpn] at hj; simp at hj
        · intro h; rw [h] at hj; omega
      have hhigh : ∀ j : Fin n, s ≤ j.1 → s ≤ (Equiv.swap pn j0 j).1 := by
        intro j hj
        by_cases e1 : j = pn
        · rw [e1, Equiv.swap_apply_left]; exact hj0
        · by_cases e2 : j = j0
          · rw [e2, Equiv.swap_apply_right]
          · rw [Equiv.swap_apply_of_ne_of_ne e1 e2]; exact hj
      obtain ⟨v, τ, hv1, hv0, hτ, hann⟩ := exists_householder (fun i => G' i pn)
        (Finset.univ.filter (fun i : Fin m => s ≤ i.1)) (j := ps) (by simp [hps])
      have hv0 : ∀ i : Fin m, i.1 < s → v i = 0 := fun i hi => hv0 i (by simpa using hi)
      have hann : ∀ i : Fin m, s < i.1 → G' i pn - τ * (v i * ∑ l, v l * G' l pn) = 0 := by
        intro i hi
        refine hann i (by simpa using hi.le) (fun h => ?_)
        rw [h, hps] at hi
        simp at hi
      have hK : ∀ i j, (elemRefl τ v * H * A.submatrix id σ') i j =
          G' i j - τ * (v i * ∑ l, v l * G' l j) := by
        intro i j
        rw [Matrix.mul_assoc, elemRefl_mul]
      have hkeep : ∀ i (j : Fin n), j.1 < s → (elemRefl τ v * H * A.submatrix id σ') i j = G i j := by
        intro i j hj
        rw [hK, Finset.sum_eq_zero, hswap, hlow j hj]
        · ring
        · intro l _
          by_cases hl : l.1 < s
          · rw [hv0 l hl, zero_mul]
          · rw [hswap, hlow j hj, h1 l j hj (by omega), mul_zero]
      have hdiag : (elemRefl τ v * H * A.submatrix id σ') ps pn ≠ 0 := by
        intro h0
        rw [hK] at h0
        have hcol : ∀ i : Fin m, s ≤ i.1 → G' i pn - τ * (v i * ∑ l, v l * G' l pn) = 0 := by
          intro i hi
          by_cases h : i = ps
          · rw [h]; exact h0
          · refine hann i (lt_of_le_of_ne hi (fun e => h (Fin.ext ?_)))
            rw [hps]
            exact e.symm
        -- multiply by `v` and sum
        have hsum : (1 - τ * ∑ l, v l * v l) * ∑ l, v l * G' l pn = 0 := by
          have : ∑ l, v l * (G' l pn - τ * (v l * ∑ l, v l * G' l pn)) = 0 := by
            refine Finset.sum_eq_zero (fun l _ => ?_)
            by_cases hl : l.1 < s
            · rw [hv0 l hl, zero_mul]
            · rw [hcol l (by omega), mul_zero]
          have e : ∑ l, v l * (G' l pn - τ * (v l * ∑ l, v l * G' l pn)) =
              (1 - τ * ∑ l, v l * v l) * ∑ l, v l * G' l pn := by
            simp only [mul_sub, Finset.sum_sub_distrib]
            generalize ∑ l, v l * G' l pn = c
            rw [show ∑ x, v x * (τ * (v x * c)) = τ * (∑ l, v l * v l) * c by
                rw [Finset.mul_sum, Finset.sum_mul]
                exact Finset.sum_congr rfl (fun _ _ => by ring)]
            ring
          rw [← e, this]
        have hτ0 : τ * ∑ l, v l * G' l pn = 0 := by
          linear_combination (-τ) * hsum - (∑ l, v l * G' l pn) * hτ
        have hx : ∀ i : Fin m, s ≤ i.1 → G' i pn = 0 := by
          intro i hi
          linear_combination hcol i hi + v i * hτ0
        apply hne
        have := hx i0 hi0
        rwa [hswap, Equiv.swap_apply_left] at this
      refine ⟨elemRefl τ v * H, σ', ?_, fun i j hj hi => ?_, fun a b hab ha h0 => ?_⟩
      · rw [Matrix.transpose_mul, Matrix.mul_assoc, ← Matrix.mul_assoc H, hH, Matrix.one_mul,
          elemRefl_orth hτ]
      · by_cases h : j.1 < s
        · rw [hkeep i j h]; exact h1 i j h hi
        · have : j = pn := Fin.ext (by show j.1 = s; omega)
          rw [this, hK]
          exact hann i (by omega)
      · by_cases h : a.1 < s
        · rw [hkeep a b (by omega)] at h0
          exact absurd (h2 a b hab h h0 i0 j0 (by omega) (by omega)) hne
        · have ea : a = ps := Fin.ext (by show a.1 = s; omega)
          have eb : b = pn := Fin.ext (by show b.1 = s; omega)
          rw [ea, eb] at h0
          exact absurd h0 hdiag

/-- There is a sound pivoted QR routine. -/
theorem PivotedQr.exists_sound : ∃ pqr : PivotedQr ℝ, pqr.Sound := by
  have : ∀ A : Dense ℝ, ∃ x : (Nat → Nat → ℝ) × List Nat, IsPivotedQr A x.1 x.2 := by
    intro A
    obtain ⟨H, σ, hH, h1, h2⟩ := exists_pivoted (Matrix.of fun (i : Fin A.rows) (j : Fin A.cols) => A.val i j)
      (min A.rows A.cols) (Nat.min_le_left _ _) (Nat.min_le_right _ _)
    set G := H * (Matrix.of fun (i : Fin A.rows) (j : Fin A.cols) => A.val i j).submatrix id σ with hG
    have hH' : H.transpose * H = 1 := mul_eq_one_comm.1 hH
    have hA : ∀ (i : Fin A.rows) (j : Fin A.cols), A.val i (σ j) = ∑ l, H l i * G l j := by
      intro i j
      have : H.transpose * G = (Matrix.of fun (i : Fin A.rows) (j : Fin A.cols) => A.val i j).submatrix id σ := by
        rw [hG, ← Matrix.mul_assoc, hH', Matrix.one_mul]
      have := congrFun (congrFun this i) j
      rw [Matrix.mul_apply] at this
      simpa using this.symm
    set f : Nat → Nat → ℝ := fun i j => if h : i < A.rows ∧ j < A.cols then G ⟨i, h.1⟩ ⟨j, h.2⟩ else 0 with hf
    set q : Nat → Nat → ℝ := fun i l => if h : i < A.rows ∧ l < A.rows then H ⟨l, h.2⟩ ⟨i, h.1⟩ else 0 with hq
    have hfe : ∀ (i : Fin A.rows) (j : Fin A.cols), f i j = G i j := fun i j => by
      simp [hf, i.2, j.2]
    have hqe : ∀ (i l : Fin A.rows), q i l = H l i := fun i l => by simp [hq, i.2, l.2]
    have hPl : ((List.finRange A.cols).map (fun j => (σ j).1)).length = A.cols := by simp
    have hP : ∀ j : Fin A.cols, ((List.finRange A.cols).map (fun j => (σ j).1)).getD j 0 = σ j := by
      intro j
      simp [List.getD]
    refine ⟨(f, (List.finRange A.cols).map (fun j => (σ j).1)), ?_, ⟨q, ?_, ?_⟩, ?_⟩
    · refine (List.perm_ext_iff_of_nodup ?_ List.nodup_range).2 (fun c => ?_)
      · refine List.Nodup.map ?_ (List.nodup_finRange _)
        intro a b h
        exact σ.injective (Fin.ext h)
      · simp only [List.mem_map, List.mem_finRange, true_and, List.mem_range]
        constructor
        · rintro ⟨j, rfl⟩; exact (σ j).2
        · intro hc
          exact ⟨σ.symm ⟨c, hc⟩, by simp⟩
    · intro a ha b hb
      have ha : a < A.rows := by omega
      have hb : b < A.rows := by omega
      have := congrFun (congrFun hH ⟨a, ha⟩) ⟨b, hb⟩
      rw [Matrix.mul_apply, Matrix.one_apply] at this
      rw [← Fin.sum_univ_eq_sum_range (fun i => q i a * q i b)]
      rw [show (if a = b then (1 : ℝ) else 0) = if (⟨a, ha⟩ : Fin A.rows) = ⟨b, hb⟩ then 1 else 0 by simp,
        ← this]
      refine Finset.sum_congr rfl (fun i _ => ?_)
      rw [hqe i ⟨a, ha⟩, hqe i ⟨b, hb⟩, Matrix.transpose_apply]
    · intro i hi j hj
      have e := hP ⟨j, hj⟩
      simp only at e
      rw [e]
      have := hA ⟨i, hi⟩ ⟨j, hj⟩
      simp only at this
      rw [this]
      rw [show ∑ l, H l ⟨i, hi⟩ * G l ⟨j, hj⟩ = ∑ l : Fin A.rows, q i l * (if l.1 ≤ j then f l j else 0) from
        Finset.sum_congr rfl (fun l _ => by
          rw [← hqe ⟨i, hi⟩ l]
          by_cases hl : l.1 ≤ j
          · rw [if_pos hl, ← hfe l ⟨j, hj⟩]
          · rw [if_neg hl, h1 l ⟨j, hj⟩ (by have := l.2; show j < _; omega) (by show j < l.1; omega)])]
      rw [Fin.sum_univ_eq_sum_range (fun l => q i l * (if l ≤ j then f l j else 0))]
      symm
      refine Finset.sum_subset (Finset.range_mono (Nat.min_le_left _ _)) (fun l hl hn => ?_)
      have hl := mem_range.1 hl
      have hn : min A.rows A.cols ≤ l := Nat.le_of_not_lt (fun h => hn (mem_range.2 h))
      rw [if_neg (by omega), mul_zero]
    · intro l hl h0 i hi hli j hj hij
      have h0' : G ⟨l, by omega⟩ ⟨l, by omega⟩ = 0 := by
        rw [← hfe]; exact h0
      have := h2 ⟨l, by omega⟩ ⟨l, by omega⟩ rfl hl h0' ⟨i, by omega⟩ ⟨j, hj⟩ hli (by show l ≤ j; omega)
      rw [← hfe] at this
      exact this
  choose pqr hpqr using this
  exact ⟨pqr, hpqr⟩

end Verif
