import Mathlib.Algebra.Order.Field.Basic
import Mathlib.Algebra.Order.BigOperators.Group.Finset
import Mathlib.Algebra.BigOperators.Ring.Finset
import Mathlib.Algebra.BigOperators.Intervals
import Mathlib.Algebra.Order.Ring.Abs
import Mathlib.Algebra.BigOperators.Field
import Mathlib.Tactic.Ring
import Mathlib.Tactic.Linarith
import Mathlib.Tactic.FieldSimp

/-
Gaussian elimination entry by entry, and strictly diagonally dominant matrices.
-/

namespace Verif
open Finset

section
variable {K : Type} [Field K]

/-- The remaining matrix after `k` steps of elimination. -/
def elim (M : Nat → Nat → K) : Nat → Nat → Nat → K
  | 0 => M
  | k + 1 => fun i j => elim M k i j - elim M k i k * elim M k k j / elim M k k k

theorem elim_congr {M N : Nat → Nat → K} {n : Nat} (h : ∀ i < n, ∀ j < n, M i j = N i j) :
    ∀ k ≤ n, ∀ i < n, ∀ j < n, elim M k i j = elim N k i j := by
  intro k
  induction k with
  | zero => exact fun _ => h
  | succ k ih =>
    intro hk i hi j hj
    have I := ih (by omega)
    simp only [elim]
    rw [I i hi j hj, I i hi k (by omega), I k (by omega) j hj, I k (by omega) k (by omega)]

theorem elim_shift (M : Nat → Nat → K) (o k : Nat) : ∀ i j,
    elim (fun x y => elim M o (o + x) (o + y)) k i j = elim M (o + k) (o + i) (o + j) := by
  induction k with
  | zero => exact fun _ _ => rfl
  | succ k ih =>
    intro i j
    show elim _ (k + 1) i j = elim M (o + k + 1) _ _
    simp only [elim]
    rw [ih, ih, ih, ih]

/-- A factorization of the leading rows and columns gives the remaining matrix. -/
theorem elim_schur {M L U : Nat → Nat → K} {k : Nat} {P Q : Nat → Prop} (hP : ∀ l < k, P l) (hQ : ∀ l < k, Q l)
    (hz : ∀ l < k, elim M l l l ≠ 0)
    (row : ∀ l < k, ∀ j, Q j → l ≤ j → M l j = ∑ t ∈ range l, L l t * U t j + U l j)
    (col : ∀ l < k, ∀ i, P i → l ≤ i → M i l = ∑ t ∈ range l, L i t * U t l + L i l * U l l) :
    ∀ m ≤ k, ∀ i j, P i → Q j → m ≤ i → m ≤ j →
      elim M m i j = M i j - ∑ t ∈ range m, L i t * U t j := by
  intro m
  induction m with
  | zero => intro _ i j _ _ _ _; simp [elim]
  | succ m ih =>
    intro hm i j hi hj him hjm
    have I := ih (by omega)
    have hmk : m < k := by omega
    have e0 : elim M m m m = U m m := by
      rw [I m m (hP m hmk) (hQ m hmk) le_rfl le_rfl, row m hmk m (hQ m hmk) le_rfl]; ring
    have e1 : elim M m m j = U m j := by
      rw [I m j (hP m hmk) hj le_rfl (by omega), row m hmk j hj (by omega)]; ring
    have e2 : elim M m i m = L i m * U m m := by
      rw [I i m hi (hQ m hmk) (by omega) le_rfl, col m hmk i hi (by omega)]; ring
    have hu : U m m ≠ 0 := by rw [← e0]; exact hz m hmk
    simp only [elim]
    rw [e0, e1, e2, I i j hi hj (by omega) (by omega), sum_range_succ]
    field_simp
    ring

/-- The upper factor consists of the pivot rows. -/
theorem elim_upper {M L U : Nat → Nat → K} {k : Nat} {P Q : Nat → Prop} (hP : ∀ l < k, P l) (hQ : ∀ l < k, Q l)
    (hz : ∀ l < k, elim M l l l ≠ 0)
    (row : ∀ l < k, ∀ j, Q j → l ≤ j → M l j = ∑ t ∈ range l, L l t * U t j + U l j)
    (col : ∀ l < k, ∀ i, P i → l ≤ i → M i l = ∑ t ∈ range l, L i t * U t l + L i l * U l l) :
    ∀ l < k, ∀ j, Q j → l ≤ j → U l j = elim M l l j := by
  intro l hl j hj hlj
  rw [elim_schur hP hQ hz row col l (by omega) l j (hP l hl) hj le_rfl hlj, row l hl j hj hlj]
  ring

end

section
variable {K : Type} [Field K] [LinearOrder K] [IsStrictOrderedRing K]

/-- Strict diagonal dominance of the columns of the rows and columns `k, ..., n-1`. -/
def ColDom (k n : Nat) (M : Nat → Nat → K) : Prop :=
  ∀ j, k ≤ j → j < n → ∑ i ∈ (Ico k n).erase j, |M i j| < |M j j|

theorem ColDom.pivot {k n : Nat} {M : Nat → Nat → K} (h : ColDom k n M) {j : Nat} (hk : k ≤ j) (hn : j < n) :
    M j j ≠ 0 := by
  have h1 := h j hk hn
  have h2 : (0 : K) ≤ ∑ i ∈ (Ico k n).erase j, |M i j| := sum_nonneg (fun _ _ => abs_nonneg _)
  exact abs_pos.1 (lt_of_le_of_lt h2 h1)

omit [IsStrictOrderedRing K] in
theorem ColDom.congr {k n : Nat} {M N : Nat → Nat → K} (h : ColDom k n M)
    (e : ∀ i, k ≤ i → i < n → ∀ j, k ≤ j → j < n → M i j = N i j) : ColDom k n N := by
  intro j hk hn
  have := h j hk hn
  rw [← e j hk hn j hk hn, ← sum_congr rfl (fun i hi => ?_)]
  · exact this
  · have hi := mem_of_mem_erase hi
    rw [mem_Ico] at hi
    rw [e i hi.1 hi.2 j hk hn]

/-- Submatrices on the diagonal. -/
theorem ColDom.sub {k n o h : Nat} {M : Nat → Nat → K} (hd : ColDom k n M) (ho : k ≤ o) (hn : o + h ≤ n) :
    ColDom 0 h (fun x y => M (o + x) (o + y)) := by
  intro j _ hj
  refine lt_of_le_of_lt ?_ (hd (o + j) (by omega) (by omega))
  have inj : Set.InjOn (fun x => o + x) ((Ico 0 h).erase j : Finset Nat) := by
    intro a _ b _ e
    have : o + a = o + b := e
    omega
  rw [← sum_image (g := fun x => o + x) (f := fun i => |M i (o + j)|) inj]
  refine sum_le_sum_of_subset_of_nonneg (fun i hi => ?_) (fun _ _ _ => abs_nonneg _)
  rw [mem_image] at hi
  obtain ⟨x, hx, rfl⟩ := hi
  rw [mem_erase, mem_Ico] at hx ⊢
  omega

theorem ColDom.step {k n : Nat} {M : Nat → Nat → K} (h : ColDom k n M) :
    ColDom (k + 1) n (fun i j => M i j - M i k * M k j / M k k) := by
  intro j hk hn
  have ha : M k k ≠ 0 := h.pivot le_rfl (by omega)
  have ha' : 0 < |M k k| := abs_pos.2 ha
  have hk' := h k le_rfl (by omega)
  have hj' := h j (by omega) hn
  set T := (Ico (k + 1) n).erase j with hT
  have s1 : (Ico k n).erase k = insert j T := by
    ext x
    simp only [hT, mem_erase, mem_insert, mem_Ico]
    omega
  have s2 : (Ico k n).erase j = insert k T := by
    ext x
    simp only [hT, mem_erase, mem_insert, mem_Ico]
    omega
  have n1 : j ∉ T := by simp [hT]
  have n2 : k ∉ T := by simp [hT]
  rw [s1, sum_insert n1] at hk'
  rw [s2, sum_insert n2] at hj'
  have b1 : ∑ i ∈ T, |M i j - M i k * M k j / M k k| ≤
      ∑ i ∈ T, |M i j| + (∑ i ∈ T, |M i k|) * (|M k j| / |M k k|) := by
    rw [sum_mul, ← sum_add_distrib]
    refine sum_le_sum (fun i _ => ?_)
    refine (abs_sub _ _).trans ?_
    rw [abs_div, abs_mul, mul_div_assoc]
  have b2 : (∑ i ∈ T, |M i k|) * (|M k j| / |M k k|) ≤ (|M k k| - |M j k|) * (|M k j| / |M k k|) :=
    mul_le_mul_of_nonneg_right (by linarith) (div_nonneg (abs_nonneg _) (abs_nonneg _))
  have b3 : (|M k k| - |M j k|) * (|M k j| / |M k k|) = |M k j| - |M j k * M k j / M k k| := by
    rw [abs_div, abs_mul]
    field_simp
  have b4 : |M j j| - |M j k * M k j / M k k| ≤ |M j j - M j k * M k j / M k k| := abs_sub_abs_le_abs_sub _ _
  show _ < |M j j - M j k * M k j / M k k|
  linarith

theorem ColDom.elim {n : Nat} {M : Nat → Nat → K} (h : ColDom 0 n M) (k : Nat) :
    ColDom k n (elim M k) := by
  induction k with
  | zero => exact h
  | succ k ih => exact ih.step

theorem ColDom.pivots {n : Nat} {M : Nat → Nat → K} (h : ColDom 0 n M) {l : Nat} (hl : l < n) :
    Verif.elim M l l l ≠ 0 := (h.elim l).pivot le_rfl hl

end
end Verif
