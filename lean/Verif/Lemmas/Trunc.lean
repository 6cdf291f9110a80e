import Verif.Model.RealOps
import Verif.Lemmas.LrAdd
import Mathlib.Tactic.Linarith
import Mathlib.Tactic.Positivity
import Mathlib.Tactic.NormNum
import Mathlib.LinearAlgebra.Matrix.Rank
import Mathlib.LinearAlgebra.Matrix.NonsingularInverse

set_option linter.unusedVariables false

namespace Verif
open Finset

/-- The loop stops, at the first rank above the entry value that is `minDim` or
passes the test. -/
theorem truncLoop_ok (S : Dense ℝ) (t : ℝ) (n : Nat) (fuel r : Nat) (hf : n + 1 ≤ fuel + r) :
    0 < fuel → ∃ k, truncLoop S t n fuel r = .ok k ∧ r < k ∧ (k ≤ n ∨ k = r + 1) ∧
      (k < n → Real.sqrt (∑ _j ∈ Ico k n, S.val k k * S.val k k) ≤ t) ∧
      ∀ k', r < k' → k' < k → t < Real.sqrt (∑ _j ∈ Ico k' n, S.val k' k' * S.val k' k') := by
  induction fuel generalizing r with
  | zero => intro h; omega
  | succ f ih =>
    intro _
    rw [truncLoop]
    by_cases h : r + 1 < n ∧ Real.sqrt (∑ _j ∈ Ico (r + 1) n, S.val (r + 1) (r + 1) * S.val (r + 1) (r + 1)) > t
    · simp only [h, and_self, if_true]
      obtain ⟨k, hk, h1, h2, h3, h4⟩ := ih (r + 1) (by omega) (by omega)
      refine ⟨k, hk, by omega, ?_, h3, ?_⟩
      · rcases h2 with h2 | h2
        · exact Or.inl h2
        · left; omega
      · intro k' hk' hk'k
        rcases Nat.lt_or_ge (r + 1) k' with h5 | h5
        · exact h4 k' h5 hk'k
        · have : k' = r + 1 := by omega
          subst this
          exact h.2
    · refine ⟨r + 1, by simp only [if_neg h], by omega, Or.inr rfl, ?_, fun k' h1 h2 => by omega⟩
      intro hn
      by_contra hc
      exact h ⟨hn, by simpa using hc⟩

/-- Sum of squares of a matrix. -/
theorem frob_terms {R : Type} [CommRing R] {m n k : Nat} {u : Nat → Nat → R} {s : Nat → R}
    {v : Nat → Nat → R} (hu : OrthoCols m k u) (hv : OrthoRows n k v) :
    ∑ i ∈ range m, ∑ j ∈ range n, terms k u s v i j * terms k u s v i j = ∑ l ∈ range k, s l * s l := by
  have e : ∀ i j, terms k u s v i j * terms k u s v i j =
      ∑ a ∈ range k, ∑ b ∈ range k, (s a * s b) * ((u i a * u i b) * (v a j * v b j)) := by
    intro i j
    rw [terms, Finset.sum_mul_sum]
    exact Finset.sum_congr rfl (fun a _ => Finset.sum_congr rfl (fun b _ => by ring))
  simp only [e]
  have sw : ∑ i ∈ range m, ∑ j ∈ range n, ∑ a ∈ range k, ∑ b ∈ range k,
      (s a * s b) * ((u i a * u i b) * (v a j * v b j)) =
      ∑ a ∈ range k, ∑ b ∈ range k, (s a * s b) *
        ((∑ i ∈ range m, u i a * u i b) * (∑ j ∈ range n, v a j * v b j)) := by
    have : ∀ i, ∑ j ∈ range n, ∑ a ∈ range k, ∑ b ∈ range k,
        (s a * s b) * ((u i a * u i b) * (v a j * v b j)) =
        ∑ a ∈ range k, ∑ b ∈ range k, (s a * s b) * ((u i a * u i b) * ∑ j ∈ range n, v a j * v b j) := by
      intro i
      rw [Finset.sum_comm]
      refine Finset.sum_congr rfl (fun a _ => ?_)
      rw [Finset.sum_comm]
      refine Finset.sum_congr rfl (fun b _ => ?_)
      rw [Finset.mul_sum, Finset.mul_sum]
    simp only [this]
    rw [Finset.sum_comm]
    refine Finset.sum_congr rfl (fun a _ => ?_)
    rw [Finset.sum_comm]
    refine Finset.sum_congr rfl (fun b _ => ?_)
    rw [Finset.sum_mul, Finset.mul_sum]
  rw [sw]
  refine Finset.sum_congr rfl (fun a ha => ?_)
  rw [Finset.sum_eq_single a]
  · rw [hu a (mem_range.1 ha) a (mem_range.1 ha), hv a (mem_range.1 ha) a (mem_range.1 ha)]
    simp
  · intro b hb hab
    rw [hu a (mem_range.1 ha) b (mem_range.1 hb), if_neg (fun h => hab h.symm)]
    simp
  · intro h; exact absurd ha h


/-- `u^T E v^T` for `E = ∑ u_l s_l v_l` is the diagonal matrix of the `s_l`. -/
theorem core_diag {R : Type} [CommRing R] {m n k : Nat} {u : Nat → Nat → R} {s : Nat → R}
    {v : Nat → Nat → R} (hu : OrthoCols m k u) (hv : OrthoRows n k v) {a b : Nat} (ha : a < k)
    (hb : b < k) : ∑ i ∈ range m, ∑ j ∈ range n, u i a * terms k u s v i j * v b j =
      if a = b then s a else 0 := by
  have e : ∀ i, ∑ j ∈ range n, u i a * terms k u s v i j * v b j = u i a * (u i b * s b) := by
    intro i
    have : ∀ j, u i a * terms k u s v i j * v b j =
        ∑ l ∈ range k, (u i a * (u i l * s l)) * (v l j * v b j) := by
      intro j
      rw [terms, Finset.mul_sum, Finset.sum_mul]
      exact Finset.sum_congr rfl (fun _ _ => by ring)
    simp only [this]
    rw [Finset.sum_comm]
    simp only [← Finset.mul_sum]
    rw [Finset.sum_eq_single b]
    · rw [hv b hb b hb]; simp
    · intro l hl hlb
      rw [hv l (mem_range.1 hl) b hb, if_neg hlb, mul_zero]
    · intro h; exact absurd (mem_range.2 hb) h
  simp only [e]
  have : ∀ i, u i a * (u i b * s b) = (u i a * u i b) * s b := fun i => by ring
  simp only [this]
  rw [← Finset.sum_mul, hu a ha b hb]
  by_cases h : a = b
  · simp [h]
  · simp [h]

/-- Singular values beyond the rank of the matrix vanish. -/
theorem sing_zero_of_rank {m n k r : Nat} {u : Nat → Nat → ℝ} {s : Nat → ℝ}
    {v : Nat → Nat → ℝ} (hu : OrthoCols m k u) (hv : OrthoRows n k v)
    (hs0 : ∀ l < k, 0 ≤ s l) (hs : ∀ l, ∀ l' < k, l ≤ l' → s l' ≤ s l) (X Y : Nat → Nat → ℝ)
    (hX : ∀ i < m, ∀ j < n, terms k u s v i j = mm r X Y i j) : ∀ l < k, r ≤ l → s l = 0 := by
  intro l hl hrl
  by_contra hne
  have pos : ∀ a ≤ l, s a ≠ 0 := by
    intro a ha h0
    have := hs a l hl ha
    have := hs0 l hl
    exact hne (by linarith)
  let P : Matrix (Fin (l + 1)) (Fin r) ℝ := fun a c => ∑ i ∈ range m, u i a * X i c
  let Q : Matrix (Fin r) (Fin (l + 1)) ℝ := fun c b => ∑ j ∈ range n, Y c j * v b j
  have hPQ : P * Q = Matrix.diagonal (fun a : Fin (l + 1) => s a) := by
    ext a b
    have h := core_diag (s := s) hu hv (a := a) (b := b) (by omega) (by omega)
    have h' : ∑ i ∈ range m, ∑ j ∈ range n, u i a * terms k u s v i j * v b j =
        ∑ i ∈ range m, ∑ j ∈ range n, u i a * mm r X Y i j * v b j := by
      refine Finset.sum_congr rfl (fun i hi => Finset.sum_congr rfl (fun j hj => ?_))
      rw [hX i (mem_range.1 hi) j (mem_range.1 hj)]
    rw [h'] at h
    rw [Matrix.mul_apply, Matrix.diagonal_apply]
    have h2 : ∑ i ∈ range m, ∑ j ∈ range n, u i a * mm r X Y i j * v b j =
        ∑ c : Fin r, P a c * Q c b := by
      rw [Finset.sum_fin_eq_sum_range]
      have : ∀ i j, u i a * mm r X Y i j * v b j = ∑ c ∈ range r, (u i a * X i c) * (Y c j * v b j) := by
        intro i j
        rw [mm, Finset.mul_sum, Finset.sum_mul]
        exact Finset.sum_congr rfl (fun _ _ => by ring)
      simp only [this]
      have sw : ∀ i, ∑ j ∈ range n, ∑ c ∈ range r, (u i a * X i c) * (Y c j * v b j) =
          ∑ c ∈ range r, (u i a * X i c) * ∑ j ∈ range n, Y c j * v b j := by
        intro i
        rw [Finset.sum_comm]
        exact Finset.sum_congr rfl (fun _ _ => by rw [Finset.mul_sum])
      simp only [sw]
      rw [Finset.sum_comm]
      refine Finset.sum_congr rfl (fun c hc => ?_)
      rw [dif_pos (mem_range.1 hc), ← Finset.sum_mul]
    rw [← h2, h]
    by_cases hab : a = b
    · simp [hab]
    · have : (a : ℕ) ≠ (b : ℕ) := fun h => hab (Fin.ext h)
      simp [hab, this]
  have hunit : IsUnit (P * Q) := by
    rw [hPQ, Matrix.isUnit_iff_isUnit_det, Matrix.det_diagonal, isUnit_iff_ne_zero]
    exact Finset.prod_ne_zero_iff.2 (fun a _ => pos a (by omega))
  have r1 := Matrix.rank_of_isUnit _ hunit
  have r2 := Matrix.rank_mul_le_left P Q
  have r3 := Matrix.rank_le_width P
  rw [r1] at r2
  simp only [Fintype.card_fin] at r2
  omega

end Verif
