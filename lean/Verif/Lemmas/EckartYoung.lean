import Verif.Lemmas.Svd

/-
A truncated singular value decomposition is a best approximation of its rank in the
Frobenius norm.
-/

namespace Verif
open Finset

/-- Distance of `a` to the combination of orthonormal columns with coefficients `w`. -/
theorem dist_ortho {m p : Nat} {q : Nat → Nat → ℝ} (hq : OrthoCols m p q) (a w : Nat → ℝ) :
    ∑ i ∈ range m, (a i - ∑ l ∈ range p, q i l * w l) ^ 2 =
      ∑ i ∈ range m, a i ^ 2 - ∑ l ∈ range p, (∑ i ∈ range m, q i l * a i) ^ 2 +
        ∑ l ∈ range p, (w l - ∑ i ∈ range m, q i l * a i) ^ 2 := by
  have h1 : ∑ i ∈ range m, a i * ∑ l ∈ range p, q i l * w l =
      ∑ l ∈ range p, w l * ∑ i ∈ range m, q i l * a i := by
    simp only [Finset.mul_sum]
    rw [Finset.sum_comm]
    exact Finset.sum_congr rfl fun l _ => Finset.sum_congr rfl fun i _ => by ring
  have h2 : ∑ i ∈ range m, (∑ l ∈ range p, q i l * w l) ^ 2 = ∑ l ∈ range p, w l ^ 2 := by
    have e : ∀ i, (∑ l ∈ range p, q i l * w l) ^ 2 =
        ∑ l ∈ range p, ∑ l' ∈ range p, (w l * w l') * (q i l * q i l') := by
      intro i
      rw [sq, Finset.sum_mul_sum]
      exact Finset.sum_congr rfl fun l _ => Finset.sum_congr rfl fun l' _ => by ring
    simp only [e]
    rw [Finset.sum_comm]
    refine Finset.sum_congr rfl fun l hl => ?_
    rw [Finset.sum_comm]
    simp only [← Finset.mul_sum]
    rw [Finset.sum_eq_single l]
    · rw [hq l (mem_range.1 hl) l (mem_range.1 hl)]
      simp [sq]
    · intro l' hl' hne
      rw [hq l (mem_range.1 hl) l' (mem_range.1 hl'), if_neg (Ne.symm hne), mul_zero]
    · intro h
      exact absurd hl h
  have e1 : ∀ i, (a i - ∑ l ∈ range p, q i l * w l) ^ 2 =
      a i ^ 2 - 2 * (a i * ∑ l ∈ range p, q i l * w l) + (∑ l ∈ range p, q i l * w l) ^ 2 := fun i => by ring
  have e2 : ∀ l, (w l - ∑ i ∈ range m, q i l * a i) ^ 2 =
      w l ^ 2 - 2 * (w l * ∑ i ∈ range m, q i l * a i) + (∑ i ∈ range m, q i l * a i) ^ 2 := fun l => by ring
  simp only [e1, e2, Finset.sum_add_distrib, Finset.sum_sub_distrib, ← Finset.mul_sum, h1, h2]
  ring

/-- Bessel's inequality. -/
theorem bessel {m p : Nat} {q : Nat → Nat → ℝ} (hq : OrthoCols m p q) (a : Nat → ℝ) :
    ∑ l ∈ range p, (∑ i ∈ range m, q i l * a i) ^ 2 ≤ ∑ i ∈ range m, a i ^ 2 := by
  have h := dist_ortho hq a (fun l => ∑ i ∈ range m, q i l * a i)
  have h0 : 0 ≤ ∑ i ∈ range m, (a i - ∑ l ∈ range p, q i l * ∑ i ∈ range m, q i l * a i) ^ 2 :=
    Finset.sum_nonneg fun _ _ => sq_nonneg _
  simp only [sub_self, ne_eq, OfNat.ofNat_ne_zero, not_false_eq_true, zero_pow, Finset.sum_const_zero, add_zero] at h
  linarith

/-- A sum of non-increasing numbers with weights in `[0,1]` of total at most `r` does not
exceed the sum of the first `r`. -/
theorem weighted_le {k r : Nat} {t c : Nat → ℝ} (ht0 : ∀ l < k, 0 ≤ t l) (ht : ∀ l, ∀ l' < k, l ≤ l' → t l' ≤ t l)
    (h0 : ∀ l < k, 0 ≤ c l) (h1 : ∀ l < k, c l ≤ 1) (hc : ∑ l ∈ range k, c l ≤ r) :
    ∑ l ∈ Ico r k, t l ≤ ∑ l ∈ range k, t l * (1 - c l) := by
  rcases Nat.lt_or_ge r k with hr | hr
  · have s1 : ∑ l ∈ range k, t l * (1 - c l) = ∑ l ∈ range r, t l * (1 - c l) + ∑ l ∈ Ico r k, t l * (1 - c l) := by
      rw [Finset.range_eq_Ico, Finset.range_eq_Ico, Finset.sum_Ico_consecutive _ (Nat.zero_le _) hr.le]
    have s2 : ∑ l ∈ range k, c l = ∑ l ∈ range r, c l + ∑ l ∈ Ico r k, c l := by
      rw [Finset.range_eq_Ico, Finset.range_eq_Ico, Finset.sum_Ico_consecutive _ (Nat.zero_le _) hr.le]
    have b1 : t r * ∑ l ∈ range r, (1 - c l) ≤ ∑ l ∈ range r, t l * (1 - c l) := by
      rw [Finset.mul_sum]
      refine Finset.sum_le_sum fun l hl => mul_le_mul_of_nonneg_right (ht l r hr (mem_range.1 hl).le) ?_
      linarith [h1 l (by have := mem_range.1 hl; omega)]
    have b2 : ∑ l ∈ Ico r k, t l * c l ≤ t r * ∑ l ∈ Ico r k, c l := by
      rw [Finset.mul_sum]
      refine Finset.sum_le_sum fun l hl => mul_le_mul_of_nonneg_right (ht r l (mem_Ico.1 hl).2 (mem_Ico.1 hl).1) ?_
      exact h0 l (mem_Ico.1 hl).2
    have b3 : ∑ l ∈ range r, (1 - c l) = r - ∑ l ∈ range r, c l := by
      rw [Finset.sum_sub_distrib]
      simp
    have b4 : ∑ l ∈ Ico r k, t l * (1 - c l) = ∑ l ∈ Ico r k, t l - ∑ l ∈ Ico r k, t l * c l := by
      rw [← Finset.sum_sub_distrib]
      exact Finset.sum_congr rfl fun l _ => by ring
    rw [b3] at b1
    have b5 : 0 ≤ t r * (r - ∑ l ∈ range k, c l) := mul_nonneg (ht0 r hr) (by linarith)
    rw [s1, b4]
    rw [s2] at b5
    nlinarith
  · rw [Finset.Ico_eq_empty (by omega), Finset.sum_empty]
    refine Finset.sum_nonneg fun l hl => mul_nonneg (ht0 l (mem_range.1 hl)) ?_
    linarith [h1 l (mem_range.1 hl)]

/-- Every `m`-by-`r` matrix is `q` times something for orthonormal columns `q`, at most `r`
of them. -/
theorem exists_ortho_basis (m r : Nat) (X : Nat → Nat → ℝ) : ∃ (p : Nat) (q Z : Nat → Nat → ℝ), p ≤ r ∧ OrthoCols m p q ∧
    ∀ i < m, ∀ j < r, ∑ l ∈ range p, q i l * Z l j = X i j := by
  obtain ⟨L, hL, hO, -⟩ := Lapack.exists_contract
  exact ⟨min m r, _, _, min_le_right _ _, hO.qr ⟨m, r, X⟩, hL.qr ⟨m, r, X⟩⟩

/-- Eckart-Young: no matrix of rank at most `r` is closer to `∑ u_l s_l v_l` than its first
`r` terms. -/
theorem eckart_young {m n k : Nat} {u : Nat → Nat → ℝ} {s : Nat → ℝ} {v : Nat → Nat → ℝ} (hu : OrthoCols m k u)
    (hv : OrthoRows n k v) (hs0 : ∀ l < k, 0 ≤ s l) (hs : ∀ l, ∀ l' < k, l ≤ l' → s l' ≤ s l) (r : Nat)
    (X Y : Nat → Nat → ℝ) :
    ∑ l ∈ Ico r k, s l ^ 2 ≤
      ∑ i ∈ range m, ∑ j ∈ range n, (terms k u s v i j - ∑ l ∈ range r, X i l * Y l j) ^ 2 := by
  obtain ⟨p, q, Z, hp, hq, hZ⟩ := exists_ortho_basis m r X
  -- the approximation lies in the span of `q`
  have hB : ∀ i < m, ∀ j, ∑ l ∈ range r, X i l * Y l j = ∑ a ∈ range p, q i a * ∑ l ∈ range r, Z a l * Y l j := by
    intro i hi j
    simp only [Finset.mul_sum]
    rw [Finset.sum_comm]
    refine Finset.sum_congr rfl fun l hl => ?_
    rw [← hZ i hi l (mem_range.1 hl), Finset.sum_mul]
    exact Finset.sum_congr rfl fun a _ => by ring
  -- projection of the matrix to that span
  have hP : ∀ a j, ∑ i ∈ range m, q i a * terms k u s v i j =
      ∑ l ∈ range k, (∑ i ∈ range m, u i l * q i a) * s l * v l j := by
    intro a j
    simp only [terms, Finset.mul_sum, Finset.sum_mul]
    rw [Finset.sum_comm]
    exact Finset.sum_congr rfl fun l _ => Finset.sum_congr rfl fun i _ => by ring
  have hPn : ∀ a, ∑ j ∈ range n, (∑ i ∈ range m, q i a * terms k u s v i j) ^ 2 =
      ∑ l ∈ range k, s l ^ 2 * (∑ i ∈ range m, u i l * q i a) ^ 2 := by
    intro a
    simp only [hP]
    have hvt : OrthoCols n k (fun j l => v l j) := hv
    have h := dist_ortho hvt (fun _ => 0) (fun l => (∑ i ∈ range m, u i l * q i a) * s l)
    simp only [mul_zero, Finset.sum_const_zero, zero_sub, sub_zero, ne_eq, OfNat.ofNat_ne_zero, not_false_eq_true,
      zero_pow, zero_add, even_two, Even.neg_pow] at h
    refine Eq.trans (Finset.sum_congr rfl fun j _ => ?_) (h.trans (Finset.sum_congr rfl fun l _ => by ring))
    exact congrArg (· ^ 2) (Finset.sum_congr rfl fun l _ => by ring)
  have hA : ∑ i ∈ range m, ∑ j ∈ range n, terms k u s v i j ^ 2 = ∑ l ∈ range k, s l ^ 2 := by
    simp only [sq]
    exact frob_terms hu hv
  have hw := weighted_le (k := k) (r := r) (t := fun l => s l ^ 2)
    (c := fun l => ∑ a ∈ range p, (∑ i ∈ range m, u i l * q i a) ^ 2)
    (fun l _ => sq_nonneg _) (fun l l' hl' hll => pow_le_pow_left₀ (hs0 l' hl') (hs l l' hl' hll) 2)
    (fun l _ => Finset.sum_nonneg fun _ _ => sq_nonneg _)
    (fun l hl => by
      have h := bessel hq (fun i => u i l)
      have h' : ∑ i ∈ range m, u i l ^ 2 = 1 := by
        simp only [sq]
        rw [hu l hl l hl, if_pos rfl]
      rw [h'] at h
      refine le_trans (le_of_eq (Finset.sum_congr rfl fun a _ => ?_)) h
      exact congrArg (· ^ 2) (Finset.sum_congr rfl fun i _ => mul_comm _ _))
    (by
      rw [Finset.sum_comm]
      have h : ∀ a ∈ range p, ∑ l ∈ range k, (∑ i ∈ range m, u i l * q i a) ^ 2 ≤ 1 := by
        intro a ha
        have h := bessel hu (fun i => q i a)
        have h' : ∑ i ∈ range m, q i a ^ 2 = 1 := by
          simp only [sq]
          rw [hq a (mem_range.1 ha) a (mem_range.1 ha), if_pos rfl]
        rwa [h'] at h
      refine le_trans (Finset.sum_le_sum h) ?_
      simp only [Finset.sum_const, Finset.card_range, nsmul_eq_mul, mul_one]
      exact_mod_cast hp)
  refine le_trans hw ?_
  -- per column
  have col : ∀ j, ∑ i ∈ range m, terms k u s v i j ^ 2 - ∑ a ∈ range p, (∑ i ∈ range m, q i a * terms k u s v i j) ^ 2 ≤
      ∑ i ∈ range m, (terms k u s v i j - ∑ l ∈ range r, X i l * Y l j) ^ 2 := by
    intro j
    have h := dist_ortho hq (fun i => terms k u s v i j) (fun a => ∑ l ∈ range r, Z a l * Y l j)
    have h0 : 0 ≤ ∑ a ∈ range p, ((∑ l ∈ range r, Z a l * Y l j) - ∑ i ∈ range m, q i a * terms k u s v i j) ^ 2 :=
      Finset.sum_nonneg fun _ _ => sq_nonneg _
    have e : ∑ i ∈ range m, (terms k u s v i j - ∑ l ∈ range r, X i l * Y l j) ^ 2 =
        ∑ i ∈ range m, (terms k u s v i j - ∑ a ∈ range p, q i a * ∑ l ∈ range r, Z a l * Y l j) ^ 2 :=
      Finset.sum_congr rfl fun i hi => by rw [hB i (mem_range.1 hi) j]
    rw [e, h]
    linarith
  have tot := Finset.sum_le_sum fun j (_ : j ∈ range n) => col j
  rw [Finset.sum_sub_distrib] at tot
  rw [Finset.sum_comm (s := range m) (t := range n)]
  refine le_trans (le_of_eq ?_) tot
  have c1 : ∑ j ∈ range n, ∑ i ∈ range m, terms k u s v i j ^ 2 = ∑ l ∈ range k, s l ^ 2 := by
    rw [Finset.sum_comm]
    exact hA
  have c2 : ∑ j ∈ range n, ∑ a ∈ range p, (∑ i ∈ range m, q i a * terms k u s v i j) ^ 2 =
      ∑ l ∈ range k, s l ^ 2 * ∑ a ∈ range p, (∑ i ∈ range m, u i l * q i a) ^ 2 := by
    rw [Finset.sum_comm]
    simp only [hPn, Finset.mul_sum]
    rw [Finset.sum_comm]
  rw [c1, c2, ← Finset.sum_sub_distrib]
  exact Finset.sum_congr rfl fun l _ => by ring

/-- Distance of `∑ u_l s_l v_l` to its first `r` terms. -/
theorem truncation_dist {R : Type} [CommRing R] {m n k r : Nat} {u : Nat → Nat → R} {s : Nat → R} {v : Nat → Nat → R}
    (hu : OrthoCols m k u) (hv : OrthoRows n k v) (hr : r ≤ k) :
    ∑ i ∈ range m, ∑ j ∈ range n, (terms k u s v i j - terms r u s v i j) ^ 2 = ∑ l ∈ Ico r k, s l ^ 2 := by
  have e := frob_terms (s := fun l => if l < r then 0 else s l) hu hv
  have e2 : ∑ l ∈ range k, (if l < r then 0 else s l) * (if l < r then 0 else s l) = ∑ l ∈ Ico r k, s l ^ 2 := by
    rw [Finset.range_eq_Ico, ← Finset.sum_Ico_consecutive _ (Nat.zero_le _) hr, Finset.sum_eq_zero, zero_add]
    · refine Finset.sum_congr rfl (fun l hl => ?_)
      have := (Finset.mem_Ico.1 hl).1
      rw [if_neg (by omega), sq]
    · intro l hl
      rw [if_pos (Finset.mem_Ico.1 hl).2, zero_mul]
  rw [← e2, ← e]
  refine Finset.sum_congr rfl (fun i _ => Finset.sum_congr rfl (fun j _ => ?_))
  rw [sq]
  have : terms k u s v i j - terms r u s v i j = terms k u (fun l => if l < r then 0 else s l) v i j := by
    obtain ⟨t, rfl⟩ := Nat.exists_eq_add_of_le hr
    rw [terms, terms, terms, sum_range_split, sum_range_split, add_sub_cancel_left,
      Finset.sum_eq_zero (s := range r) (f := fun x => u i x * (if x < r then 0 else s x) * v x j), zero_add]
    · refine Finset.sum_congr rfl (fun l _ => ?_)
      rw [if_neg (by omega)]
    · intro l hl
      rw [if_pos (mem_range.1 hl)]
      ring
  rw [this]

end Verif
