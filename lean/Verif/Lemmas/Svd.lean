import Verif.Lemmas.Trunc
import Mathlib.Analysis.InnerProductSpace.Spectrum
import Mathlib.Analysis.InnerProductSpace.Adjoint

/-
Real matrices have a singular value decomposition.  Used only to show that the
assumptions about the external routines (`Spec/Lapack.lean`) can be met together.
-/

namespace Verif
open Finset

theorem svd_euclidean {m n : Nat} (hnm : n ≤ m)
    (T : EuclideanSpace ℝ (Fin n) →ₗ[ℝ] EuclideanSpace ℝ (Fin m)) :
    ∃ (u : OrthonormalBasis (Fin m) ℝ (EuclideanSpace ℝ (Fin m)))
      (v : OrthonormalBasis (Fin n) ℝ (EuclideanSpace ℝ (Fin n))) (s : Fin n → ℝ),
      (∀ l, 0 ≤ s l) ∧ Antitone s ∧ ∀ l, T (v l) = s l • u (Fin.castLE hnm l) := by
  have hS : (T.adjoint ∘ₗ T).IsSymmetric := by
    intro x y
    simp [LinearMap.adjoint_inner_left, LinearMap.adjoint_inner_right]
  have hn : Module.finrank ℝ (EuclideanSpace ℝ (Fin n)) = n := finrank_euclideanSpace_fin
  let v := hS.eigenvectorBasis hn
  let lam := hS.eigenvalues hn
  have hv : ∀ i, T.adjoint (T (v i)) = lam i • v i := fun i => by
    have := hS.apply_eigenvectorBasis hn i
    exact this
  have hin : ∀ i j, inner ℝ (T (v i)) (T (v j)) = if i = j then lam j else 0 := by
    intro i j
    rw [← LinearMap.adjoint_inner_right, hv j, inner_smul_right, orthonormal_iff_ite.1 v.orthonormal]
    simp
  have hl0 : ∀ i, 0 ≤ lam i := by
    intro i
    have := hin i i
    rw [if_pos rfl] at this
    rw [← this]
    exact real_inner_self_nonneg
  have hanti : Antitone lam := hS.eigenvalues_antitone hn
  let w : Fin m → EuclideanSpace ℝ (Fin m) := fun i =>
    if h : i.1 < n then (Real.sqrt (lam ⟨i.1, h⟩))⁻¹ • T (v ⟨i.1, h⟩) else 0
  let I : Set (Fin m) := {i | ∃ h : i.1 < n, lam ⟨i.1, h⟩ ≠ 0}
  have hw : Orthonormal ℝ (I.domRestrict w) := by
    rw [orthonormal_iff_ite]
    rintro ⟨i, hi, hi'⟩ ⟨j, hj, hj'⟩
    simp only [Set.domRestrict_apply, w, hi, hj, dif_pos, inner_smul_left, inner_smul_right, hin,
      Subtype.mk.injEq, Fin.ext_iff]
    by_cases hij : i.1 = j.1
    · simp only [hij, if_true]
      have h1 := hl0 ⟨j, hj⟩
      have h2 : 0 < Real.sqrt (lam ⟨j, hj⟩) := Real.sqrt_pos.2 (lt_of_le_of_ne h1 (Ne.symm hj'))
      have h3 := Real.mul_self_sqrt h1
      simp only [conj_trivial]
      generalize Real.sqrt (lam ⟨j, hj⟩) = r at *
      rw [← h3]
      field_simp
    · simp [hij]
  obtain ⟨u, hu⟩ := hw.exists_orthonormalBasis_extension_of_card_eq (by simp)
  refine ⟨u, v, fun l => Real.sqrt (lam l), fun l => Real.sqrt_nonneg _,
    fun a b h => Real.sqrt_le_sqrt (hanti h), fun l => ?_⟩
  by_cases hl : lam l = 0
  · have := hin l l
    rw [if_pos rfl, hl, inner_self_eq_zero] at this
    simp [this, hl]
  · rw [hu (Fin.castLE hnm l) ⟨by simp, hl⟩]
    simp only [w, Fin.val_castLE, Fin.is_lt, dif_pos, Fin.eta]
    have h2 : 0 < Real.sqrt (lam l) := Real.sqrt_pos.2 (lt_of_le_of_ne (hl0 l) (Ne.symm hl))
    rw [smul_smul, mul_inv_cancel₀ h2.ne', one_smul]

theorem svd_tall {m n : Nat} (hnm : n ≤ m) (a : Nat → Nat → ℝ) :
    ∃ u s v, OrthoCols m n u ∧ OrthoRows n n v ∧ (∀ l < n, 0 ≤ s l) ∧
      (∀ l, ∀ l' < n, l ≤ l' → s l' ≤ s l) ∧ ∀ i < m, ∀ j < n, terms n u s v i j = a i j := by
  let M : Matrix (Fin m) (Fin n) ℝ := fun i j => a i j
  obtain ⟨u, v, s, h0, hs, h⟩ := svd_euclidean hnm (Matrix.toEuclideanLin M)
  refine ⟨fun i l => if h : i < m ∧ l < m then u ⟨l, h.2⟩ ⟨i, h.1⟩ else 0,
    fun l => if h : l < n then s ⟨l, h⟩ else 0,
    fun l j => if h : l < n ∧ j < n then v ⟨l, h.1⟩ ⟨j, h.2⟩ else 0, ?_, ?_, ?_, ?_, ?_⟩
  · intro x hx y hy
    have := orthonormal_iff_ite.1 u.orthonormal ⟨y, by omega⟩ ⟨x, by omega⟩
    rw [PiLp.inner_apply] at this
    rw [← Fin.sum_univ_eq_sum_range (fun i => (if h : i < m ∧ x < m then u ⟨x, h.2⟩ ⟨i, h.1⟩ else 0) *
      (if h : i < m ∧ y < m then u ⟨y, h.2⟩ ⟨i, h.1⟩ else 0))]
    simp only [Fin.is_lt, true_and, show x < m by omega, show y < m by omega, dif_pos, Fin.eta]
    simp only [Fin.mk.injEq, eq_comm (a := y)] at this
    rw [← this]
    rfl
  · intro x hx y hy
    have := orthonormal_iff_ite.1 v.orthonormal ⟨y, by omega⟩ ⟨x, by omega⟩
    rw [PiLp.inner_apply] at this
    rw [← Fin.sum_univ_eq_sum_range (fun i => (if h : x < n ∧ i < n then v ⟨x, h.1⟩ ⟨i, h.2⟩ else 0) *
      (if h : y < n ∧ i < n then v ⟨y, h.1⟩ ⟨i, h.2⟩ else 0))]
    simp only [Fin.is_lt, and_true, hx, hy, dif_pos, Fin.eta]
    simp only [Fin.mk.injEq, eq_comm (a := y)] at this
    rw [← this]
    rfl
  · intro l hl
    simp only [hl, dif_pos]
    exact h0 _
  · intro l l' hl' hll
    simp only [hl', show l < n by omega, dif_pos]
    exact hs (by simpa using hll)
  · intro i hi j hj
    -- apply `M` to the unit vector, expanded in the basis `v`
    have e : Matrix.toEuclideanLin M (EuclideanSpace.single ⟨j, hj⟩ 1) =
        ∑ l, v l ⟨j, hj⟩ • (s l • u (Fin.castLE hnm l)) := by
      conv_lhs => rw [← v.sum_repr (EuclideanSpace.single ⟨j, hj⟩ 1)]
      rw [map_sum]
      refine Finset.sum_congr rfl (fun l _ => ?_)
      rw [map_smul, h l, v.repr_apply_apply, EuclideanSpace.inner_single_right]
      simp
    have e2 := congrArg (fun x : EuclideanSpace ℝ (Fin m) => x ⟨i, hi⟩) e
    simp only [Matrix.toLpLin_apply] at e2
    rw [terms, ← Fin.sum_univ_eq_sum_range (fun l => (if h : i < m ∧ l < m then u ⟨l, h.2⟩ ⟨i, h.1⟩ else 0) *
      (if h : l < n then s ⟨l, h⟩ else 0) * (if h : l < n ∧ j < n then v ⟨l, h.1⟩ ⟨j, h.2⟩ else 0))]
    have e3 : (Matrix.mulVec M (EuclideanSpace.single (⟨j, hj⟩ : Fin n) (1 : ℝ)).ofLp) ⟨i, hi⟩ = a i j := by
      rw [PiLp.ofLp_single, Matrix.mulVec_single_one]
      rfl
    rw [← e3]
    refine Eq.trans ?_ e2.symm
    simp only [WithLp.ofLp_sum, Finset.sum_apply, PiLp.smul_apply, smul_eq_mul, Fin.is_lt, hi, hj,
      true_and, and_true, dif_pos, Fin.eta]
    refine Finset.sum_congr rfl (fun l _ => ?_)
    rw [dif_pos (show l.1 < m by omega)]
    have : (⟨l.1, by omega⟩ : Fin m) = Fin.castLE hnm l := rfl
    rw [this]
    ring

/-- Every real matrix has a singular value decomposition of economic size. -/
theorem svd_exists (m n : Nat) (a : Nat → Nat → ℝ) :
    ∃ u s v, OrthoCols m (min m n) u ∧ OrthoRows n (min m n) v ∧ (∀ l < min m n, 0 ≤ s l) ∧
      (∀ l, ∀ l' < min m n, l ≤ l' → s l' ≤ s l) ∧
      ∀ i < m, ∀ j < n, terms (min m n) u s v i j = a i j := by
  rcases Nat.le_total n m with h | h
  · rw [Nat.min_eq_right h]
    exact svd_tall h a
  · rw [Nat.min_eq_left h]
    obtain ⟨u, s, v, hu, hv, h0, hs, hf⟩ := svd_tall h (fun i j => a j i)
    refine ⟨fun i l => v l i, s, fun l j => u j l, hv, hu, h0, hs, fun i hi j hj => ?_⟩
    rw [← hf j hj i hi]
    simp only [terms]
    refine Finset.sum_congr rfl (fun l _ => ?_)
    ring

/-- Routines that satisfy everything assumed of the external ones exist. -/
theorem Lapack.exists_contract : ∃ L : Lapack ℝ, L.Factors ∧ L.Ortho ∧ L.Sorted ∧
    ∀ S e, findSvdTruncationRank S e = .ok (L.truncRank S e) := by
  choose u s v hu hv h0 hs hf using svd_exists
  have ht : ∀ (S : Dense ℝ) (e : ℝ), ∃ r, findSvdTruncationRank S e = .ok r := by
    intro S e
    rw [findSvdTruncationRank]
    obtain ⟨k, hk, -⟩ := truncLoop_ok S (e * Real.sqrt (Mat.normDense S)) (min S.rows S.cols)
      (min S.rows S.cols + 1) 0 (by omega) (by omega)
    exact ⟨k, hk⟩
  choose r hr using ht
  refine ⟨{
    qr := fun A _ => (u A.rows A.cols A.val, fun l j => s A.rows A.cols A.val l * v A.rows A.cols A.val l j)
    rq := fun A _ => (fun i l => u A.rows A.cols A.val i l * s A.rows A.cols A.val l, v A.rows A.cols A.val)
    svd := fun A => (u A.rows A.cols A.val, s A.rows A.cols A.val, v A.rows A.cols A.val)
    truncRank := r
    geqp3 := fun A _ => (min A.rows A.cols, u A.rows A.cols A.val,
      fun l j => s A.rows A.cols A.val l * v A.rows A.cols A.val l j)
    random := fun _ _ _ i j => if i = j then 1 else 0 }, ⟨?_, ?_, ?_⟩, ⟨?_, ?_, ?_, ?_⟩, ⟨?_, ?_⟩, hr⟩
  · intro A i hi j hj
    rw [← hf A.rows A.cols A.val i hi j hj, terms]
    exact Finset.sum_congr rfl (fun l _ => by ring)
  · intro A i hi j hj
    exact hf A.rows A.cols A.val i hi j hj
  · intro A i hi j hj
    exact hf A.rows A.cols A.val i hi j hj
  · exact fun A => hu _ _ _
  · exact fun A => hv _ _ _
  · exact fun A => hu _ _ _
  · exact fun A => hv _ _ _
  · exact fun A => h0 _ _ _
  · exact fun A => hs _ _ _

end Verif
