import Verif.Spec.Qr
import Mathlib.Analysis.Real.Sqrt
import Mathlib.Algebra.BigOperators.Field
import Mathlib.LinearAlgebra.Matrix.NonsingularInverse
import Mathlib.Tactic.FieldSimp
import Mathlib.Tactic.Linarith
import Mathlib.Tactic.Abel

/-!
Householder reflectors exist: there are routines that satisfy `QrContract` over
the real numbers.
-/

namespace Verif
open Finset

/-- One reflector: it annihilates `x` on `S` except at `j`. -/
theorem exists_householder {ι : Type} [Fintype ι] [DecidableEq ι] (x : ι → ℝ) (S : Finset ι) {j : ι}
    (hj : j ∈ S) : ∃ (v : ι → ℝ) (τ : ℝ), v j = 1 ∧ (∀ i, i ∉ S → v i = 0) ∧
      τ * (τ * ∑ i, v i * v i) = 2 * τ ∧
      ∀ i ∈ S, i ≠ j → x i - τ * (v i * ∑ l, v l * x l) = 0 := by
  by_cases h0 : ∀ i ∈ S, i ≠ j → x i = 0
  · refine ⟨fun i => if i = j then 1 else 0, 0, by simp, fun i hi => ?_, by simp, fun i hi hne => ?_⟩
    · exact if_neg (by rintro rfl; exact hi hj)
    · rw [h0 i hi hne]
      simp
  · push Not at h0
    obtain ⟨k, hkS, hkj, hk⟩ := h0
    set ρ : ℝ := ∑ i ∈ S.erase j, x i * x i with hρ
    have hρ0 : 0 < ρ := by
      refine Finset.sum_pos' (fun i _ => mul_self_nonneg _) ⟨k, Finset.mem_erase.2 ⟨hkj, hkS⟩, ?_⟩
      exact mul_self_pos.2 hk
    set β : ℝ := Real.sqrt (x j * x j + ρ) with hβ
    have hββ : β * β = x j * x j + ρ := Real.mul_self_sqrt (by nlinarith [mul_self_nonneg (x j)])
    have hβ0 : β ≠ 0 := by
      intro h
      rw [h] at hββ
      nlinarith [mul_self_nonneg (x j)]
    set d : ℝ := x j - β with hd
    have hd0 : d ≠ 0 := by
      intro h
      have : x j = β := by linarith
      rw [this] at hββ
      linarith
    set v : ι → ℝ := fun i => if i = j then 1 else if i ∈ S then x i / d else 0 with hv
    have sum_split : ∀ f : ι → ℝ, (∀ i, i ∉ S → f i = 0) →
        ∑ i, f i = f j + ∑ i ∈ S.erase j, f i := by
      intro f hf
      rw [← Finset.sum_subset (Finset.subset_univ S) (fun i _ hi => hf i hi)]
      exact (Finset.add_sum_erase S f hj).symm
    have v0 : ∀ i, i ∉ S → v i = 0 := by
      intro i hi
      simp only [hv]
      rw [if_neg (by rintro rfl; exact hi hj), if_neg hi]
    have vj : v j = 1 := by simp [hv]
    have vi : ∀ i ∈ S, i ≠ j → v i = x i / d := by
      intro i hi hne
      simp [hv, hne, hi]
    have vv : ∑ i, v i * v i = 1 + ρ / (d * d) := by
      rw [sum_split _ (fun i hi => by rw [v0 i hi, zero_mul]), vj]
      congr 1
      · ring
      · rw [hρ, Finset.sum_div]
        refine Finset.sum_congr rfl (fun i hi => ?_)
        obtain ⟨h1, h2⟩ := Finset.mem_erase.1 hi
        rw [vi i h2 h1]
        field_simp
    have vx : ∑ i, v i * x i = x j + ρ / d := by
      rw [sum_split _ (fun i hi => by rw [v0 i hi, zero_mul]), vj]
      congr 1
      · ring
      · rw [hρ, Finset.sum_div]
        refine Finset.sum_congr rfl (fun i hi => ?_)
        obtain ⟨h1, h2⟩ := Finset.mem_erase.1 hi
        rw [vi i h2 h1]
        field_simp
    have hρd : ρ = β * β - x j * x j := by linarith
    have key : x j + ρ / d = -β := by
      rw [hρd, hd]
      have hd0' : x j - β ≠ 0 := hd0
      field_simp
      ring
    have key2 : 1 + ρ / (d * d) = -(2 * β) / d := by
      rw [hρd, hd]
      have hd0' : x j - β ≠ 0 := hd0
      field_simp
      ring
    refine ⟨v, -d / β, vj, v0, ?_, fun i hi hne => ?_⟩
    · rw [vv, key2]
      field_simp
    · rw [vx, key, vi i hi hne]
      field_simp
      ring

open Matrix in
/-- The loop over the columns.  `S c` are the rows the reflector of column `c`
acts on. -/
theorem exists_wy {m n : Nat} (piv : Fin n → Fin m) (S : Fin n → Finset (Fin m))
    (h1 : ∀ c, piv c ∈ S c) (h2 : ∀ c i, i ∈ S c → piv c ≤ i)
    (h3 : ∀ s c i, s < c → piv c < i → i ∈ S s → i ∈ S c) (hp : ∀ s c, s < c → piv s < piv c)
    (A : Matrix (Fin m) (Fin n) ℝ) (hA : ∀ c i, piv c < i → i ∉ S c → A i c = 0) (s : Nat) (hs : s ≤ n) :
    ∃ (V : Matrix (Fin m) (Fin n) ℝ) (T : Matrix (Fin n) (Fin n) ℝ),
      (1 - V * T * Vᵀ) * (1 - V * T * Vᵀ)ᵀ = 1 ∧
      (∀ i (c : Fin n), s ≤ c.1 → V i c = 0) ∧ (∀ c : Fin n, c.1 < s → V (piv c) c = 1) ∧
      (∀ c i, i ∉ S c → V i c = 0) ∧
      (∀ a b : Fin n, s ≤ a.1 ∨ s ≤ b.1 ∨ b < a → T a b = 0) ∧
      (∀ c i, piv c < i → (c.1 < s ∨ i ∉ S c) → ((1 - V * T * Vᵀ)ᵀ * A : Matrix (Fin m) (Fin n) ℝ) i c = 0) := by
  induction s with
  | zero =>
    refine ⟨0, 0, by simp, by simp, fun c hc => absurd hc (by omega), by simp, by simp, ?_⟩
    intro c i hi hc
    have := hA c i hi (by rcases hc with h | h; · omega
                          · exact h)
    simpa using this
  | succ s ih =>
    obtain ⟨V, T, hQ, hV0, hV1, hVS, hT, hB⟩ := ih (by omega)
    set c0 : Fin n := ⟨s, by omega⟩ with hc0
    set Q := 1 - V * T * Vᵀ with hQd
    set B := Qᵀ * A with hBd
    obtain ⟨v, τ, v1, v0, vv, va⟩ := exists_householder (fun i => B i c0) (S c0) (h1 c0)
    obtain ⟨w, hw⟩ : ∃ w : Matrix (Fin m) Unit ℝ, ∀ i u, w i u = v i := ⟨fun i _ => v i, fun _ _ => rfl⟩
    obtain ⟨e, he⟩ : ∃ e : Matrix (Fin n) Unit ℝ, ∀ c u, e c u = if c = c0 then 1 else 0 :=
      ⟨fun c _ => if c = c0 then 1 else 0, fun _ _ => rfl⟩
    have Ve : V * e = 0 := by
      ext i u
      rw [Matrix.mul_apply]
      simp only [he, mul_ite, mul_one, mul_zero, Finset.sum_ite_eq', Finset.mem_univ, if_true, Matrix.zero_apply]
      exact hV0 i c0 (le_refl _)
    have Te : T * e = 0 := by
      ext i u
      rw [Matrix.mul_apply]
      simp only [he, mul_ite, mul_one, mul_zero, Finset.sum_ite_eq', Finset.mem_univ, if_true, Matrix.zero_apply]
      exact hT i c0 (Or.inr (Or.inl (le_refl _)))
    have eT : eᵀ * T = 0 := by
      ext u i
      rw [Matrix.mul_apply]
      simp only [he, Matrix.transpose_apply, ite_mul, one_mul, zero_mul, Finset.sum_ite_eq', Finset.mem_univ,
        if_true, Matrix.zero_apply]
      exact hT c0 i (Or.inl (le_refl _))
    have eV : eᵀ * Vᵀ = 0 := by
      rw [← Matrix.transpose_mul, Ve, Matrix.transpose_zero]
    have ee : eᵀ * e = 1 := by
      ext u u'
      rw [Matrix.mul_apply]
      simp [he]
    have ww : τ • (τ • (w * (wᵀ * w) * wᵀ)) = (2 * τ) • (w * wᵀ) := by
      have : wᵀ * w = (∑ i, v i * v i) • (1 : Matrix Unit Unit ℝ) := by
        ext u u'
        rw [Matrix.mul_apply]
        simp [hw]
      rw [this, Matrix.mul_smul, Matrix.mul_one, Matrix.smul_mul, smul_smul, smul_smul, mul_assoc, vv]
    let V' := V + w * eᵀ
    let T' := T + (-(τ • (T * Vᵀ * w)) + τ • e) * eᵀ
    let H : Matrix (Fin m) (Fin m) ℝ := 1 - τ • (w * wᵀ)
    have hVTV : V' * T' * V'ᵀ = V * T * Vᵀ - τ • (V * T * Vᵀ * (w * wᵀ)) + τ • (w * wᵀ) := by
      have a1 : V' * T' = V * T - τ • (V * T * Vᵀ * w * eᵀ) + τ • (w * eᵀ) := by
        show (V + w * eᵀ) * (T + (-(τ • (T * Vᵀ * w)) + τ • e) * eᵀ) = _
        have b1 : w * eᵀ * T = 0 := by rw [Matrix.mul_assoc, eT, Matrix.mul_zero]
        have b2 : w * eᵀ * (-(τ • (T * Vᵀ * w)) + τ • e) = τ • w := by
          rw [Matrix.mul_assoc, Matrix.mul_add, Matrix.mul_neg, Matrix.mul_smul, Matrix.mul_smul, ee,
            ← Matrix.mul_assoc, ← Matrix.mul_assoc, eT]
          simp
        have b3 : V * (-(τ • (T * Vᵀ * w)) + τ • e) = -(τ • (V * T * Vᵀ * w)) := by
          rw [Matrix.mul_add, Matrix.mul_neg, Matrix.mul_smul, Matrix.mul_smul, Ve, smul_zero, add_zero]
          simp only [Matrix.mul_assoc]
        rw [Matrix.add_mul, Matrix.mul_add, Matrix.mul_add, b1, zero_add, ← Matrix.mul_assoc V, b3,
          ← Matrix.mul_assoc, b2, Matrix.neg_mul, Matrix.smul_mul, Matrix.smul_mul]
        abel
      have a2 : V'ᵀ = Vᵀ + e * wᵀ := by
        show (V + w * eᵀ)ᵀ = _
        rw [Matrix.transpose_add, Matrix.transpose_mul, Matrix.transpose_transpose]
      rw [a1, a2]
      have b1 : V * T * (e * wᵀ) = 0 := by
        rw [Matrix.mul_assoc, ← Matrix.mul_assoc T, Te, Matrix.zero_mul, Matrix.mul_zero]
      have b2 : V * T * Vᵀ * w * eᵀ * Vᵀ = 0 := by rw [Matrix.mul_assoc, eV, Matrix.mul_zero]
      have b3 : V * T * Vᵀ * w * eᵀ * (e * wᵀ) = V * T * Vᵀ * (w * wᵀ) := by
        rw [Matrix.mul_assoc, ← Matrix.mul_assoc eᵀ, ee, Matrix.one_mul, Matrix.mul_assoc]
      have b4 : w * eᵀ * Vᵀ = 0 := by rw [Matrix.mul_assoc, eV, Matrix.mul_zero]
      have b5 : w * eᵀ * (e * wᵀ) = w * wᵀ := by
        rw [Matrix.mul_assoc, ← Matrix.mul_assoc eᵀ, ee, Matrix.one_mul]
      rw [Matrix.add_mul, Matrix.sub_mul, Matrix.mul_add, Matrix.smul_mul, Matrix.mul_add, Matrix.smul_mul,
        Matrix.mul_add, b1, b2, b3, b4, b5]
      simp
    have hQ' : 1 - V' * T' * V'ᵀ = Q * H := by
      rw [hVTV]
      show _ = Q * (1 - τ • (w * wᵀ))
      rw [Matrix.mul_sub, Matrix.mul_one, Matrix.mul_smul, hQd, Matrix.sub_mul, Matrix.one_mul, smul_sub]
      abel
    have hHt : Hᵀ = H := by
      show (1 - τ • (w * wᵀ))ᵀ = _
      rw [Matrix.transpose_sub, Matrix.transpose_one, Matrix.transpose_smul, Matrix.transpose_mul,
        Matrix.transpose_transpose]
    have hHH : H * H = 1 := by
      show (1 - τ • (w * wᵀ)) * (1 - τ • (w * wᵀ)) = 1
      have : w * wᵀ * (w * wᵀ) = w * (wᵀ * w) * wᵀ := by simp only [Matrix.mul_assoc]
      rw [Matrix.sub_mul, Matrix.one_mul, Matrix.mul_sub, Matrix.mul_one, Matrix.smul_mul, Matrix.mul_smul,
        this, ww, two_mul, add_smul]
      abel
    -- entries of the new product
    have hB' : ∀ i c, ((1 - V' * T' * V'ᵀ)ᵀ * A : Matrix (Fin m) (Fin n) ℝ) i c = B i c - τ * (v i * ∑ l, v l * B l c) := by
      intro i c
      rw [hQ', Matrix.transpose_mul, hHt, Matrix.mul_assoc, ← hBd]
      show ((1 - τ • (w * wᵀ)) * B : Matrix (Fin m) (Fin n) ℝ) i c = _
      rw [Matrix.sub_mul, Matrix.one_mul, Matrix.smul_mul, Matrix.sub_apply, Matrix.smul_apply, smul_eq_mul,
        Matrix.mul_assoc, Matrix.mul_apply]
      simp only [Finset.univ_unique, Finset.sum_singleton, hw, Matrix.mul_apply, Matrix.transpose_apply]
    refine ⟨V', T', ?_, ?_, ?_, ?_, ?_, ?_⟩
    · rw [hQ', Matrix.transpose_mul, hHt, Matrix.mul_assoc, ← Matrix.mul_assoc H, hHH, Matrix.one_mul, hQ]
    · intro i c hc
      show (V + w * eᵀ) i c = 0
      rw [Matrix.add_apply, hV0 i c (by omega), Matrix.mul_apply]
      simp only [Finset.univ_unique, Finset.sum_singleton, Matrix.transpose_apply, he]
      rw [if_neg (by intro h; rw [h] at hc; simp only [hc0] at hc; omega)]
      simp
    · intro c hc
      show (V + w * eᵀ) (piv c) c = 1
      rw [Matrix.add_apply, Matrix.mul_apply]
      simp only [Finset.univ_unique, Finset.sum_singleton, Matrix.transpose_apply, he, hw]
      by_cases hcs : c.1 < s
      · rw [hV1 c hcs, if_neg (by intro h; rw [h] at hcs; simp only [hc0] at hcs; omega)]
        simp
      · have : c = c0 := Fin.ext (by simp only [hc0]; omega)
        rw [this, hV0 _ c0 (le_refl _), v1]
        simp
    · intro c i hi
      show (V + w * eᵀ) i c = 0
      rw [Matrix.add_apply, hVS c i hi, Matrix.mul_apply]
      simp only [Finset.univ_unique, Finset.sum_singleton, Matrix.transpose_apply, he, hw]
      by_cases hc : c = c0
      · rw [hc] at hi
        rw [v0 i hi]
        simp
      · rw [if_neg hc]
        simp
    · intro a b hab
      show (T + (-(τ • (T * Vᵀ * w)) + τ • e) * eᵀ) a b = 0
      rw [Matrix.add_apply, Matrix.mul_apply]
      simp only [Finset.univ_unique, Finset.sum_singleton, Matrix.transpose_apply, Matrix.add_apply,
        Matrix.neg_apply, Matrix.smul_apply, smul_eq_mul]
      have z : T a b = 0 := hT a b (by omega)
      rw [z, zero_add]
      by_cases hb : b = c0
      · have ha : c0 < a := by
          rw [hb] at hab
          rw [Fin.lt_def] at hab ⊢
          simp only [hc0] at hab ⊢
          omega
        have : (T * Vᵀ * w) a default = 0 := by
          rw [Matrix.mul_assoc, Matrix.mul_apply]
          refine Finset.sum_eq_zero (fun l _ => ?_)
          rw [hT a l (Or.inl (by rw [Fin.lt_def] at ha; simp only [hc0] at ha; omega)), zero_mul]
        rw [this]
        simp only [he]
        rw [if_neg (ne_of_gt ha)]
        simp
      · simp only [he]
        rw [if_neg hb]
        simp
    · intro c i hi hc
      rw [hB']
      by_cases hcs : c.1 < s
      · have hlt : c < c0 := by rw [Fin.lt_def]; exact hcs
        have z : ∑ l, v l * B l c = 0 := by
          refine Finset.sum_eq_zero (fun l _ => ?_)
          by_cases hl : l ∈ S c0
          · have : piv c < l := lt_of_lt_of_le (hp c c0 hlt) (h2 c0 l hl)
            rw [hB c l this (Or.inl hcs), mul_zero]
          · rw [v0 l hl, zero_mul]
        rw [z, hB c i hi (Or.inl hcs)]
        simp
      · by_cases hcc : c = c0
        · subst hcc
          by_cases hiS : i ∈ S c0
          · exact va i hiS (ne_of_gt hi)
          · rw [hB c0 i hi (Or.inr hiS), v0 i hiS]
            simp
        · have hlt : c0 < c := by
            rw [Fin.lt_def]
            have : c.1 ≠ c0.1 := fun h => hcc (Fin.ext h)
            simp only [hc0] at this ⊢
            omega
          have hiS : i ∉ S c := hc.resolve_left (by rw [Fin.lt_def] at hlt; simp only [hc0] at hlt; omega)
          rw [hB c i hi (Or.inr hiS), v0 i (fun h => hiS (h3 c0 c i hlt hi h))]
          simp

open Matrix in
/-- The same with index functions. -/
theorem exists_reflector {m n : Nat} (hnm : n ≤ m) (S : Nat → Nat → Prop) (h1 : ∀ c, S c c)
    (h2 : ∀ c i, S c i → c ≤ i) (h3 : ∀ s c i, s < c → c < i → S s i → S c i)
    (A : Nat → Nat → ℝ) (hA : ∀ c < n, ∀ i < m, c < i → ¬ S c i → A i c = 0) :
    ∃ V T : Nat → Nat → ℝ, (∀ c < n, V c c = 1) ∧ (∀ c < n, ∀ i < m, ¬ S c i → V i c = 0) ∧
      (∀ a b, b < a → T a b = 0) ∧ Orthogonal m (reflector n V T) ∧
      ∀ i < m, ∀ j < n, j < i → ∑ l ∈ range m, reflector n V T l i * A l j = 0 := by
  classical
  obtain ⟨V, T, hQ, -, hV1, hVS, hT, hB⟩ := exists_wy (m := m) (n := n) (fun c => Fin.castLE hnm c)
    (fun c => Finset.univ.filter (fun i => S c i))
    (fun c => by simpa using h1 c) (fun c i hi => by
      rw [Fin.le_def]
      exact h2 c i (by simpa using hi))
    (fun s c i hs hi h => by
      have h : S s i := by simpa using h
      have : S c i := h3 s c i (by rwa [Fin.lt_def] at hs) (by rwa [Fin.lt_def] at hi) h
      simpa using this)
    (fun s c h => by rw [Fin.lt_def] at h ⊢; exact h)
    (fun i c => A i c) (fun c i hi hs => hA c c.2 i i.2 (by rwa [Fin.lt_def] at hi) (by simpa using hs))
    n (le_refl _)
  set V' : Nat → Nat → ℝ := fun i c => if h : i < m ∧ c < n then V ⟨i, h.1⟩ ⟨c, h.2⟩ else 0 with hV'
  set T' : Nat → Nat → ℝ := fun a b => if h : a < n ∧ b < n then T ⟨a, h.1⟩ ⟨b, h.2⟩ else 0 with hT'
  have eV : ∀ (i : Fin m) (c : Fin n), V' i c = V i c := by
    intro i c
    simp only [hV']
    rw [dif_pos ⟨i.2, c.2⟩]
  have eT : ∀ (i c : Fin n), T' i c = T i c := by
    intro i c
    simp only [hT']
    rw [dif_pos ⟨i.2, c.2⟩]
  have eR : ∀ i j : Fin m, reflector n V' T' i j = (1 - V * T * Vᵀ : Matrix (Fin m) (Fin m) ℝ) i j := by
    intro i j
    rw [Matrix.sub_apply, Matrix.one_apply, Matrix.mul_assoc, Matrix.mul_apply]
    unfold reflector
    rw [Finset.sum_range]
    congr 1
    · simp only [Fin.ext_iff]
    · refine Finset.sum_congr rfl (fun a _ => ?_)
      rw [eV, Matrix.mul_apply, Finset.sum_range]
      congr 1
      refine Finset.sum_congr rfl (fun b _ => ?_)
      rw [eT, eV, Matrix.transpose_apply]
  have hQ2 : (1 - V * T * Vᵀ)ᵀ * (1 - V * T * Vᵀ) = 1 := mul_eq_one_comm.1 hQ
  refine ⟨V', T', ?_, ?_, ?_, ?_, ?_⟩
  · intro c hc
    have := hV1 ⟨c, hc⟩ hc
    rw [← eV] at this
    exact this
  · intro c hc i hi hs
    have := hVS ⟨c, hc⟩ ⟨i, hi⟩ (by simpa using hs)
    rw [← eV] at this
    exact this
  · intro a b hab
    simp only [hT']
    split
    · exact hT _ _ (Or.inr (Or.inr hab))
    · rfl
  · intro i hi j hj
    have a := congrFun (congrFun hQ2 ⟨i, hi⟩) ⟨j, hj⟩
    have b := congrFun (congrFun hQ ⟨i, hi⟩) ⟨j, hj⟩
    rw [Matrix.mul_apply, Matrix.one_apply] at a b
    simp only [Matrix.transpose_apply, ← eR, Fin.mk.injEq] at a b
    rw [Finset.sum_range, Finset.sum_range]
    exact ⟨a, b⟩
  · intro i hi j hj hlt
    have := hB ⟨j, hj⟩ ⟨i, hi⟩ (by rw [Fin.lt_def]; exact hlt) (Or.inl hj)
    replace this := (Matrix.mul_apply (M := (1 - V * T * Vᵀ)ᵀ)
      (N := (fun i c => A i c : Matrix (Fin m) (Fin n) ℝ))).symm.trans this
    simp only [Matrix.transpose_apply, ← eR] at this
    rw [Finset.sum_range]
    exact this

/-- Routines that satisfy the contract exist. -/
theorem QrKernels.exists_contract : ∃ K : QrKernels ℝ, QrContract K := by
  have g : ∀ A : Dense ℝ, ∃ x : (Nat → Nat → ℝ) × (Nat → Nat → ℝ), A.cols ≤ A.rows →
      Orthogonal A.rows (reflector A.cols (Dense.tri ⟨A.rows, A.cols, x.1⟩ .lower true)
        (Dense.tri ⟨A.cols, A.cols, x.2⟩ .upper false)) ∧
      ∀ i < A.rows, ∀ j < A.cols, ∑ l ∈ range A.rows,
        reflector A.cols (Dense.tri ⟨A.rows, A.cols, x.1⟩ .lower true)
          (Dense.tri ⟨A.cols, A.cols, x.2⟩ .upper false) l i * A.val l j =
        if i ≤ j then x.1 i j else 0 := by
    intro A
    by_cases hle : A.cols ≤ A.rows
    · obtain ⟨V, T, hV1, hV0, hT, ho, hz⟩ := exists_reflector hle (fun c i => c ≤ i) (fun c => le_refl c)
        (fun _ _ h => h) (fun s c i _ h _ => h.le) A.val (fun c _ i _ h hn => absurd h.le hn)
      refine ⟨(fun i j => if i ≤ j then ∑ l ∈ range A.rows, reflector A.cols V T l i * A.val l j else V i j, T),
        fun _ => ?_⟩
      have eT : Dense.tri ⟨A.cols, A.cols, T⟩ .upper false = T := by
        funext a b
        simp only [Dense.tri]
        split
        · rfl
        · split
          · rfl
          · exact (hT a b (by omega)).symm
      have eV : ∀ i < A.rows, ∀ c < A.cols, Dense.tri ⟨A.rows, A.cols, fun i j =>
          if i ≤ j then ∑ l ∈ range A.rows, reflector A.cols V T l i * A.val l j else V i j⟩ .lower true i c =
          V i c := by
        intro i hi c hc
        simp only [Dense.tri]
        split
        · rename_i h
          rw [h, hV1 c hc]
          rfl
        · split
          · rw [if_neg (by omega)]
          · exact (hV0 c hc i hi (by omega)).symm
      have eR : ∀ i < A.rows, ∀ j < A.rows, reflector A.cols (Dense.tri ⟨A.rows, A.cols, fun i j =>
          if i ≤ j then ∑ l ∈ range A.rows, reflector A.cols V T l i * A.val l j else V i j⟩ .lower true) T i j =
          reflector A.cols V T i j := by
        intro i hi j hj
        unfold reflector
        congr 1
        refine Finset.sum_congr rfl (fun a ha => ?_)
        have ha := Finset.mem_range.1 ha
        have e1 := eV i hi a ha
        unfold reflector at e1
        rw [e1]
        congr 1
        refine Finset.sum_congr rfl (fun b hb => ?_)
        have e2 := eV j hj b (Finset.mem_range.1 hb)
        unfold reflector at e2
        rw [e2]
      simp only [eT]
      refine ⟨?_, ?_⟩
      · intro i hi j hj
        rw [Finset.sum_congr rfl (fun l hl => by
          rw [eR l (Finset.mem_range.1 hl) i hi, eR l (Finset.mem_range.1 hl) j hj])]
        refine ⟨(ho i hi j hj).1, ?_⟩
        rw [Finset.sum_congr rfl (fun l hl => by
          rw [eR i hi l (Finset.mem_range.1 hl), eR j hj l (Finset.mem_range.1 hl)])]
        exact (ho i hi j hj).2
      · intro i hi j hj
        rw [Finset.sum_congr rfl (fun l hl => by rw [eR l (Finset.mem_range.1 hl) i hi])]
        by_cases hij : i ≤ j
        · rw [if_pos hij, if_pos hij]
        · rw [if_neg hij]
          exact hz i hi j hj (by omega)
    · exact ⟨(fun _ _ => 0, fun _ _ => 0), fun h => absurd h hle⟩
  have t : ∀ A B : Dense ℝ, ∃ x : (Nat → Nat → ℝ) × (Nat → Nat → ℝ) × (Nat → Nat → ℝ),
      A.rows = B.cols → A.cols = B.cols →
      Orthogonal (B.cols + B.rows)
        (reflector B.cols (stack B.cols (fun i j => if i = j then 1 else 0) x.2.1)
          (Dense.tri ⟨B.cols, B.cols, x.2.2⟩ .upper false)) ∧
      ∀ i < B.cols + B.rows, ∀ j < B.cols, ∑ l ∈ range (B.cols + B.rows),
        reflector B.cols (stack B.cols (fun i j => if i = j then 1 else 0) x.2.1)
          (Dense.tri ⟨B.cols, B.cols, x.2.2⟩ .upper false) l i *
          stack B.cols (A.tri .upper false) B.val l j =
        if i ≤ j then x.1 i j else 0 := by
    intro A B
    obtain ⟨V, T, hV1, hV0, hT, ho, hz⟩ := exists_reflector (m := B.cols + B.rows) (n := B.cols)
      (by omega) (fun c i => i = c ∨ (c ≤ i ∧ B.cols ≤ i)) (fun c => Or.inl rfl)
      (fun c i h => by omega) (fun s c i h1 h2 h3 => by omega)
      (stack B.cols (A.tri .upper false) B.val) (fun c hc i hi hlt hn => by
        unfold stack
        rw [if_pos (by omega)]
        simp only [Dense.tri]
        rw [if_neg (by omega), if_neg (by omega)])
    refine ⟨(fun i j => ∑ l ∈ range (B.cols + B.rows), reflector B.cols V T l i *
      stack B.cols (A.tri .upper false) B.val l j, fun i j => V (B.cols + i) j, T), fun _ _ => ?_⟩
    have eT : Dense.tri ⟨B.cols, B.cols, T⟩ .upper false = T := by
      funext a b
      simp only [Dense.tri]
      split
      · rfl
      · split
        · rfl
        · exact (hT a b (by omega)).symm
    have eV : ∀ i < B.cols + B.rows, ∀ c < B.cols,
        stack B.cols (fun i j => if i = j then 1 else 0) (fun i j => V (B.cols + i) j) i c = V i c := by
      intro i hi c hc
      unfold stack
      split
      · show (if i = c then (1 : ℝ) else 0) = _
        split
        · rename_i h
          rw [h, hV1 c hc]
        · exact (hV0 c hc i hi (by omega)).symm
      · show V (B.cols + (i - B.cols)) c = _
        rw [show B.cols + (i - B.cols) = i by omega]
    have eR : ∀ i < B.cols + B.rows, ∀ j < B.cols + B.rows, reflector B.cols (stack B.cols
        (fun i j => if i = j then 1 else 0) (fun i j => V (B.cols + i) j)) T i j = reflector B.cols V T i j := by
      intro i hi j hj
      unfold reflector
      congr 1
      refine Finset.sum_congr rfl (fun a ha => ?_)
      rw [eV i hi a (Finset.mem_range.1 ha)]
      congr 1
      exact Finset.sum_congr rfl (fun b hb => by rw [eV j hj b (Finset.mem_range.1 hb)])
    simp only [eT]
    refine ⟨?_, ?_⟩
    · intro i hi j hj
      rw [Finset.sum_congr rfl (fun l hl => by
        rw [eR l (Finset.mem_range.1 hl) i hi, eR l (Finset.mem_range.1 hl) j hj])]
      refine ⟨(ho i hi j hj).1, ?_⟩
      rw [Finset.sum_congr rfl (fun l hl => by
        rw [eR i hi l (Finset.mem_range.1 hl), eR j hj l (Finset.mem_range.1 hl)])]
      exact (ho i hi j hj).2
    · intro i hi j hj
      rw [Finset.sum_congr rfl (fun l hl => by rw [eR l (Finset.mem_range.1 hl) i hi])]
      by_cases hij : i ≤ j
      · rw [if_pos hij]
      · rw [if_neg hij]
        exact hz i hi j hj (by omega)
  choose kg hg using g
  choose kt ht using t
  exact ⟨⟨kg, kt⟩, fun A h => (hg A h).1, fun A h => (hg A h).2, fun A B h1 h2 => (ht A B h1 h2).1,
    fun A B h1 h2 => (ht A B h1 h2).2⟩

end Verif
