import Verif.Spec.Geqp3
import Verif.Lemmas.Basic
import Mathlib.LinearAlgebra.Matrix.NonsingularInverse
import Mathlib.Tactic.LinearCombination
import Mathlib.Tactic.FieldSimp
import Mathlib.Tactic.Linarith
import Mathlib.Tactic.Positivity
import Mathlib.Algebra.BigOperators.Intervals

/-!
`truncated_geqp3`.
-/

namespace Verif.Geqp3
open Finset

/-! ### reflectors -/

/-- The condition under which `hh` is an orthogonal reflection. -/
def Refl (m : Nat) (τ : ℝ) (v : Nat → ℝ) : Prop := τ * (τ * ∑ i ∈ range m, v i * v i) = 2 * τ

theorem hh_congr {m : Nat} {τ : ℝ} {v x y : Nat → ℝ} (h : ∀ i < m, x i = y i) {i : Nat} (hi : i < m) :
    hh m τ v x i = hh m τ v y i := by
  unfold hh
  rw [h i hi, Finset.sum_congr rfl (fun l hl => by rw [h l (mem_range.1 hl)])]

theorem dot_hh {m : Nat} {τ : ℝ} {v : Nat → ℝ} (h : Refl m τ v) (x y : Nat → ℝ) :
    ∑ i ∈ range m, hh m τ v x i * hh m τ v y i = ∑ i ∈ range m, x i * y i := by
  unfold hh Refl at *
  generalize ha : ∑ l ∈ range m, v l * x l = a
  generalize hb : ∑ l ∈ range m, v l * y l = b
  have e : ∀ i ∈ range m, (x i - τ * v i * a) * (y i - τ * v i * b) =
      x i * y i - τ * b * (v i * x i) - τ * a * (v i * y i) + τ * τ * a * b * (v i * v i) := by
    intro i _; ring
  rw [Finset.sum_congr rfl e]
  simp only [Finset.sum_add_distrib, Finset.sum_sub_distrib, ← Finset.mul_sum]
  rw [ha, hb]
  linear_combination a * b * h

theorem hh_hh {m : Nat} {τ : ℝ} {v : Nat → ℝ} (h : Refl m τ v) (x : Nat → ℝ) (i : Nat) :
    hh m τ v (hh m τ v x) i = x i := by
  have e : ∑ l ∈ range m, v l * hh m τ v x l =
      (1 - τ * ∑ l ∈ range m, v l * v l) * ∑ l ∈ range m, v l * x l := by
    unfold hh
    generalize ha : ∑ l ∈ range m, v l * x l = a
    simp only [mul_sub, Finset.sum_sub_distrib]
    rw [show ∑ l ∈ range m, v l * (τ * v l * a) = τ * a * ∑ l ∈ range m, v l * v l by
      rw [Finset.mul_sum]; exact Finset.sum_congr rfl (fun _ _ => by ring)]
    rw [ha]
    ring
  unfold Refl at h
  rw [hh, e]
  unfold hh
  linear_combination (v i * ∑ l ∈ range m, v l * x l) * h

theorem hh_delta (m : Nat) (τ : ℝ) (v x : Nat → ℝ) {i : Nat} (hi : i < m) :
    hh m τ v x i = ∑ q ∈ range m, x q * hh m τ v (fun p => if p = q then 1 else 0) i := by
  unfold hh
  have e : ∀ q ∈ range m, x q * ((if i = q then 1 else 0) - τ * v i * ∑ l ∈ range m, v l * (if l = q then 1 else 0)) =
      (if i = q then x q else 0) - τ * v i * (v q * x q) := by
    intro q hq
    have : ∑ l ∈ range m, v l * (if l = q then (1 : ℝ) else 0) = v q := by
      simp [mem_range.1 hq]
    rw [this]
    split <;> ring
  rw [Finset.sum_congr rfl e, Finset.sum_sub_distrib, ← Finset.mul_sum]
  simp [hi]

/-! ### products of reflectors -/

theorem applyQ_congr {m : Nat} {s s' : St} {r : Nat} (ht : ∀ l < r, s.tau l = s'.tau l)
    (hA : ∀ l < r, ∀ i < m, s.A i l = s'.A i l) {x y : Nat → ℝ} (h : ∀ i < m, x i = y i) {i : Nat} (hi : i < m) :
    applyQ m s r x i = applyQ m s' r y i := by
  induction r generalizing x y with
  | zero => exact h i hi
  | succ r ih =>
    refine ih (fun l hl => ht l (by omega)) (fun l hl => hA l (by omega)) (fun p hp => ?_)
    have hv : ∀ q < m, vec s.A r q = vec s'.A r q := by
      intro q hq
      unfold vec
      rw [hA r (by omega) q hq]
    unfold hh
    rw [ht r (by omega), h p hp, hv p hp,
      Finset.sum_congr rfl (fun l hl => by rw [hv l (mem_range.1 hl), h l (mem_range.1 hl)])]

theorem dot_applyQ {m : Nat} {s : St} {r : Nat} (h : ∀ l < r, Refl m (s.tau l) (vec s.A l)) (x y : Nat → ℝ) :
    ∑ i ∈ range m, applyQ m s r x i * applyQ m s r y i = ∑ i ∈ range m, x i * y i := by
  induction r generalizing x y with
  | zero => rfl
  | succ r ih =>
    simp only [applyQ]
    rw [ih (fun l hl => h l (by omega)), dot_hh (h r (by omega))]

theorem applyQ_delta {m : Nat} {s : St} (r : Nat) (x : Nat → ℝ) {i : Nat} (hi : i < m) :
    applyQ m s r x i = ∑ l ∈ range m, x l * applyQ m s r (fun p => if p = l then 1 else 0) i := by
  induction r generalizing x with
  | zero => simp [applyQ, hi]
  | succ r ih =>
    simp only [applyQ]
    rw [ih]
    have e : ∀ l ∈ range m, x l * applyQ m s r (hh m (s.tau r) (vec s.A r) (fun p => if p = l then 1 else 0)) i =
        ∑ q ∈ range m, x l * hh m (s.tau r) (vec s.A r) (fun p => if p = l then 1 else 0) q *
          applyQ m s r (fun p => if p = q then 1 else 0) i := by
      intro l _
      rw [ih, Finset.mul_sum]
      exact Finset.sum_congr rfl (fun _ _ => by ring)
    rw [Finset.sum_congr rfl e, Finset.sum_comm]
    refine Finset.sum_congr rfl (fun q hq => ?_)
    rw [hh_delta m _ _ x (mem_range.1 hq), Finset.sum_mul]

/-- The product of the reflectors is orthogonal. -/
theorem applyQ_orth {m : Nat} {s : St} {r : Nat} (h : ∀ l < r, Refl m (s.tau l) (vec s.A l)) :
    Orthogonal m (fun i l => applyQ m s r (fun p => if p = l then 1 else 0) i) := by
  have h1 : ∀ a < m, ∀ b < m, ∑ i ∈ range m, applyQ m s r (fun p => if p = a then 1 else 0) i *
      applyQ m s r (fun p => if p = b then 1 else 0) i = if a = b then 1 else 0 := by
    intro a ha b hb
    rw [dot_applyQ h]
    by_cases hab : a = b
    · subst hab; simp [ha]
    · rw [if_neg hab]
      refine Finset.sum_eq_zero (fun i _ => ?_)
      by_cases hi : i = a
      · subst hi; simp [hab]
      · simp [hi]
  set M : Matrix (Fin m) (Fin m) ℝ := Matrix.of fun i l => applyQ m s r (fun p => if p = l.1 then 1 else 0) i with hM
  have hMM : M.transpose * M = 1 := by
    ext a b
    rw [Matrix.mul_apply, Matrix.one_apply]
    have := h1 a a.2 b b.2
    rw [← Fin.sum_univ_eq_sum_range (fun i => applyQ m s r (fun p => if p = a.1 then 1 else 0) i *
      applyQ m s r (fun p => if p = b.1 then 1 else 0) i)] at this
    rw [show (if a = b then (1 : ℝ) else 0) = if a.1 = b.1 then 1 else 0 by simp [Fin.ext_iff], ← this]
    rfl
  have hMM' : M * M.transpose = 1 := mul_eq_one_comm.1 hMM
  intro i hi j hj
  refine ⟨h1 i hi j hj, ?_⟩
  have := congrFun (congrFun hMM' ⟨i, hi⟩) ⟨j, hj⟩
  rw [Matrix.mul_apply, Matrix.one_apply] at this
  rw [← Fin.sum_univ_eq_sum_range (fun l => applyQ m s r (fun p => if p = l then 1 else 0) i *
      applyQ m s r (fun p => if p = l then 1 else 0) j)]
  rw [show (if i = j then (1 : ℝ) else 0) = if (⟨i, hi⟩ : Fin m) = ⟨j, hj⟩ then 1 else 0 by simp, ← this]
  rfl

/-! ### the largest element -/

theorem maxIdx_range (c : Nat → ℝ) (r t : Nat) : r ≤ maxIdx c r t ∧ maxIdx c r t ≤ r + t := by
  induction t with
  | zero => simp [maxIdx]
  | succ t ih =>
    rw [maxIdx]
    split <;> omega

theorem maxIdx_max (c : Nat → ℝ) (r t : Nat) {j : Nat} (h1 : r ≤ j) (h2 : j ≤ r + t) :
    c j ≤ c (maxIdx c r t) := by
  induction t with
  | zero =>
    rw [show j = r by omega]
    exact le_refl _
  | succ t ih =>
    rw [maxIdx]
    by_cases h : j = r + 1 + t
    · subst h
      split
      · exact le_refl _
      · exact not_lt.1 ‹_›
    · have := ih (by omega)
      split
      · exact this.trans (le_of_lt ‹_›)
      · exact this

/-! ### one step -/

/-- The matrix that is represented by the first `r` columns of the work array below
the stored vectors. -/
def cur (s : St) (i j : Nat) : ℝ := if j < s.r ∧ j < i then 0 else s.A i j

/-- The loop invariant. -/
structure Inv (m n : Nat) (A0 : Nat → Nat → ℝ) (s : St) : Prop where
  r_le : s.r ≤ min m n
  lt : ∀ j < n, s.ipiv j < n
  inj : ∀ i < n, ∀ j < n, s.ipiv i = s.ipiv j → i = j
  refl : ∀ l < s.r, Refl m (s.tau l) (vec s.A l)
  factor : ∀ j < n, ∀ i < m, A0 i (s.ipiv j) = applyQ m s s.r (fun p => cur s p j) i
  norm : ∀ j < n, s.r ≤ j → s.cnorm j = colNorm s.A s.r m j
  pnorm : ∀ j < n, s.r ≤ j → s.pcnorm j = 0 → s.cnorm j = 0

theorem init_inv (m n : Nat) (A0 : Nat → Nat → ℝ) : Inv m n A0 (init m A0) where
  r_le := Nat.zero_le _
  lt := fun _ h => h
  inj := fun _ _ _ _ h => h
  refl := fun l h => absurd h (Nat.not_lt_zero l)
  factor := fun j _ i _ => by simp [init, applyQ, cur]
  norm := fun _ _ _ => rfl
  pnorm := fun _ _ _ h => h

/-- Transposition of two column numbers. -/
def tsp (r k j : Nat) : Nat := if j = r then k else if j = k then r else j

theorem swapAt_eq {α : Type} (x : Nat → α) (r k j : Nat) : swapAt x r k j = x (tsp r k j) := by
  unfold swapAt tsp
  split
  · rfl
  · split <;> rfl

theorem tsp_lt {r k n j : Nat} (hr : r < n) (hk : k < n) (hj : j < n) : tsp r k j < n := by
  unfold tsp; split
  · exact hk
  · split <;> assumption

theorem tsp_ge {r k j : Nat} (hk : r ≤ k) (hj : r ≤ j) : r ≤ tsp r k j := by
  unfold tsp; split
  · exact hk
  · split
    · exact Nat.le_refl r
    · exact hj

theorem tsp_low {r k j : Nat} (hk : r ≤ k) (hj : j < r) : tsp r k j = j := by
  unfold tsp
  rw [if_neg (by omega), if_neg (by omega)]

theorem tsp_inj {r k i j : Nat} (h : tsp r k i = tsp r k j) : i = j := by
  unfold tsp at h
  split at h <;> split at h <;> (try split at h) <;> (try split at h) <;> omega

theorem pivot_inv {m n : Nat} {A0 : Nat → Nat → ℝ} {s : St} (h : Inv m n A0 s) (hr : s.r < min m n) :
    Inv m n A0 (pivot n s) := by
  have hk := maxIdx_range s.cnorm s.r (n - s.r - 1)
  unfold pivot
  generalize maxIdx s.cnorm s.r (n - s.r - 1) = k at *
  have hkn : k < n := by omega
  have hrn : s.r < n := by omega
  have hcur : ∀ p j, cur { s with
      A := fun i => swapAt (s.A i) s.r k
      cnorm := swapAt s.cnorm s.r k
      pcnorm := swapAt s.pcnorm s.r k
      ipiv := swapAt s.ipiv s.r k } p j = cur s p (tsp s.r k j) := by
    intro p j
    unfold cur
    simp only [swapAt_eq]
    by_cases hj : j < s.r
    · rw [tsp_low hk.1 hj]
    · rw [if_neg (by omega), if_neg (by have := tsp_ge hk.1 (Nat.le_of_not_lt hj); omega)]
  refine ⟨h.r_le, fun j hj => ?_, fun i hi j hj e => ?_, fun l hl => ?_, fun j hj i hi => ?_,
    fun j hj hrj => ?_, fun j hj hrj hp => ?_⟩
  · simp only [swapAt_eq]
    exact h.lt _ (tsp_lt hrn hkn hj)
  · simp only [swapAt_eq] at e
    exact tsp_inj (h.inj _ (tsp_lt hrn hkn hi) _ (tsp_lt hrn hkn hj) e)
  · have : vec (fun i => swapAt (s.A i) s.r k) l = vec s.A l := by
      funext i
      simp only [vec, swapAt_eq]
      rw [tsp_low hk.1 hl]
    simp only [this]
    exact h.refl l hl
  · simp only [swapAt_eq]
    rw [h.factor _ (tsp_lt hrn hkn hj) i hi]
    refine applyQ_congr (fun _ _ => by rfl) (fun l hl p _ => ?_) (fun p _ => ?_) hi
    · simp only [swapAt_eq]
      rw [tsp_low hk.1 hl]
    · exact (hcur p j).symm
  · simp only [swapAt_eq]
    rw [h.norm _ (tsp_lt hrn hkn hj) (tsp_ge hk.1 hrj)]
    unfold colNorm
    simp only [swapAt_eq]
  · simp only [swapAt_eq] at *
    exact h.pnorm _ (tsp_lt hrn hkn hj) (tsp_ge hk.1 hrj) hp

theorem sum_low {m r : Nat} (hr : r ≤ m) {f : Nat → ℝ} (h : ∀ l < r, f l = 0) :
    ∑ l ∈ range m, f l = ∑ l ∈ range (m - r), f (r + l) := by
  rw [show m = r + (m - r) by omega, Finset.sum_range_add, Finset.sum_eq_zero (fun l hl => h l (mem_range.1 hl)),
    zero_add, show r + (m - r) - r = m - r by omega]

/-- The reflector that is generated in a step. -/
structure House (m n : Nat) (s t : St) : Prop where
  r : t.r = s.r
  ipiv : t.ipiv = s.ipiv
  cnorm : t.cnorm = s.cnorm
  pcnorm : t.pcnorm = s.pcnorm
  tau : ∀ l < s.r, t.tau l = s.tau l
  low : ∀ l < s.r, ∀ i, t.A i l = s.A i l
  refl : Refl m (t.tau s.r) (vec t.A s.r)
  col : ∀ i < m, (if s.r < i then 0 else t.A i s.r) = hh m (t.tau s.r) (vec t.A s.r) (fun p => s.A p s.r) i
  right : ∀ i < m, ∀ j < n, s.r < j → t.A i j = hh m (t.tau s.r) (vec t.A s.r) (fun p => s.A p j) i

theorem house_spec {E : Geqp3Env} (hE : E.Sound) {m n : Nat} {s : St} (hr : s.r < min m n) :
    House m n s (apply m n (house E m s)) := by
  obtain ⟨len, hlen⟩ : ∃ len, m - s.r = len + 1 := ⟨m - s.r - 1, by omega⟩
  set g := E.larfg (m - s.r) (fun i => s.A (s.r + i) s.r) with hg
  have ho := hE.orth len (fun i => s.A (s.r + i) s.r)
  have hh' := hE.head len (fun i => s.A (s.r + i) s.r)
  have ht := hE.tail len (fun i => s.A (s.r + i) s.r)
  rw [← hlen, ← hg] at ho hh' ht
  have h1 : m - s.r = 1 → g.2.2 = 0 := fun h => by rw [hg, h]; exact hE.one _
  -- the array after the second phase
  set A2 : Nat → Nat → ℝ := fun i j => if j = s.r ∧ s.r ≤ i then (if i = s.r then g.1 else g.2.1 (i - s.r))
    else s.A i j with hA2
  have a2 : (house E m s).A = A2 := rfl
  have t2 : (house E m s).tau s.r = g.2.2 := if_pos rfl
  have hA2j : ∀ i j, j ≠ s.r → A2 i j = s.A i j := fun i j hj => by
    simp only [hA2]; rw [if_neg (fun h => hj h.1)]
  -- its reflector
  have hv0 : ∀ i < s.r, vec A2 s.r i = 0 := fun i hi => if_pos hi
  have hv1 : vec A2 s.r (s.r + 0) = 1 := by simp [vec]
  have hvl : ∀ i, vec A2 s.r (s.r + (i + 1)) = g.2.1 (i + 1) := by
    intro i
    simp only [vec, hA2]
    rw [if_neg (by omega), if_neg (by omega), if_pos (by simp), if_neg (by omega)]
    exact congrArg _ (by omega)
  have hvv : ∀ i, s.r ≤ i → (if i = s.r then 1 else A2 i s.r) = vec A2 s.r i := by
    intro i hi
    exact (if_neg (show ¬ i < s.r by omega)).symm
  have hdot : ∀ x : Nat → ℝ, ∑ l ∈ range m, vec A2 s.r l * x l =
      x s.r + ∑ i ∈ range len, g.2.1 (i + 1) * x (s.r + (i + 1)) := by
    intro x
    rw [sum_low (r := s.r) (by omega) (fun l hl => by rw [hv0 l hl, zero_mul]), hlen,
      Finset.sum_range_succ', hv1, one_mul, add_comm]
    congr 1
    exact Finset.sum_congr rfl (fun i _ => by rw [hvl])
  have hrefl : Refl m g.2.2 (vec A2 s.r) := by
    unfold Refl
    rw [hdot (vec A2 s.r), show vec A2 s.r s.r = 1 from hv1,
      Finset.sum_congr rfl (fun i _ => by rw [hvl])]
    exact ho
  -- the third phase
  have ar : (apply m n (house E m s)).r = s.r := by unfold apply; split <;> rfl
  have at' : (apply m n (house E m s)).tau = (house E m s).tau := by unfold apply; split <;> rfl
  have alow : ∀ i j, j ≤ s.r → (apply m n (house E m s)).A i j = A2 i j := by
    intro i j hj
    unfold apply
    split
    · exact if_neg (fun h => absurd h.2 (by show ¬ s.r < j; omega))
    · rfl
  have hvec : vec (apply m n (house E m s)).A s.r = vec A2 s.r := by
    funext i
    simp only [vec]
    rw [alow i s.r (Nat.le_refl _)]
  refine ⟨ar, by unfold apply; split <;> rfl, by unfold apply; split <;> rfl, by unfold apply; split <;> rfl,
    fun l hl => ?_, fun l hl i => ?_, ?_, fun i hi => ?_, fun i hi j hj hrj => ?_⟩
  · rw [at']
    exact if_neg (by omega)
  · rw [alow i l (by omega), hA2j i l (by omega)]
  · rw [at', t2, hvec]; exact hrefl
  · rw [at', t2, hvec, alow i s.r (Nat.le_refl _)]
    unfold hh
    rw [hdot]
    rcases Nat.lt_trichotomy i s.r with h | h | h
    · rw [if_neg (by omega), hv0 i h]
      simp only [hA2]
      rw [if_neg (by omega)]
      ring
    · subst h
      rw [if_neg (by omega), show vec A2 s.r s.r = 1 from hv1]
      simp only [hA2]
      rw [if_pos (by simp), if_pos trivial]
      simp only [Nat.add_zero] at hh'
      linarith [hh']
    · rw [if_pos h]
      obtain ⟨q, rfl⟩ : ∃ q, i = s.r + (q + 1) := ⟨i - s.r - 1, by omega⟩
      rw [hvl]
      have := ht q (by omega)
      simp only [Nat.add_zero] at this
      exact this.symm
  · rw [at', t2, hvec]
    unfold hh
    unfold apply
    split
    · rename_i hc
      have hdec : ∑ i ∈ Ico s.r m, A2 i j * (if i = s.r then 1 else A2 i s.r) =
          ∑ l ∈ range m, vec A2 s.r l * s.A l j := by
        rw [sum_low (r := s.r) (by omega) (fun l hl => by rw [hv0 l hl, zero_mul]),
          Finset.sum_Ico_eq_sum_range]
        refine Finset.sum_congr rfl (fun l _ => ?_)
        rw [hA2j _ j (by omega), mul_comm, hvv _ (by omega)]
      show (if s.r ≤ i ∧ s.r < j then A2 i j - (house E m s).tau s.r * (if i = s.r then 1 else A2 i s.r) *
        ∑ i ∈ Ico s.r m, A2 i j * (if i = s.r then 1 else A2 i s.r) else A2 i j) = _
      rw [hdec, t2]
      by_cases hri : s.r ≤ i
      · rw [if_pos ⟨hri, hrj⟩, hA2j i j (by omega), hvv i hri]
      · rw [if_neg (fun h => hri h.1), hA2j i j (by omega), hv0 i (by omega)]
        ring
    · rename_i hc
      have hc : ¬ s.r < min m n - 1 := hc
      show A2 i j = _
      rw [hA2j i j (by omega), h1 (by omega)]
      ring

/-- Columns of the matrix after the reflection. -/
theorem cur_step {m n : Nat} {s t : St} (h : House m n s t) (t' : St) (hA : t'.A = t.A) (hr : t'.r = s.r + 1)
    {p j : Nat} (hp : p < m) (hj : j < n) :
    cur t' p j = hh m (t.tau s.r) (vec t.A s.r) (fun q => cur s q j) p := by
  unfold cur
  rw [hr, hA]
  rcases Nat.lt_trichotomy j s.r with hlt | rfl | hgt
  · -- a finished column: the reflector does nothing
    have hz : ∑ l ∈ range m, vec t.A s.r l * (if j < s.r ∧ j < l then 0 else s.A l j) = 0 := by
      refine Finset.sum_eq_zero (fun l _ => ?_)
      by_cases hl : l < s.r
      · rw [show vec t.A s.r l = 0 from if_pos hl, zero_mul]
      · rw [if_pos ⟨hlt, by omega⟩, mul_zero]
    unfold hh
    beta_reduce
    rw [hz, h.low j hlt p]
    by_cases hjp : j < p
    · rw [if_pos ⟨by omega, hjp⟩, if_pos ⟨hlt, hjp⟩]; ring
    · rw [if_neg (fun h => hjp h.2), if_neg (fun h => hjp h.2)]; ring
  · have e := h.col p hp
    rw [show (fun q => if s.r < s.r ∧ s.r < q then 0 else s.A q s.r) = fun q => s.A q s.r from
      funext fun q => if_neg (by omega), ← e]
    by_cases hp' : s.r < p
    · rw [if_pos ⟨by omega, hp'⟩, if_pos hp']
    · rw [if_neg (fun h => hp' h.2), if_neg hp']
  · rw [show (fun q => if j < s.r ∧ j < q then 0 else s.A q j) = fun q => s.A q j from
      funext fun q => if_neg (by omega), if_neg (by omega)]
    exact h.right p hp j hj hgt

theorem colNorm_nonneg (A : Nat → Nat → ℝ) (lo m j : Nat) : 0 ≤ colNorm A lo m j := Real.sqrt_nonneg _

theorem colNorm_sq (A : Nat → Nat → ℝ) (lo m j : Nat) :
    colNorm A lo m j * colNorm A lo m j = ∑ i ∈ Ico lo m, A i j * A i j :=
  Real.mul_self_sqrt (Finset.sum_nonneg fun _ _ => mul_self_nonneg _)

/-- The reflection keeps the norm of what is left of a column. -/
theorem house_norm {m n : Nat} {s t : St} (h : House m n s t) (hr : s.r < m) {j : Nat} (hj : j < n) (hrj : s.r < j) :
    colNorm t.A s.r m j = colNorm s.A s.r m j := by
  unfold colNorm
  congr 1
  have hd := dot_hh h.refl (fun p => s.A p j) (fun p => s.A p j)
  have e : ∑ i ∈ range m, t.A i j * t.A i j = ∑ i ∈ range m, s.A i j * s.A i j := by
    rw [← hd]
    exact Finset.sum_congr rfl (fun i hi => by rw [h.right i (mem_range.1 hi) j hj hrj])
  have elow : ∑ i ∈ range s.r, t.A i j * t.A i j = ∑ i ∈ range s.r, s.A i j * s.A i j := by
    refine Finset.sum_congr rfl (fun i hi => ?_)
    have hi := mem_range.1 hi
    rw [h.right i (by omega) j hj hrj]
    unfold hh
    rw [show vec t.A s.r i = 0 from if_pos hi]
    ring
  rw [← Finset.sum_range_add_sum_Ico _ hr.le, ← Finset.sum_range_add_sum_Ico _ hr.le, elow] at e
  exact add_left_cancel e

/-- The norms after the update are those of the remaining rows. -/
theorem downdate_spec {E : Geqp3Env} {m : Nat} {t : St} (hr : t.r < m) {j : Nat}
    (hn : t.cnorm j = colNorm t.A t.r m j) (hp : t.pcnorm j = 0 → t.cnorm j = 0) :
    (downdate E m t j).1 = colNorm t.A (t.r + 1) m j ∧ ((downdate E m t j).2 = 0 → (downdate E m t j).1 = 0) := by
  have hsq : t.cnorm j * t.cnorm j = t.A t.r j * t.A t.r j + ∑ i ∈ Ico (t.r + 1) m, t.A i j * t.A i j := by
    rw [hn, colNorm_sq, Finset.sum_eq_sum_Ico_succ_bot hr]
  have hrest : 0 ≤ ∑ i ∈ Ico (t.r + 1) m, t.A i j * t.A i j :=
    Finset.sum_nonneg fun _ _ => mul_self_nonneg _
  have hc0 : 0 ≤ t.cnorm j := by rw [hn]; exact colNorm_nonneg _ _ _ _
  unfold downdate
  by_cases h0 : t.cnorm j ≠ 0
  · rw [if_pos h0]
    have ht : (1 - |t.A t.r j / t.cnorm j|) * (1 + |t.A t.r j / t.cnorm j|) =
        (∑ i ∈ Ico (t.r + 1) m, t.A i j * t.A i j) / (t.cnorm j * t.cnorm j) := by
      rw [show (1 - |t.A t.r j / t.cnorm j|) * (1 + |t.A t.r j / t.cnorm j|) =
        1 - |t.A t.r j / t.cnorm j| * |t.A t.r j / t.cnorm j| by ring, abs_mul_abs_self]
      rw [eq_div_iff (mul_ne_zero h0 h0)]
      have : t.A t.r j / t.cnorm j * (t.A t.r j / t.cnorm j) * (t.cnorm j * t.cnorm j) =
          t.A t.r j * t.A t.r j := by
        field_simp
      linear_combination hsq - this
    simp only [ht]
    rw [max_eq_right (div_nonneg hrest (mul_self_nonneg _))]
    split
    · refine ⟨?_, fun h => absurd (hp h) h0⟩
      unfold colNorm
      rw [Real.sqrt_div hrest, Real.sqrt_mul_self hc0, mul_div_cancel₀ _ h0]
    · split
      · exact ⟨rfl, fun h => h⟩
      · refine ⟨?_, fun h => h⟩
        rw [show t.r + 1 = m by omega]
        simp [colNorm]
  · rw [if_neg h0]
    push Not at h0
    rw [h0] at hsq ⊢
    refine ⟨?_, fun _ => rfl⟩
    unfold colNorm
    rw [show ∑ i ∈ Ico (t.r + 1) m, t.A i j * t.A i j = 0 by
      nlinarith [mul_self_nonneg (t.A t.r j)], Real.sqrt_zero]

theorem step_inv {E : Geqp3Env} (hE : E.Sound) {m n : Nat} {A0 : Nat → Nat → ℝ} {s : St} (h : Inv m n A0 s)
    (hr : s.r < min m n) : Inv m n A0 (step E m n s) ∧ (step E m n s).r = s.r + 1 := by
  unfold step
  have h1 := pivot_inv h hr
  have hr1 : (pivot n s).r = s.r := rfl
  generalize pivot n s = s1 at *
  rw [← hr1] at hr ⊢
  have H := house_spec hE hr
  generalize apply m n (house E m s1) = t at *
  have hcur := fun {p j : Nat} => cur_step H (norms E m t) rfl (by show t.r + 1 = _; rw [H.r]) (p := p) (j := j)
  refine ⟨⟨?_, fun j hj => ?_, fun i hi j hj e => ?_, fun l hl => ?_, fun j hj i hi => ?_,
    fun j hj hrj => ?_, fun j hj hrj hp => ?_⟩, ?_⟩
  · show t.r + 1 ≤ _
    rw [H.r]; omega
  · show t.ipiv j < n
    rw [H.ipiv]; exact h1.lt j hj
  · have e : t.ipiv i = t.ipiv j := e
    rw [H.ipiv] at e
    exact h1.inj i hi j hj e
  · have hl : l < t.r + 1 := hl
    rw [H.r] at hl
    show Refl m (t.tau l) (vec t.A l)
    by_cases hls : l = s1.r
    · rw [hls]; exact H.refl
    · rw [H.tau l (by omega), show vec t.A l = vec s1.A l from funext fun i => by
        simp only [vec]; rw [H.low l (by omega) i]]
      exact h1.refl l (by omega)
  · show A0 i (t.ipiv j) = applyQ m (norms E m t) (t.r + 1) _ i
    rw [H.ipiv, h1.factor j hj i hi, H.r, applyQ]
    refine applyQ_congr (s' := norms E m t) (fun l hl => (H.tau l hl).symm) (fun l hl p _ => (H.low l hl p).symm)
      (fun p hp => ?_) hi
    rw [hh_congr (fun q hq => hcur hq hj) hp]
    exact (hh_hh H.refl (fun q => cur s1 q j) p).symm
  · have hrj : t.r + 1 ≤ j := hrj
    show (if t.r < j then (downdate E m t j).1 else t.cnorm j) = _
    rw [if_pos (by omega)]
    refine (downdate_spec (by rw [H.r]; omega) ?_ ?_).1
    · rw [H.cnorm, h1.norm j hj (by rw [H.r] at hrj; omega), H.r,
        house_norm H (by omega) hj (by rw [H.r] at hrj; omega)]
    · rw [H.cnorm, H.pcnorm]
      exact h1.pnorm j hj (by rw [H.r] at hrj; omega)
  · have hrj : t.r + 1 ≤ j := hrj
    have hp : (if t.r < j then (downdate E m t j).2 else t.pcnorm j) = 0 := hp
    show (if t.r < j then (downdate E m t j).1 else t.cnorm j) = 0
    rw [if_pos (by omega)] at hp ⊢
    refine (downdate_spec (by rw [H.r]; omega) ?_ ?_).2 hp
    · rw [H.cnorm, h1.norm j hj (by rw [H.r] at hrj; omega), H.r,
        house_norm H (by omega) hj (by rw [H.r] at hrj; omega)]
    · rw [H.cnorm, H.pcnorm]
      exact h1.pnorm j hj (by rw [H.r] at hrj; omega)
  · show t.r + 1 = _
    rw [H.r]

/-! ### the loop -/

theorem run_spec {E : Geqp3Env} (hE : E.Sound) {m n : Nat} {A0 : Nat → Nat → ℝ} {thr : ℝ} (t : Nat) {s s' : St}
    {mc : ℝ} (h : Inv m n A0 s) (ht : t = min m n - s.r) (hmc : ∀ j < n, s.r ≤ j → s.cnorm j ≤ mc)
    (hrun : run E m n thr t s mc = .ok s') :
    Inv m n A0 s' ∧ (s'.r = min m n ∨ ∀ j < n, s'.r ≤ j → s'.cnorm j ≤ thr) := by
  induction t generalizing s mc with
  | zero =>
    cases Except.ok.inj hrun
    exact ⟨h, Or.inl (by have := h.r_le; omega)⟩
  | succ t ih =>
    rw [run] at hrun
    split at hrun
    · simp only [except_bind_eq_ok] at hrun
      obtain ⟨mc', hm, hrun⟩ := hrun
      have hs := step_inv hE h (by omega)
      refine ih hs.1 (by rw [hs.2]; omega) (fun j hj hrj => ?_) hrun
      unfold maxAt at hm
      rw [if_pos (by omega)] at hm
      rw [← Except.ok.inj hm]
      exact maxIdx_max _ _ _ hrj (by omega)
    · cases Except.ok.inj hrun
      exact ⟨h, Or.inr fun j hj hrj => (hmc j hj hrj).trans (not_lt.1 ‹_›)⟩

/-- Only a loop that stops before all columns are used does not read past the end. -/
theorem run_past {E : Geqp3Env} {m n : Nat} {thr : ℝ} (t : Nat) {s s' : St} {mc : ℝ} (hs : s.r < n)
    (hrun : run E m n thr t s mc = .ok s') (hn : s'.r = n) : ∃ x, E.past = .ok x := by
  induction t generalizing s mc with
  | zero =>
    cases Except.ok.inj hrun
    omega
  | succ t ih =>
    rw [run] at hrun
    split at hrun
    · simp only [except_bind_eq_ok] at hrun
      obtain ⟨mc', hm, hrun⟩ := hrun
      by_cases hl : (step E m n s).r < n
      · exact ih hl hrun
      · unfold maxAt at hm
        rw [if_neg hl] at hm
        exact ⟨_, hm⟩
    · cases Except.ok.inj hrun
      omega

/-- The loop returns if reading past the end does. -/
theorem run_returns {E : Geqp3Env} {m n : Nat} {thr : ℝ} {x : ℝ} (hp : E.past = .ok x) (t : Nat) (s : St) (mc : ℝ) :
    ∃ s', run E m n thr t s mc = .ok s' := by
  induction t generalizing s mc with
  | zero => exact ⟨s, rfl⟩
  | succ t ih =>
    rw [run]
    split
    · have : ∃ mc', maxAt E n (step E m n s).cnorm (step E m n s).r = .ok mc' := by
        unfold maxAt
        split
        · exact ⟨_, rfl⟩
        · exact ⟨x, hp⟩
      obtain ⟨mc', hm⟩ := this
      obtain ⟨s', hs'⟩ := ih (step E m n s) mc'
      refine ⟨s', ?_⟩
      simp only [hm, except_bind_ok]
      exact hs'
    · exact ⟨s, rfl⟩

theorem ipivT_eq {ipiv : Nat → Nat} {n : Nat} (inj : ∀ i < n, ∀ j < n, ipiv i = ipiv j → i = j) {j : Nat}
    (hj : j < n) : ipivT ipiv n (ipiv j) = j := by
  have : ∀ t ≤ n, j < t → ipivT ipiv t (ipiv j) = j := by
    intro t
    induction t with
    | zero => omega
    | succ t ih =>
      intro ht hjt
      rw [ipivT]
      by_cases h : j = t
      · subst h; rw [if_pos rfl]
      · rw [if_neg (fun e => h (inj j hj t (by omega) e))]
        exact ih (by omega) (by omega)
  exact this n (Nat.le_refl n) hj

end Verif.Geqp3
