import Verif.Model.Mgs
import Verif.Spec.Lapack
import Verif.Lemmas.Basic
import Mathlib.Tactic.FieldSimp
import Mathlib.Algebra.BigOperators.Field
import Mathlib.Tactic.Linarith
import Mathlib.Tactic.Positivity
import Mathlib.Algebra.Order.BigOperators.Ring.Finset

/-!
Gram-Schmidt QR of a dense matrix.
-/

set_option linter.unusedVariables false

namespace Verif
open Finset

namespace Dense

/-- Contents after step `j`, in closed form. -/
theorem mgsStep_form {m n j : Nat} {st st' : (Nat → Nat → ℝ) × (Nat → Nat → ℝ)} (h : mgsStep m n j st = .ok st') :
    ∃ ν : ℝ, 0 < ν ∧ ν * ν = ∑ i ∈ range m, st.1 i j * st.1 i j ∧
      (∀ a b, st'.1 a b = if b = j then st.1 a j / ν else if j < b ∧ b < n then
        st.1 a b - (∑ i ∈ range m, st.1 i j / ν * st.1 i b) * (st.1 a j / ν) else st.1 a b) ∧
      ∀ a b, st'.2 a b = if a = j ∧ b = j then ν else if a = j ∧ j < b ∧ b < n then
        ∑ i ∈ range m, st.1 i j / ν * st.1 i b else st.2 a b := by
  simp only [mgsStep] at h
  generalize hν : Real.sqrt (∑ i ∈ range m, st.1 i j ^ 2) = ν at h
  by_cases h0 : ν = 0
  · rw [if_pos h0] at h
    cases h
  rw [if_neg h0] at h
  have hpos : 0 < ν := lt_of_le_of_ne (by rw [← hν]; exact Real.sqrt_nonneg _) (Ne.symm h0)
  refine ⟨ν, hpos, ?_, ?_⟩
  · rw [← hν, Real.mul_self_sqrt (Finset.sum_nonneg (fun i _ => sq_nonneg _))]
    exact Finset.sum_congr rfl (fun i _ => by ring)
  have key := loop_inv (fun u (s : (Nat → Nat → ℝ) × (Nat → Nat → ℝ)) =>
      (∀ a b, s.1 a b = if b = j then st.1 a j / ν else if j < b ∧ b < j + 1 + u then
        st.1 a b - (∑ i ∈ range m, st.1 i j / ν * st.1 i b) * (st.1 a j / ν) else st.1 a b) ∧
      ∀ a b, s.2 a b = if a = j ∧ b = j then ν else if a = j ∧ j < b ∧ b < j + 1 + u then
        ∑ i ∈ range m, st.1 i j / ν * st.1 i b else st.2 a b) (by
    refine ⟨fun a b => ?_, fun a b => ?_⟩
    · simp only
      by_cases hb : b = j
      · rw [if_pos hb, if_pos hb, hb]
        ring
      · rw [if_neg hb, if_neg hb, if_neg (by omega)]
    · simp only
      by_cases hb : a = j ∧ b = j
      · rw [if_pos hb, if_pos hb]
      · rw [if_neg hb, if_neg hb, if_neg (by omega)]) (by
    intro u hu s s' ⟨i1, i2⟩ hs
    rw [← Except.ok.inj hs]
    have ej : ∀ a, s.1 a j = st.1 a j / ν := fun a => by rw [i1, if_pos rfl]
    have eb : ∀ a, s.1 a (j + 1 + u) = st.1 a (j + 1 + u) := fun a => by
      rw [i1, if_neg (by omega), if_neg (by omega)]
    refine ⟨fun a b => ?_, fun a b => ?_⟩
    · simp only [ej, eb]
      by_cases hb : b = j + 1 + u
      · subst hb
        rw [if_pos rfl, if_neg (by omega), if_pos (by omega), eb]
      · rw [if_neg hb, i1]
        by_cases h1 : b = j
        · rw [if_pos h1, if_pos h1]
        · rw [if_neg h1, if_neg h1]
          by_cases h2 : j < b ∧ b < j + 1 + u
          · rw [if_pos h2, if_pos (by omega)]
          · rw [if_neg h2, if_neg (by omega)]
    · simp only [ej, eb]
      by_cases hb : a = j ∧ b = j + 1 + u
      · obtain ⟨rfl, rfl⟩ := hb
        rw [if_pos (by simp), if_neg (by omega), if_pos (by omega)]
      · rw [if_neg hb, i2]
        by_cases h1 : a = j ∧ b = j
        · rw [if_pos h1, if_pos h1]
        · rw [if_neg h1, if_neg h1]
          by_cases h2 : a = j ∧ j < b ∧ b < j + 1 + u
          · rw [if_pos h2, if_pos (by omega)]
          · rw [if_neg h2, if_neg (by omega)]) h
  obtain ⟨k1, k2⟩ := key
  refine ⟨fun a b => ?_, fun a b => ?_⟩
  · rw [k1]
    have : (j < b ∧ b < j + 1 + (n - (j + 1))) ↔ (j < b ∧ b < n) := by omega
    simp only [this]
  · rw [k2]
    have : (a = j ∧ j < b ∧ b < j + 1 + (n - (j + 1))) ↔ (a = j ∧ j < b ∧ b < n) := by omega
    simp only [this]

/-- Invariant of the loop. -/
structure MgsInv (m n : Nat) (A R0 : Nat → Nat → ℝ) (j : Nat) (st : (Nat → Nat → ℝ) × (Nat → Nat → ℝ)) : Prop where
  orth : ∀ a < j, ∀ b < j, ∑ i ∈ range m, st.1 i a * st.1 i b = if a = b then 1 else 0
  cross : ∀ a < j, ∀ b < n, j ≤ b → ∑ i ∈ range m, st.1 i a * st.1 i b = 0
  done : ∀ i < m, ∀ b < j, A i b = ∑ l ∈ range (b + 1), st.1 i l * st.2 l b
  todo : ∀ i < m, ∀ b < n, j ≤ b → A i b = ∑ l ∈ range j, st.1 i l * st.2 l b + st.1 i b
  low : ∀ a b, b < a → st.2 a b = R0 a b
  pos : ∀ a < j, 0 < st.2 a a

theorem mgsStep_inv {m n j : Nat} {A R0 : Nat → Nat → ℝ} (hj : j < n) {st st' : (Nat → Nat → ℝ) × (Nat → Nat → ℝ)}
    (inv : MgsInv m n A R0 j st) (h : mgsStep m n j st = .ok st') : MgsInv m n A R0 (j + 1) st' := by
  obtain ⟨ν, hν, hνν, f1, f2⟩ := mgsStep_form h
  have hν0 : ν ≠ 0 := ne_of_gt hν
  have cl : ∀ a, a < j → ∀ i, st'.1 i a = st.1 i a := fun a ha i => by
    rw [f1, if_neg (by omega), if_neg (by omega)]
  have cj : ∀ i, st'.1 i j = st.1 i j / ν := fun i => by rw [f1, if_pos rfl]
  have cr : ∀ b, j < b → b < n → ∀ i, st'.1 i b =
      st.1 i b - (∑ i ∈ range m, st.1 i j / ν * st.1 i b) * (st.1 i j / ν) := fun b h1 h2 i => by
    rw [f1, if_neg (by omega), if_pos ⟨h1, h2⟩]
  have rjj : st'.2 j j = ν := by rw [f2, if_pos ⟨rfl, rfl⟩]
  have rjb : ∀ b, j < b → b < n → st'.2 j b = ∑ i ∈ range m, st.1 i j / ν * st.1 i b := fun b h1 h2 => by
    rw [f2, if_neg (by omega), if_pos ⟨rfl, h1, h2⟩]
  have rl : ∀ a b, a ≠ j ∨ b < j → st'.2 a b = st.2 a b := fun a b hab => by
    rw [f2, if_neg (by omega), if_neg (by omega)]
  have oj : ∑ i ∈ range m, st.1 i j / ν * (st.1 i j / ν) = 1 := by
    have : ∀ i, st.1 i j / ν * (st.1 i j / ν) = (st.1 i j * st.1 i j) * (1 / (ν * ν)) := fun i => by
      field_simp
    rw [Finset.sum_congr rfl (fun i _ => this i), ← Finset.sum_mul, ← hνν]
    field_simp
  have ol : ∀ a < j, ∑ i ∈ range m, st.1 i a * (st.1 i j / ν) = 0 := fun a ha => by
    have : ∀ i, st.1 i a * (st.1 i j / ν) = (st.1 i a * st.1 i j) * (1 / ν) := fun i => by ring
    rw [Finset.sum_congr rfl (fun i _ => this i), ← Finset.sum_mul, inv.cross a ha j hj (le_refl _), zero_mul]
  refine ⟨fun a ha b hb => ?_, fun a ha b hb hjb => ?_, fun i hi b hb => ?_, fun i hi b hb hjb => ?_,
    fun a b hab => ?_, fun a ha => ?_⟩
  · by_cases h1 : a = j
    · subst h1
      by_cases h2 : b = a
      · subst h2
        simp only [cj, if_true]
        exact oj
      · rw [if_neg (Ne.symm h2)]
        simp only [cj, cl b (by omega)]
        rw [Finset.sum_congr rfl (fun i _ => mul_comm _ _)]
        exact ol b (by omega)
    · by_cases h2 : b = j
      · subst h2
        rw [if_neg h1]
        simp only [cj, cl a (by omega)]
        exact ol a (by omega)
      · simp only [cl a (by omega), cl b (by omega)]
        exact inv.orth a (by omega) b (by omega)
  · have hjb' : j < b := by omega
    simp only [cr b hjb' hb]
    by_cases h1 : a = j
    · subst h1
      simp only [cj]
      have : ∀ i, st.1 i a / ν * (st.1 i b - (∑ i ∈ range m, st.1 i a / ν * st.1 i b) * (st.1 i a / ν)) =
          st.1 i a / ν * st.1 i b - (∑ i ∈ range m, st.1 i a / ν * st.1 i b) * (st.1 i a / ν * (st.1 i a / ν)) :=
        fun i => by ring
      rw [Finset.sum_congr rfl (fun i _ => this i), Finset.sum_sub_distrib, ← Finset.mul_sum, oj, mul_one, sub_self]
    · simp only [cl a (by omega)]
      have : ∀ i, st.1 i a * (st.1 i b - (∑ i ∈ range m, st.1 i j / ν * st.1 i b) * (st.1 i j / ν)) =
          st.1 i a * st.1 i b - (∑ i ∈ range m, st.1 i j / ν * st.1 i b) * (st.1 i a * (st.1 i j / ν)) :=
        fun i => by ring
      rw [Finset.sum_congr rfl (fun i _ => this i), Finset.sum_sub_distrib, ← Finset.mul_sum, ol a (by omega),
        mul_zero, sub_zero]
      exact inv.cross a (by omega) b hb (by omega)
  · by_cases hbj : b = j
    · subst hbj
      rw [inv.todo i hi b hj (le_refl _), Finset.sum_range_succ, cj, rjj, div_mul_cancel₀ _ hν0]
      congr 1
      refine Finset.sum_congr rfl (fun l hl => ?_)
      have hl := Finset.mem_range.1 hl
      rw [cl l hl, rl l b (by omega)]
    · rw [inv.done i hi b (by omega)]
      refine Finset.sum_congr rfl (fun l hl => ?_)
      have hl := Finset.mem_range.1 hl
      rw [cl l (by omega), rl l b (by omega)]
  · have hjb' : j < b := by omega
    rw [inv.todo i hi b hb (by omega), Finset.sum_range_succ, cj, rjb b hjb' hb, cr b hjb' hb]
    have : ∑ l ∈ range j, st'.1 i l * st'.2 l b = ∑ l ∈ range j, st.1 i l * st.2 l b := by
      refine Finset.sum_congr rfl (fun l hl => ?_)
      have hl := Finset.mem_range.1 hl
      rw [cl l (by omega), rl l b (by omega)]
    rw [this]
    ring
  · rw [rl a b (by omega)]
    exact inv.low a b hab
  · by_cases h1 : a = j
    · subst h1
      rw [rjj]
      exact hν
    · rw [rl a a (by omega)]
      exact inv.pos a (by omega)

theorem mgsQr_post {A Q Rm : Dense ℝ} {x : Dense ℝ × Dense ℝ} (h : mgsQr A Q Rm = .ok x) :
    (x.1.rows = A.rows ∧ x.1.cols = A.cols ∧ x.2.rows = A.cols ∧ x.2.cols = A.cols) ∧
      MgsInv A.rows A.cols A.val Rm.val A.cols (x.1.val, x.2.val) := by
  simp only [mgsQr, except_bind_eq_ok, assertM_eq_ok, decide_eq_true_eq] at h
  obtain ⟨_, e1, _, e2, _, e3, _, e4, y, hy, h⟩ := h
  rw [← Except.ok.inj h]
  refine ⟨⟨rfl, rfl, e3, e4⟩, ?_⟩
  refine loop_inv (fun j st => MgsInv A.rows A.cols A.val Rm.val j st) ?_
    (fun j hj a b ha hb => mgsStep_inv hj ha hb) hy
  exact ⟨fun a ha => absurd ha (by omega), fun a ha => absurd ha (by omega), fun i hi b hb => absurd hb (by omega),
    fun i hi b hb _ => by simp, fun _ _ _ => rfl, fun a ha => absurd ha (by omega)⟩

/-- Every column is a combination of the input columns up to it, in which the last one
occurs. -/
def Spans (m n : Nat) (A : Nat → Nat → ℝ) (V : Nat → Nat → ℝ) : Prop :=
  ∀ b < n, ∃ c : Nat → ℝ, c b ≠ 0 ∧ (∀ k, b < k → c k = 0) ∧ ∀ i < m, V i b = ∑ k ∈ range n, A i k * c k

theorem mgsStep_spans {m n j : Nat} {A : Nat → Nat → ℝ} (hj : j < n) {st st' : (Nat → Nat → ℝ) × (Nat → Nat → ℝ)}
    (inv : Spans m n A st.1) (h : mgsStep m n j st = .ok st') : Spans m n A st'.1 := by
  obtain ⟨ν, hν, hνν, f1, f2⟩ := mgsStep_form h
  have hν0 : ν ≠ 0 := ne_of_gt hν
  intro b hb
  by_cases h1 : b = j
  · subst h1
    obtain ⟨c, c1, c2, c3⟩ := inv b hb
    refine ⟨fun k => c k / ν, div_ne_zero c1 hν0, fun k hk => by simp [c2 k hk], fun i hi => ?_⟩
    rw [f1, if_pos rfl, c3 i hi, Finset.sum_div]
    exact Finset.sum_congr rfl (fun k _ => by ring)
  · by_cases h2 : j < b ∧ b < n
    · obtain ⟨c, c1, c2, c3⟩ := inv b hb
      obtain ⟨e, e1, e2, e3⟩ := inv j hj
      set d := ∑ i ∈ range m, st.1 i j / ν * st.1 i b
      refine ⟨fun k => c k - d * (e k / ν), ?_, fun k hk => ?_, fun i hi => ?_⟩
      · simp only [e2 b h2.1]
        simpa using c1
      · simp only [c2 k hk, e2 k (by omega)]
        simp
      · rw [f1, if_neg h1, if_pos h2, c3 i hi, e3 i hi, Finset.sum_div, Finset.mul_sum, ← Finset.sum_sub_distrib]
        exact Finset.sum_congr rfl (fun k _ => by ring)
    · obtain ⟨c, c1, c2, c3⟩ := inv b hb
      refine ⟨c, c1, c2, fun i hi => ?_⟩
      rw [f1, if_neg h1, if_neg h2, c3 i hi]

theorem mgsQr_total {A Q Rm : Dense ℝ} (hq : Q.rows = A.rows ∧ Q.cols = A.cols)
    (hr : Rm.rows = A.cols ∧ Rm.cols = A.cols)
    (hA : ∀ c : Nat → ℝ, (∀ i < A.rows, ∑ k ∈ range A.cols, A.val i k * c k = 0) → ∀ k < A.cols, c k = 0) :
    ∃ x, mgsQr A Q Rm = .ok x := by
  obtain ⟨x, hx, -⟩ := loop_total (n := A.cols) (body := fun j st => mgsStep A.rows A.cols j st) (s := (A.val, Rm.val))
    (fun _ st => Spans A.rows A.cols A.val st.1) (by
      intro b hb
      refine ⟨fun k => if k = b then 1 else 0, by simp, fun k hk => if_neg (by omega), fun i hi => ?_⟩
      rw [Finset.sum_eq_single b]
      · simp
      · intro k _ hk
        simp [hk]
      · intro h
        exact absurd (Finset.mem_range.2 hb) h) (by
      intro j hj st hst
      obtain ⟨st', h⟩ : ∃ st', mgsStep A.rows A.cols j st = .ok st' := by
        simp only [mgsStep]
        by_cases h0 : Real.sqrt (∑ i ∈ range A.rows, st.1 i j ^ 2) = 0
        · exfalso
          obtain ⟨c, c1, c2, c3⟩ := hst j hj
          refine c1 (hA c (fun i hi => ?_) j hj)
          rw [← c3 i hi]
          rw [Real.sqrt_eq_zero (Finset.sum_nonneg (fun i _ => sq_nonneg _)),
            Finset.sum_eq_zero_iff_of_nonneg (fun i _ => sq_nonneg _)] at h0
          exact pow_eq_zero_iff (two_ne_zero) |>.1 (h0 i (Finset.mem_range.2 hi))
        · rw [if_neg h0]
          exact (loop_total (fun _ _ => True) trivial (fun i hi s _ => ⟨_, rfl, trivial⟩)).imp (fun _ h => h.1)
      exact ⟨st', h, mgsStep_spans hj hst h⟩)
  refine ⟨(⟨A.rows, A.cols, x.1⟩, ⟨Rm.rows, Rm.cols, x.2⟩), ?_⟩
  simp only [mgsQr, hq.1, hq.2, hr.1, hr.2, decide_true, assertM, if_true, except_bind_ok, hx]

end Dense
end Verif
