import Verif.Model.Sample
import Mathlib.Tactic.Linarith
import Mathlib.Tactic.FieldSimp
import Mathlib.Tactic.Ring
import Mathlib.Tactic.NormNum
import Mathlib.Tactic.Positivity

/-
C50: equally spaced sample points.
-/

namespace Verif

theorem foldl_set_range (f : Nat → ℝ) (N n : Nat) (hn : n ≤ N) (l : List ℝ) (hl : l.length = N) :
    ((List.range n).foldl (fun res i => res.set i (f i)) l).length = N ∧
    ∀ i < n, ((List.range n).foldl (fun res i => res.set i (f i)) l)[i]? = some (f i) := by
  induction n with
  | zero => exact ⟨hl, by omega⟩
  | succ n ih =>
    obtain ⟨h1, h2⟩ := ih (by omega)
    rw [List.range_succ, List.foldl_append]
    simp only [List.foldl_cons, List.foldl_nil, List.length_set]
    refine ⟨h1, fun i hi => ?_⟩
    rw [List.getElem?_set]
    by_cases e : n = i
    · subst e
      rw [if_pos rfl, if_pos (by omega)]
    · rw [if_neg e]
      exact h2 i (by omega)

theorem equallySpaced_get (N : Nat) (a b : ℝ) :
    (equallySpacedVector N a b).length = N ∧
    ∀ i < N, (equallySpacedVector N a b)[i]? = some (a + (i : ℝ) / (b - a)) :=
  foldl_set_range (fun i => a + (i : ℝ) / (b - a)) N N le_rfl _ (by simp)

theorem equallySpaced_getElem (N : Nat) (a b : ℝ) (i : Nat) (h : i < (equallySpacedVector N a b).length) :
    (equallySpacedVector N a b)[i] = a + (i : ℝ) / (b - a) := by
  have e := equallySpaced_get N a b
  have := e.2 i (by rw [e.1] at h; exact h)
  rw [List.getElem?_eq_getElem h] at this
  exact Option.some.inj this

/-- C50, the part that holds: `N` numbers, the first is `min`, they increase and the
distance between neighbours is the same everywhere.

Partial: that they lie in the interval is true only for small `N`, see
`C50_inside_iff_partial` and `C50_leaves_interval`. -/
theorem C50_spacing_partial (N : Nat) {a b : ℝ} (hab : a < b) :
    (equallySpacedVector N a b).length = N ∧
    (∀ h : 0 < (equallySpacedVector N a b).length, (equallySpacedVector N a b)[0] = a) ∧
    (equallySpacedVector N a b).Pairwise (· < ·) ∧
    ∃ d > 0, ∀ i, ∀ h : i + 1 < (equallySpacedVector N a b).length,
      (equallySpacedVector N a b)[i + 1] - (equallySpacedVector N a b)[i] = d := by
  have hd : 0 < b - a := by linarith
  refine ⟨(equallySpaced_get N a b).1, fun h => ?_, ?_, 1 / (b - a), by positivity, fun i h => ?_⟩
  · rw [equallySpaced_getElem]
    simp
  · rw [List.pairwise_iff_getElem]
    intro i j hi hj hij
    rw [equallySpaced_getElem, equallySpaced_getElem]
    have : (i : ℝ) < j := by exact_mod_cast hij
    have := div_lt_div_of_pos_right this hd
    linarith
  · rw [equallySpaced_getElem, equallySpaced_getElem]
    push_cast
    field_simp
    ring

/-- C50, exactly when the points lie in the interval. -/
theorem C50_inside_iff_partial (N : Nat) {a b : ℝ} (hab : a < b) :
    (∀ x ∈ equallySpacedVector N a b, a ≤ x ∧ x ≤ b) ↔ (N : ℝ) ≤ 1 + (b - a) ^ 2 := by
  have hd : 0 < b - a := by linarith
  have mem : ∀ x, x ∈ equallySpacedVector N a b ↔ ∃ i < N, x = a + (i : ℝ) / (b - a) := by
    intro x
    rw [List.mem_iff_getElem]
    constructor
    · rintro ⟨i, hi, rfl⟩
      exact ⟨i, by rw [(equallySpaced_get N a b).1] at hi; exact hi, equallySpaced_getElem _ _ _ _ _⟩
    · rintro ⟨i, hi, rfl⟩
      exact ⟨i, by rw [(equallySpaced_get N a b).1]; exact hi, equallySpaced_getElem _ _ _ _ _⟩
  constructor
  · intro h
    cases N with
    | zero => have := sq_nonneg (b - a); push_cast; linarith
    | succ n =>
      have := (h _ ((mem _).2 ⟨n, by omega, rfl⟩)).2
      have h2 : (n : ℝ) / (b - a) ≤ b - a := by linarith
      rw [div_le_iff₀ hd] at h2
      push_cast
      nlinarith
  · intro h x hx
    obtain ⟨i, hi, rfl⟩ := (mem x).1 hx
    have h1 : (0 : ℝ) ≤ (i : ℝ) / (b - a) := by positivity
    have h2 : (i : ℝ) + 1 ≤ N := by exact_mod_cast hi
    have h3 : (i : ℝ) / (b - a) ≤ b - a := by
      rw [div_le_iff₀ hd]
      nlinarith
    constructor <;> linarith

/-- C50, negative.  The full claim is false: in every interval of length at most one,
already three points leave the interval; the last of `N` points of the unit interval is
`N - 1`. -/
theorem C50_leaves_interval {N : Nat} (hN : 3 ≤ N) {a b : ℝ} (hab : a < b) (h1 : b - a ≤ 1) :
    ¬ ∀ x ∈ equallySpacedVector N a b, a ≤ x ∧ x ≤ b := by
  rw [C50_inside_iff_partial N hab]
  have : (3 : ℝ) ≤ N := by exact_mod_cast hN
  have : 0 < b - a := by linarith
  nlinarith

/-- Non-trivial instance: five points in the interval from 1 to 3 stay inside, six do
not. -/
example : (∀ x ∈ equallySpacedVector 5 1 3, (1 : ℝ) ≤ x ∧ x ≤ 3) ∧
    ¬ ∀ x ∈ equallySpacedVector 6 1 3, (1 : ℝ) ≤ x ∧ x ≤ 3 := by
  rw [C50_inside_iff_partial 5 (by norm_num), C50_inside_iff_partial 6 (by norm_num)]
  norm_num

end Verif
