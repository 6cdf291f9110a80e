import Verif.Lemmas.FloatTri
import Verif.Props.FloatGemm

/-
Substitution and elimination with every operation rounded meet the assumptions of
`FlLapack.Sound`.
-/

set_option linter.unusedVariables false

namespace Verif
open Finset

variable {u : ℝ}

/-- `c - ∑ a l * b l` for `l < k`, one term after the other, every operation rounded. -/
def subFl (fl : ℝ → ℝ) (k : Nat) (a b : Nat → ℝ) (c : ℝ) : ℝ :=
  (List.range k).foldl (fun s l => fl (s - fl (a l * b l))) c

/-- Forward substitution with rounded operations: the first `t` unknowns. -/
noncomputable def substFl (fl : ℝ → ℝ) (T : Nat → Nat → ℝ) (c : Nat → ℝ) : Nat → Nat → ℝ
  | 0 => fun _ => 0
  | t + 1 => fun i => if i = t then fl (subFl fl t (T t) (substFl fl T c t) (c t) / T t t)
      else substFl fl T c t i

/-- Elimination with rounded operations: the entries of the packed factors in the first
`k` rows and columns. -/
noncomputable def elimFl (fl : ℝ → ℝ) (D : Nat → Nat → ℝ) : Nat → Nat → Nat → ℝ
  | 0 => fun _ _ => 0
  | k + 1 => fun i j =>
      if min i j = k then
        if i ≤ j then subFl fl k (elimFl fl D k i) (fun l => elimFl fl D k l j) (D i j)
        else fl (subFl fl k (elimFl fl D k i) (fun l => elimFl fl D k l j) (D i j) /
          subFl fl k (elimFl fl D k k) (fun l => elimFl fl D k l k) (D k k))
      else elimFl fl D k i j

open Classical in
/-- Partial pivoting would choose another pivot, or finds none, at some step. -/
noncomputable def elimSwaps (fl : ℝ → ℝ) (n : Nat) (D : Nat → Nat → ℝ) : Bool :=
  decide (∃ k < n, subFl fl k (elimFl fl D k k) (fun l => elimFl fl D k l k) (D k k) = 0 ∨
    ∃ i < n, k < i ∧ |subFl fl k (elimFl fl D k k) (fun l => elimFl fl D k l k) (D k k)| <
      |subFl fl k (elimFl fl D k i) (fun l => elimFl fl D k l k) (D i k)|)

/-- Triangular solves by substitution and LU factorization by elimination, every operation
rounded by `fl`. -/
noncomputable def FlLapack.ofRounding (fl : ℝ → ℝ) : FlLapack where
  toFlBlas := FlBlas.ofRounding fl
  dtrsm uplo side T B i j := side.pick
    (substFl fl (fun t v => T (Dense.solveOrder (Mat.backwards uplo .left) B.rows t)
        (Dense.solveOrder (Mat.backwards uplo .left) B.rows v))
      (fun t => B.val (Dense.solveOrder (Mat.backwards uplo .left) B.rows t) j) B.rows
      (Dense.solveOrder (Mat.backwards uplo .left) B.rows i))
    (substFl fl (fun t v => T (Dense.solveOrder (Mat.backwards uplo .right) B.cols v)
        (Dense.solveOrder (Mat.backwards uplo .right) B.cols t))
      (fun t => B.val i (Dense.solveOrder (Mat.backwards uplo .right) B.cols t)) B.cols
      (Dense.solveOrder (Mat.backwards uplo .right) B.cols j))
  dgetrf D := (⟨D.rows, D.cols, elimFl fl D.val D.rows⟩, elimSwaps fl D.rows D.val)

theorem FlNear.round {fl : ℝ → ℝ} (u0 : 0 ≤ u) (hfl : ∀ x, |fl x - x| ≤ u * |x|) {K : Nat} {x y m : ℝ}
    (h : FlNear u K x y m) : FlNear u (K + 1) (fl x) y m := by
  refine FlNear.step u0 (t := x) (T := |x|) ?_ h.abs_le h
  have := hfl x
  simpa using this

theorem subFl_near {fl : ℝ → ℝ} (u0 : 0 ≤ u) (hfl : ∀ x, |fl x - x| ≤ u * |x|) (k : Nat) (a b : Nat → ℝ)
    (c : ℝ) : FlNear u (k + 1) (subFl fl k a b c) (c - ∑ l ∈ range k, a l * b l)
      (|c| + ∑ l ∈ range k, |a l| * |b l|) := by
  induction k with
  | zero => simpa [subFl] using (FlNear.const u c).mono u0 (Nat.zero_le 1)
  | succ k ih =>
    have e : subFl fl (k + 1) a b c = fl (subFl fl k a b c - fl (a k * b k)) := by
      simp [subFl, List.range_succ]
    rw [e, Finset.sum_range_succ, Finset.sum_range_succ]
    have t := ((FlNear.const u (a k)).mul u0 (FlNear.const u (b k))).round u0 hfl
    have t := (t.cmul (-1)).mono u0 (show 0 + 0 + 1 ≤ k + 1 by omega)
    have := (ih.add t).round u0 hfl
    simp only [abs_neg, abs_one, one_mul, neg_mul] at this
    rw [← sub_eq_add_neg, ← sub_eq_add_neg] at this
    rw [← sub_sub, ← add_assoc]
    exact this

theorem subFl_congr {fl : ℝ → ℝ} {k : Nat} {a a' b b' : Nat → ℝ} {c : ℝ} (ha : ∀ l < k, a l = a' l)
    (hb : ∀ l < k, b l = b' l) : subFl fl k a b c = subFl fl k a' b' c := by
  induction k with
  | zero => rfl
  | succ k ih =>
    have e : ∀ a b, subFl fl (k + 1) a b c = fl (subFl fl k a b c - fl (a k * b k)) := by
      intro a b
      simp [subFl, List.range_succ]
    rw [e, e, ih (fun l hl => ha l (by omega)) (fun l hl => hb l (by omega)), ha k (by omega), hb k (by omega)]

theorem substFl_stable {fl : ℝ → ℝ} {T : Nat → Nat → ℝ} {c : Nat → ℝ} {t n : Nat} (h : t < n) :
    substFl fl T c n t = fl (subFl fl t (T t) (substFl fl T c n) (c t) / T t t) := by
  have stab : ∀ n, ∀ t < n, substFl fl T c n t = substFl fl T c (t + 1) t := by
    intro n
    induction n with
    | zero => intro t h; omega
    | succ n ih =>
      intro t h
      rcases Nat.lt_succ_iff_lt_or_eq.1 h with h | rfl
      · rw [← ih t h]
        simp only [substFl]
        rw [if_neg (by omega)]
      · rfl
  rw [stab n t h]
  simp only [substFl]
  rw [if_pos trivial, subFl_congr (a' := T t) (b' := substFl fl T c n) (fun _ _ => rfl) (fun l hl => ?_)]
  rw [stab n l (by omega), stab t l hl]

/-- The residual of rounded substitution. -/
theorem substFl_near {fl : ℝ → ℝ} (u0 : 0 ≤ u) (hfl : ∀ x, |fl x - x| ≤ u * |x|) {T : Nat → Nat → ℝ}
    {c : Nat → ℝ} {n : Nat} (hT : ∀ t < n, ∀ v < n, t < v → T t v = 0) (h0 : ∀ t < n, T t t ≠ 0) :
    ∀ t < n, |∑ l ∈ range n, T t l * substFl fl T c n l - c t| ≤
      ((1 + u) ^ (n + 2) - 1) * (∑ l ∈ range n, |T t l| * |substFl fl T c n l| + |c t|) := by
  intro t ht
  generalize hx : substFl fl T c n = x
  have e : x t = fl (subFl fl t (T t) x (c t) / T t t) := by rw [← hx]; exact substFl_stable ht
  have N := subFl_near u0 hfl t (T t) x (c t)
  generalize subFl fl t (T t) x (c t) = s at e N
  have Q : |T t t * x t - s| ≤ u * |s| := by
    have := hfl (s / T t t)
    rw [← e] at this
    have q : T t t * x t - s = T t t * (x t - s / T t t) := by
      rw [mul_sub, mul_div_cancel₀ _ (h0 t ht)]
    rw [q, abs_mul]
    refine (mul_le_mul_of_nonneg_left this (abs_nonneg _)).trans (le_of_eq ?_)
    rw [abs_div, mul_left_comm, mul_div_cancel₀ _ (abs_ne_zero.2 (h0 t ht))]
  have M : FlNear u (t + 1 + 1) (T t t * x t) (c t - ∑ l ∈ range t, T t l * x l)
      (|c t| + ∑ l ∈ range t, |T t l| * |x l|) :=
    FlNear.step u0 (t := s) (T := |s|) (by simpa using Q) N.abs_le N
  have s1 : ∀ f : Nat → ℝ, (∀ l, t < l → l < n → f l = 0) →
      ∑ l ∈ range n, f l = ∑ l ∈ range t, f l + f t := by
    intro f hf
    rw [← Finset.sum_range_succ]
    symm
    refine Finset.sum_subset (fun l hl => ?_) (fun l hl hl' => ?_)
    · rw [mem_range] at hl ⊢; omega
    · rw [mem_range] at hl hl'; exact hf l (by omega) hl
  rw [s1 (fun l => T t l * x l) (fun l h1 h2 => by simp [hT t ht l h2 h1]),
    s1 (fun l => |T t l| * |x l|) (fun l h1 h2 => by simp [hT t ht l h2 h1])]
  have M := (M.mono u0 (show t + 1 + 1 ≤ n + 2 by omega))
  have M1 := M.1
  have p : (0 : ℝ) ≤ (1 + u) ^ (n + 2) - 1 := by
    have : (1 : ℝ) ≤ (1 + u) ^ (n + 2) := one_le_pow₀ (by linarith)
    linarith
  have e1 : ∑ l ∈ range t, T t l * x l + T t t * x t - c t =
      T t t * x t - (c t - ∑ l ∈ range t, T t l * x l) := by ring
  rw [e1]
  refine M1.trans (mul_le_mul_of_nonneg_left ?_ p)
  have : 0 ≤ |T t t| * |x t| := by positivity
  linarith

theorem elimFl_succ (fl : ℝ → ℝ) (D : Nat → Nat → ℝ) (k i j : Nat) : elimFl fl D (k + 1) i j =
    if min i j = k then
      if i ≤ j then subFl fl k (elimFl fl D k i) (fun l => elimFl fl D k l j) (D i j)
      else fl (subFl fl k (elimFl fl D k i) (fun l => elimFl fl D k l j) (D i j) /
        subFl fl k (elimFl fl D k k) (fun l => elimFl fl D k l k) (D k k))
    else elimFl fl D k i j := rfl

theorem elimFl_stab (fl : ℝ → ℝ) (D : Nat → Nat → ℝ) : ∀ n, ∀ i j, min i j < n →
    elimFl fl D n i j = elimFl fl D (min i j + 1) i j := by
  intro n
  induction n with
  | zero => intro i j h; omega
  | succ n ih =>
    intro i j h
    rcases Nat.lt_succ_iff_lt_or_eq.1 h with h | h
    · rw [← ih i j h]
      rw [elimFl_succ]
      rw [if_neg (by omega)]
    · rw [h]

theorem elimFl_stable {fl : ℝ → ℝ} {D : Nat → Nat → ℝ} {i j n : Nat} (h : min i j < n) :
    elimFl fl D n i j =
      if i ≤ j then subFl fl i (elimFl fl D n i) (fun l => elimFl fl D n l j) (D i j)
      else fl (subFl fl j (elimFl fl D n i) (fun l => elimFl fl D n l j) (D i j) / elimFl fl D n j j) := by
  have stab := elimFl_stab fl D
  have low : ∀ k, k ≤ n → ∀ i j, min i j < k → elimFl fl D k i j = elimFl fl D n i j := fun k hk i j h => by
    rw [stab k i j h, stab n i j (by omega)]
  rw [stab n i j h]
  rw [elimFl_succ]
  rw [if_pos rfl]
  by_cases hij : i ≤ j
  · rw [if_pos hij, if_pos hij, Nat.min_eq_left hij]
    rw [Nat.min_eq_left hij] at h
    exact subFl_congr (fun l hl => low i (by omega) _ _ (by omega))
      (fun l hl => low i (by omega) _ _ (by omega))
  · have hji : j ≤ i := by omega
    rw [if_neg hij, if_neg hij, Nat.min_eq_right hji]
    rw [Nat.min_eq_right hji] at h
    have e1 : subFl fl j (elimFl fl D j i) (fun l => elimFl fl D j l j) (D i j) =
        subFl fl j (elimFl fl D n i) (fun l => elimFl fl D n l j) (D i j) :=
      subFl_congr (fun l hl => low j (by omega) _ _ (by omega)) (fun l hl => low j (by omega) _ _ (by omega))
    have e2 : subFl fl j (elimFl fl D j j) (fun l => elimFl fl D j l j) (D j j) = elimFl fl D n j j := by
      rw [stab n j j (by omega)]
      rw [elimFl_succ]
      rw [if_pos rfl, if_pos le_rfl, Nat.min_self]
    rw [e1, e2]

/-- The residual of rounded elimination. -/
theorem elimFl_near {fl : ℝ → ℝ} (u0 : 0 ≤ u) (hfl : ∀ x, |fl x - x| ≤ u * |x|) {D : Nat → Nat → ℝ}
    {n : Nat} (h0 : ∀ k < n, elimFl fl D n k k ≠ 0) : ∀ i < n, ∀ j < n,
    |∑ l ∈ range n, (if l < i then elimFl fl D n i l else if i = l then 1 else 0) *
        (if j < l then 0 else elimFl fl D n l j) - D i j| ≤
      ((1 + u) ^ (n + 2) - 1) * (∑ l ∈ range n,
        |if l < i then elimFl fl D n i l else if i = l then 1 else 0| *
        |if j < l then 0 else elimFl fl D n l j| + |D i j|) := by
  intro i hi j hj
  have e := elimFl_stable (fl := fl) (D := D) (i := i) (j := j) (n := n) (by omega)
  generalize hP : elimFl fl D n = P at *
  have p : (0 : ℝ) ≤ (1 + u) ^ (n + 2) - 1 := by
    have : (1 : ℝ) ≤ (1 + u) ^ (n + 2) := one_le_pow₀ (by linarith)
    linarith
  -- the terms of the product
  have cut : ∀ (f g : Nat → ℝ) (m : Nat), m < n → (∀ l < m, f l = g l) → (∀ l, m < l → l < n → f l = 0) →
      ∑ l ∈ range n, f l = ∑ l ∈ range m, g l + f m := by
    intro f g m hm h1 h2
    rw [← Finset.sum_congr rfl (fun l hl => h1 l (mem_range.1 hl)), ← Finset.sum_range_succ]
    symm
    refine Finset.sum_subset (fun l hl => ?_) (fun l hl hl' => ?_)
    · rw [mem_range] at hl ⊢; omega
    · rw [mem_range] at hl hl'; exact h2 l (by omega) hl
  by_cases hij : i ≤ j
  · rw [if_pos hij] at e
    have N := (subFl_near u0 hfl i (P i) (fun l => P l j) (D i j)).mono u0 (show i + 1 ≤ n + 2 by omega)
    rw [← e] at N
    have c1 := cut (fun l => (if l < i then P i l else if i = l then 1 else 0) *
        (if j < l then 0 else P l j)) (fun l => P i l * P l j) i hi
      (fun l hl => by simp only [if_pos hl, if_neg (show ¬ j < l by omega)])
      (fun l h1 h2 => by simp only [if_neg (show ¬ l < i by omega), if_neg (show ¬ i = l by omega), zero_mul])
    have c2 := cut (fun l => |if l < i then P i l else if i = l then 1 else 0| *
        |if j < l then 0 else P l j|) (fun l => |P i l| * |P l j|) i hi
      (fun l hl => by simp only [if_pos hl, if_neg (show ¬ j < l by omega)])
      (fun l h1 h2 => by
        simp only [if_neg (show ¬ l < i by omega), if_neg (show ¬ i = l by omega), abs_zero, zero_mul])
    rw [c1, c2]
    simp only [lt_irrefl, if_false, if_true, one_mul, abs_one, if_neg (show ¬ j < i by omega)]
    have e1 : ∑ l ∈ range i, P i l * P l j + P i j - D i j =
        P i j - (D i j - ∑ l ∈ range i, P i l * P l j) := by ring
    rw [e1]
    refine N.1.trans (mul_le_mul_of_nonneg_left ?_ p)
    have := abs_nonneg (P i j)
    linarith
  · rw [if_neg hij] at e
    have hj0 := h0 j hj
    have N := subFl_near u0 hfl j (P i) (fun l => P l j) (D i j)
    generalize subFl fl j (P i) (fun l => P l j) (D i j) = s at e N
    have Q : |P i j * P j j - s| ≤ u * |s| := by
      have := hfl (s / P j j)
      rw [← e] at this
      have q : P i j * P j j - s = P j j * (P i j - s / P j j) := by
        rw [mul_sub, mul_div_cancel₀ _ hj0, mul_comm]
      rw [q, abs_mul]
      refine (mul_le_mul_of_nonneg_left this (abs_nonneg _)).trans (le_of_eq ?_)
      rw [abs_div, mul_left_comm, mul_div_cancel₀ _ (abs_ne_zero.2 hj0)]
    have N : FlNear u (j + 1 + 1) (P i j * P j j) (D i j - ∑ l ∈ range j, P i l * P l j)
        (|D i j| + ∑ l ∈ range j, |P i l| * |P l j|) :=
      FlNear.step u0 (t := s) (T := |s|) (by simpa using Q) N.abs_le N
    have N := N.mono u0 (show j + 1 + 1 ≤ n + 2 by omega)
    have c1 := cut (fun l => (if l < i then P i l else if i = l then 1 else 0) *
        (if j < l then 0 else P l j)) (fun l => P i l * P l j) j hj
      (fun l hl => by simp only [if_pos (show l < i by omega), if_neg (show ¬ j < l by omega)])
      (fun l h1 h2 => by simp only [if_pos h1, mul_zero])
    have c2 := cut (fun l => |if l < i then P i l else if i = l then 1 else 0| *
        |if j < l then 0 else P l j|) (fun l => |P i l| * |P l j|) j hj
      (fun l hl => by simp only [if_pos (show l < i by omega), if_neg (show ¬ j < l by omega)])
      (fun l h1 h2 => by simp only [if_pos h1, abs_zero, mul_zero])
    rw [c1, c2]
    simp only [lt_irrefl, if_false, if_pos (show j < i by omega)]
    have e1 : ∑ l ∈ range j, P i l * P l j + P i j * P j j - D i j =
        P i j * P j j - (D i j - ∑ l ∈ range j, P i l * P l j) := by ring
    rw [e1]
    refine N.1.trans (mul_le_mul_of_nonneg_left ?_ p)
    have : 0 ≤ |P i j| * |P j j| := by positivity
    linarith

theorem sum_reorder (b : Bool) (n : Nat) (f : Nat → ℝ) :
    ∑ l ∈ range n, f (Dense.solveOrder b n l) = ∑ l ∈ range n, f l := by
  cases b with
  | false => rfl
  | true => exact Finset.sum_range_reflect f n

/-- Any rounding with relative error `u` gives an arithmetic as assumed. -/
theorem FlLapack.ofRounding_sound {fl : ℝ → ℝ} (u0 : 0 ≤ u) (hfl : ∀ x, |fl x - x| ≤ u * |x|) :
    (FlLapack.ofRounding fl).Sound u where
  toSound := C75_rounding u0 hfl
  dtrsm_left uplo T B hT h0 i hi j hj := by
    have hlt := fun {t} (h : t < B.rows) => Mat.solveOrder_lt (b := Mat.backwards uplo .left) h
    have hinv := fun {t} (h : t < B.rows) => Mat.solveOrder_invol (b := Mat.backwards uplo .left) h
    have S := substFl_near u0 hfl (T := fun t v => T (Dense.solveOrder (Mat.backwards uplo .left) B.rows t)
        (Dense.solveOrder (Mat.backwards uplo .left) B.rows v))
      (c := fun t => B.val (Dense.solveOrder (Mat.backwards uplo .left) B.rows t) j) (n := B.rows)
      (fun t ht v hv htv => hT _ _ (by
        cases uplo <;> simp [Mat.backwards, Dense.solveOrder] <;> omega))
      (fun t ht => h0 _ (hlt ht)) _ (hlt hi)
    simp only [hinv hi] at S
    have E : ∀ l < B.rows, (FlLapack.ofRounding fl).dtrsm uplo .left T B
        (Dense.solveOrder (Mat.backwards uplo .left) B.rows l) j = substFl fl (fun t v =>
          T (Dense.solveOrder (Mat.backwards uplo .left) B.rows t)
          (Dense.solveOrder (Mat.backwards uplo .left) B.rows v))
        (fun t => B.val (Dense.solveOrder (Mat.backwards uplo .left) B.rows t) j) B.rows l := by
      intro l hl
      simp only [FlLapack.ofRounding, Side.pick_left, hinv hl]
    rw [← sum_reorder (Mat.backwards uplo .left) B.rows, ← sum_reorder (Mat.backwards uplo .left) B.rows
      (fun l => |T i l| * _)]
    refine le_of_eq_of_le (congrArg _ (congrArg (· - B.val i j) (Finset.sum_congr rfl fun l hl => ?_)))
      (S.trans (le_of_eq (congrArg _ (congrArg (· + |B.val i j|) (Finset.sum_congr rfl fun l hl => ?_)))))
    · rw [E l (mem_range.1 hl)]
    · rw [E l (mem_range.1 hl)]
  dtrsm_right uplo T B hT h0 i hi j hj := by
    have hlt := fun {t} (h : t < B.cols) => Mat.solveOrder_lt (b := Mat.backwards uplo .right) h
    have hinv := fun {t} (h : t < B.cols) => Mat.solveOrder_invol (b := Mat.backwards uplo .right) h
    have S := substFl_near u0 hfl (T := fun t v => T (Dense.solveOrder (Mat.backwards uplo .right) B.cols v)
        (Dense.solveOrder (Mat.backwards uplo .right) B.cols t))
      (c := fun t => B.val i (Dense.solveOrder (Mat.backwards uplo .right) B.cols t)) (n := B.cols)
      (fun t ht v hv htv => hT _ _ (by
        cases uplo <;> simp [Mat.backwards, Dense.solveOrder] <;> omega))
      (fun t ht => h0 _ (hlt ht)) _ (hlt hj)
    simp only [hinv hj] at S
    have E : ∀ l < B.cols, (FlLapack.ofRounding fl).dtrsm uplo .right T B i
        (Dense.solveOrder (Mat.backwards uplo .right) B.cols l) = substFl fl (fun t v =>
          T (Dense.solveOrder (Mat.backwards uplo .right) B.cols v)
          (Dense.solveOrder (Mat.backwards uplo .right) B.cols t))
        (fun t => B.val i (Dense.solveOrder (Mat.backwards uplo .right) B.cols t)) B.cols l := by
      intro l hl
      simp only [FlLapack.ofRounding, Side.pick_right, hinv hl]
    rw [← sum_reorder (Mat.backwards uplo .right) B.cols, ← sum_reorder (Mat.backwards uplo .right) B.cols
      (fun l => _ * |T l j|)]
    refine le_of_eq_of_le (congrArg _ (congrArg (· - B.val i j) (Finset.sum_congr rfl fun l hl => ?_)))
      (S.trans (le_of_eq (congrArg _ (congrArg (· + |B.val i j|) (Finset.sum_congr rfl fun l hl => ?_)))))
    · rw [E l (mem_range.1 hl), mul_comm]
    · rw [E l (mem_range.1 hl), mul_comm]
  dgetrf D hD hs i hi j hj := by
    have hs : elimSwaps fl D.rows D.val = false := hs
    unfold elimSwaps at hs
    have hs := of_decide_eq_false hs
    refine elimFl_near u0 hfl (fun k hk h => hs ⟨k, hk, Or.inl ?_⟩) i hi j (by omega)
    rw [elimFl_stab _ _ _ _ _ (by omega)] at h
    rw [elimFl_succ, if_pos rfl, if_pos le_rfl, Nat.min_self] at h
    exact h

end Verif
