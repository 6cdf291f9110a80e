import Verif.Lemmas.KernelPd
import Verif.Props.Construct
import Mathlib.LinearAlgebra.Lagrange

/-
C56: the matrices of the built-in kernels are invertible; the Laplace and Helmholtz matrices are
symmetric positive definite.
-/

namespace Verif
open Finset

/-- Points `o, ..., o+n-1` are pairwise different (`x` lists the coordinates, one list per
dimension). -/
def DistinctPoints (x : List (List ℝ)) (o n : Nat) : Prop :=
  ∀ i < n, ∀ j < n, i ≠ j → ∃ p ∈ x, p.getD (o + i) 0 ≠ p.getD (o + j) 0

/-- The entries of a matrix built from the Laplace or the Helmholtz kernel. -/
theorem radial_entries {b : Builtin} (hb : b = .laplacend ∨ b = .helmholtznd) {x : List (List ℝ)} {r c m n : Nat}
    (hr : ∀ p ∈ x, r + m ≤ p.length) (hc : ∀ p ∈ x, c + n ≤ p.length) :
    ∃ (h : ℝ) (D : Dense ℝ), 0 ≤ h ∧ Dense.ofKernel (b.kernel x) m n r c = .ok D ∧ D.rows = m ∧ D.cols = n ∧
      ∀ i < m, ∀ j < n, D.val i j = Real.exp (-h * (x.map fun p => (p.getD (r + i) 0 - p.getD (c + j) 0) ^ 2).sum) /
        (√((x.map fun p => (p.getD (r + i) 0 - p.getD (c + j) 0) ^ 2).sum) + 1 / 1000) := by
  obtain ⟨h, hh, he⟩ : ∃ h : ℝ, 0 ≤ h ∧ ∀ i < m, ∀ j < n, b.entry x ((r + i : Nat) : Int) ((c + j : Nat) : Int) =
      .ok (Real.exp (-h * (x.map fun p => (p.getD (r + i) 0 - p.getD (c + j) 0) ^ 2).sum) /
        (√((x.map fun p => (p.getD (r + i) 0 - p.getD (c + j) 0) ^ 2).sum) + 1 / 1000)) := by
    rcases hb with rfl | rfl
    · refine ⟨0, le_rfl, fun i hi j hj => ?_⟩
      rw [neg_zero, zero_mul, Real.exp_zero]
      exact (C10_values x (r + i) (c + j) (fun p hp => by have := hr p hp; omega) (fun p hp => by have := hc p hp; omega)).2.2.1
    · refine ⟨1, zero_le_one, fun i hi j hj => ?_⟩
      rw [neg_one_mul]
      exact (C10_values x (r + i) (c + j) (fun p hp => by have := hr p hp; omega) (fun p hp => by have := hc p hp; omega)).2.2.2.1
  obtain ⟨mem, hm⟩ : ∃ mem, b.kernel x (fun _ => 0) m n n (r : Int) (c : Int) = .ok mem := by
    refine kernelLoop_exists fun i hi j hj => ?_
    have := he i hi j hj
    rw [Nat.cast_add, Nat.cast_add] at this
    exact ⟨_, this⟩
  refine ⟨h, _, hh, by rw [Dense.ofKernel, hm, except_bind_ok], rfl, rfl, fun i hi j hj => ?_⟩
  have e1 := (kernelLoop_spec le_rfl hm).1 i hi j hj
  have e2 := he i hi j hj
  rw [Nat.cast_add, Nat.cast_add] at e2
  exact Except.ok.inj (e1.symm.trans e2)

/-- **C56**: `Dense(laplacend, x, n, n, o, o)` and `Dense(helmholtznd, ...)` are symmetric
positive definite if the points are pairwise different, for any number of dimensions. -/
theorem C56_positive_definite {b : Builtin} (hb : b = .laplacend ∨ b = .helmholtznd) {x : List (List ℝ)} {o n : Nat}
    (hl : ∀ p ∈ x, o + n ≤ p.length) (hd : DistinctPoints x o n) :
    ∃ D, Dense.ofKernel (b.kernel x) n n o o = .ok D ∧ D.rows = n ∧ D.cols = n ∧
      (∀ i < n, ∀ j < n, D.val i j = D.val j i) ∧
      ∀ a : Nat → ℝ, (∃ i < n, a i ≠ 0) → 0 < ∑ i ∈ range n, ∑ j ∈ range n, a i * D.val i j * a j := by
  obtain ⟨h, D, hh, hD, D0, D1, hv⟩ := radial_entries hb hl hl
  let y : List (Nat → ℝ) := x.map fun p i => p.getD (o + i) 0
  have ey : ∀ i j, (x.map fun p => (p.getD (o + i) 0 - p.getD (o + j) 0) ^ 2).sum = sqDist y i j := by
    intro i j
    simp only [sqDist, y, List.map_map]
    rfl
  simp only [ey] at hv
  refine ⟨D, hD, D0, D1, fun i hi j hj => ?_, fun a ha => ?_⟩
  · have : sqDist y i j = sqDist y j i := by
      unfold sqDist
      congr 1
      refine List.map_congr_left fun p _ => ?_
      ring
    rw [hv i hi j hj, hv j hj i hi, this]
  · have hx : ∀ i ∈ range n, ∀ j ∈ range n, i ≠ j → 0 < sqDist y i j := by
      intro i hi j hj hij
      obtain ⟨p, hp, hne⟩ := hd i (mem_range.1 hi) j (mem_range.1 hj) hij
      have h1 : (p.getD (o + i) 0 - p.getD (o + j) 0) ^ 2 ≤ sqDist y i j := by
        rw [← ey]
        exact List.single_le_sum (by
          intro z hz
          obtain ⟨p, -, rfl⟩ := List.mem_map.1 hz
          exact sq_nonneg _) _ (List.mem_map.2 ⟨p, hp, rfl⟩)
      have h2 : 0 < (p.getD (o + i) 0 - p.getD (o + j) 0) ^ 2 := by
        have := sub_ne_zero.2 hne
        positivity
      linarith
    have := kernel_form_pos hx hh (c := 1 / 1000) (by norm_num) (a := a) (by
      obtain ⟨i, hi, h⟩ := ha
      exact ⟨i, mem_range.2 hi, h⟩)
    refine lt_of_lt_of_eq this ?_
    refine Finset.sum_congr rfl fun i hi => Finset.sum_congr rfl fun j hj => ?_
    rw [hv i (mem_range.1 hi) j (mem_range.1 hj)]
    ring

/-- **C56**: such a matrix maps only the zero vector to zero exactly if the points are pairwise
different. -/
theorem C56_nonsingular_iff {b : Builtin} (hb : b = .laplacend ∨ b = .helmholtznd) {x : List (List ℝ)} {o n : Nat}
    (hl : ∀ p ∈ x, o + n ≤ p.length) {D : Dense ℝ} (hD : Dense.ofKernel (b.kernel x) n n o o = .ok D) :
    (∀ a : Nat → ℝ, (∀ i < n, ∑ j ∈ range n, D.val i j * a j = 0) → ∀ j < n, a j = 0) ↔ DistinctPoints x o n := by
  constructor
  · intro inj
    by_contra hnd
    unfold DistinctPoints at hnd
    push Not at hnd
    obtain ⟨i, hi, j, hj, hij, same⟩ := hnd
    obtain ⟨h, D', -, hD', -, -, hv⟩ := radial_entries hb hl hl
    rw [hD] at hD'
    cases Except.ok.inj hD'
    have := inj (fun k => if k = i then 1 else if k = j then -1 else 0) (fun k hk => by
      have e : ∀ l ∈ range n, D.val k l * (if l = i then 1 else if l = j then -1 else 0) =
          (if l = i then D.val k i else 0) - (if l = j then D.val k j else 0) := by
        intro l _
        by_cases h1 : l = i
        · subst h1
          simp [hij]
        · by_cases h2 : l = j
          · subst h2
            simp [h1]
          · simp [h1, h2]
      rw [Finset.sum_congr rfl e, Finset.sum_sub_distrib, Finset.sum_ite_eq' , Finset.sum_ite_eq',
        if_pos (mem_range.2 hi), if_pos (mem_range.2 hj), hv k hk i hi, hv k hk j hj]
      have : (x.map fun p => (p.getD (o + k) 0 - p.getD (o + i) 0) ^ 2) =
          x.map fun p => (p.getD (o + k) 0 - p.getD (o + j) 0) ^ 2 :=
        List.map_congr_left fun p hp => by rw [same p hp]
      rw [this, sub_self]) i hi
    simp at this
  · intro hd a ha
    by_contra hne
    push Not at hne
    obtain ⟨D', hD', -, -, -, pos⟩ := C56_positive_definite hb hl hd
    rw [hD] at hD'
    cases Except.ok.inj hD'
    refine (pos a hne).ne' (Finset.sum_eq_zero fun i hi => ?_)
    calc _ = a i * ∑ j ∈ range n, D.val i j * a j := by
          rw [Finset.mul_sum]
          exact Finset.sum_congr rfl fun j _ => by ring
      _ = 0 := by rw [ha i (mem_range.1 hi), mul_zero]

/-- **C56**: `Dense(cauchy2d, x, n, n, r, c)` maps only the zero vector to zero if the row points are
pairwise different, the column points are, and no denominator is zero. -/
theorem C56_cauchy_nonsingular {x y : List ℝ} {z : List (List ℝ)} {r c n : Nat}
    (hx : r + n ≤ x.length) (hy : c + n ≤ y.length)
    (dx : ∀ i < n, ∀ j < n, i ≠ j → x.getD (r + i) 0 ≠ x.getD (r + j) 0)
    (dy : ∀ i < n, ∀ j < n, i ≠ j → y.getD (c + i) 0 ≠ y.getD (c + j) 0)
    (hz : ∀ i < n, ∀ j < n, x.getD (r + i) 0 - y.getD (c + j) 0 + 1 / 100 ≠ 0) :
    ∃ D, Dense.ofKernel (Builtin.cauchy2d.kernel (x :: y :: z)) n n r c = .ok D ∧ D.rows = n ∧ D.cols = n ∧
      ∀ a : Nat → ℝ, (∀ i < n, ∑ j ∈ range n, D.val i j * a j = 0) → ∀ j < n, a j = 0 := by
  have he : ∀ i < n, ∀ j < n, Builtin.cauchy2d.entry (x :: y :: z) ((r + i : Nat) : Int) ((c + j : Nat) : Int) =
      .ok (1 / (x.getD (r + i) 0 - y.getD (c + j) 0 + 1 / 100)) := by
    intro i hi j hj
    have e1 : r + i < x.length := by omega
    have e2 : c + j < y.length := by omega
    generalize r + i = k at e1 ⊢
    generalize c + j = l at e2 ⊢
    simp [Builtin.entry, dimAt, coordAt, e1, e2]
  obtain ⟨mem, hm⟩ : ∃ mem, Builtin.cauchy2d.kernel (x :: y :: z) (fun _ => 0) n n n (r : Int) (c : Int) = .ok mem := by
    refine kernelLoop_exists fun i hi j hj => ?_
    have := he i hi j hj
    rw [Nat.cast_add, Nat.cast_add] at this
    exact ⟨_, this⟩
  refine ⟨_, by rw [Dense.ofKernel, hm, except_bind_ok], rfl, rfl, fun a ha j hj => ?_⟩
  have hv : ∀ i < n, ∀ j < n, mem (i * n + j) = 1 / (x.getD (r + i) 0 - y.getD (c + j) 0 + 1 / 100) := by
    intro i hi j hj
    have e1 := (kernelLoop_spec le_rfl hm).1 i hi j hj
    have e2 := he i hi j hj
    rw [Nat.cast_add, Nat.cast_add] at e2
    exact Except.ok.inj (e1.symm.trans e2)
  -- points `u` and `v`: the entry is `1 / (u i - v j)`
  let u : Nat → ℝ := fun i => x.getD (r + i) 0 + 1 / 100
  let v : Nat → ℝ := fun j => y.getD (c + j) 0
  have uv : ∀ i < n, ∀ j < n, u i - v j ≠ 0 := fun i hi j hj => by
    have := hz i hi j hj
    intro e
    exact this (by simp only [u, v] at e; linarith)
  let P : Polynomial ℝ := ∑ j ∈ range n, Polynomial.C (a j) * ∏ l ∈ (range n).erase j, (Polynomial.X - Polynomial.C (v l))
  have hP : P = 0 := by
    have hinj : Set.InjOn u (range n) := by
      intro i hi j hj e
      by_contra hij
      exact dx i (mem_range.1 hi) j (mem_range.1 hj) hij (by simp only [u] at e; linarith)
    refine Polynomial.eq_zero_of_degree_lt_of_eval_finset_eq_zero ((range n).image u) ?_ ?_
    · rw [Finset.card_image_of_injOn hinj, Finset.card_range]
      refine lt_of_le_of_lt (Polynomial.degree_sum_le _ _) ?_
      rw [Finset.sup_lt_iff (by exact WithBot.bot_lt_coe n)]
      intro j hj
      refine lt_of_le_of_lt ((Polynomial.degree_mul_le _ _).trans (add_le_add Polynomial.degree_C_le le_rfl)) ?_
      rw [Polynomial.degree_prod_of_monic _ _ (fun l _ => Polynomial.monic_X_sub_C _)]
      simp only [Polynomial.degree_X_sub_C, Finset.sum_const, Finset.card_erase_of_mem hj, Finset.card_range]
      have := mem_range.1 hj
      rw [zero_add, nsmul_one]
      exact_mod_cast (by omega : n - 1 < n)
    · intro w hw
      obtain ⟨i, hi, rfl⟩ := Finset.mem_image.1 hw
      have hi := mem_range.1 hi
      simp only [P, Polynomial.eval_finsetSum, Polynomial.eval_mul, Polynomial.eval_C, Polynomial.eval_prod, Polynomial.eval_sub,
        Polynomial.eval_X]
      have : ∀ j ∈ range n, a j * ∏ l ∈ (range n).erase j, (u i - v l) =
          (∏ l ∈ range n, (u i - v l)) * (mem (i * n + j) * a j) := by
        intro j hj
        rw [← Finset.mul_prod_erase _ _ hj, hv i hi j (mem_range.1 hj)]
        have := uv i hi j (mem_range.1 hj)
        rw [show x.getD (r + i) 0 - y.getD (c + j) 0 + 1 / 100 = u i - v j by simp only [u, v]; ring]
        field_simp
      rw [Finset.sum_congr rfl this, ← Finset.mul_sum]
      rw [show ∑ j ∈ range n, mem (i * n + j) * a j = 0 from ha i hi, mul_zero]
  have h0 : P.eval (v j) = a j * ∏ l ∈ (range n).erase j, (v j - v l) := by
    simp only [P, Polynomial.eval_finsetSum, Polynomial.eval_mul, Polynomial.eval_C, Polynomial.eval_prod, Polynomial.eval_sub,
        Polynomial.eval_X]
    refine Finset.sum_eq_single_of_mem j (mem_range.2 hj) fun l hl hne => ?_
    rw [Finset.prod_eq_zero (Finset.mem_erase.2 ⟨hne.symm, mem_range.2 hj⟩) (sub_self _), mul_zero]
  rw [hP, Polynomial.eval_zero] at h0
  refine (mul_eq_zero.1 h0.symm).resolve_right (Finset.prod_ne_zero_iff.2 fun l hl => ?_)
  obtain ⟨h1, h2⟩ := Finset.mem_erase.1 hl
  exact sub_ne_zero.2 (dy j hj l (mem_range.1 h2) h1.symm)

/-! ### the hypotheses can be met -/

section Examples

/-- Four points in the plane, of which the last three are used; the first two coincide. -/
example : ∃ x : List (List ℝ), x.length = 2 ∧ (∀ p ∈ x, 1 + 3 ≤ p.length) ∧ DistinctPoints x 1 3 ∧ ¬ DistinctPoints x 0 4 := by
  refine ⟨[[0, 0, 1, 0], [0, 0, 0, 1]], rfl, by simp, fun i hi j hj hij => ?_, fun h => ?_⟩
  · have h1 : i = 0 ∨ i = 1 ∨ i = 2 := by omega
    have h2 : j = 0 ∨ j = 1 ∨ j = 2 := by omega
    rcases h1 with rfl | rfl | rfl <;> rcases h2 with rfl | rfl | rfl <;> simp at hij ⊢
  · obtain ⟨p, hp, hne⟩ := h 0 (by omega) 1 (by omega) (by omega)
    simp only [List.mem_cons, List.not_mem_nil, or_false] at hp
    rcases hp with rfl | rfl <;> simp at hne

/-- Any number of equally spaced points on a line, as row points and as column points. -/
example (n : Nat) : ∃ x : List ℝ, 0 + n ≤ x.length ∧
    (∀ i < n, ∀ j < n, i ≠ j → x.getD (0 + i) 0 ≠ x.getD (0 + j) 0) ∧
    (∀ i < n, ∀ j < n, x.getD (0 + i) 0 - x.getD (0 + j) 0 + 1 / 100 ≠ 0) := by
  have e : ∀ i < n, ((List.range n).map fun i : Nat => (i : ℝ)).getD (0 + i) 0 = i := by
    intro i hi
    rw [zero_add, List.getD_eq_getElem?_getD, List.getElem?_map, List.getElem?_range hi]
    rfl
  refine ⟨(List.range n).map fun i : Nat => (i : ℝ), by simp, fun i hi j hj hij => ?_, fun i hi j hj h => ?_⟩
  · rw [e i hi, e j hj]
    exact Nat.cast_injective.ne hij
  · rw [e i hi, e j hj] at h
    have : ((i : Int) - j) * 100 + 1 = 0 := by
      have : (((i : Int) - j) * 100 + 1 : ℝ) = 0 := by push_cast; linarith
      exact_mod_cast this
    omega

end Examples

end Verif
