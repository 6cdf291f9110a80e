import Mathlib.Analysis.SpecialFunctions.ImproperIntegrals
import Mathlib.Tactic.Ring
import Mathlib.Tactic.Linarith
import Mathlib.Tactic.Positivity
import Mathlib.Tactic.FieldSimp

/-
The kernels `exp (-h |x-y|²) / (|x-y| + c)` are positive definite on distinct points of any
dimension: they are mixtures of Gaussians with positive weights.
-/

namespace Verif
open Finset MeasureTheory Filter Topology

section
variable {ι : Type} {s : Finset ι}

/-- The squared distance of points given by coordinates. -/
def sqDist (x : List (ι → ℝ)) (i j : ι) : ℝ :=
  (x.map fun p => (p i - p j) ^ 2).sum

theorem sqDist_nonneg (x : List (ι → ℝ)) (i j : ι) : 0 ≤ sqDist x i j :=
  List.sum_nonneg (by
    intro y hy
    obtain ⟨p, -, rfl⟩ := List.mem_map.1 hy
    exact sq_nonneg _)

theorem sqDist_self (x : List (ι → ℝ)) (i : ι) : sqDist x i i = 0 := by
  unfold sqDist
  refine List.sum_eq_zero fun y hy => ?_
  obtain ⟨p, -, rfl⟩ := List.mem_map.1 hy
  ring

theorem sqDist_expand (x : List (ι → ℝ)) (i j : ι) :
    sqDist x i j = (x.map fun p => p i ^ 2).sum + (x.map fun p => p j ^ 2).sum - 2 * (x.map fun p => p i * p j).sum := by
  unfold sqDist
  induction x with
  | nil => simp
  | cons p x ih =>
    simp only [List.map_cons, List.sum_cons, ih]
    ring

/-- The quadratic form of a kernel. -/
def qform (s : Finset ι) (k : ι → ι → ℝ) (a : ι → ℝ) : ℝ :=
  ∑ i ∈ s, ∑ j ∈ s, a i * a j * k i j

theorem qform_inner {k : ι → ι → ℝ} (hk : ∀ a, 0 ≤ qform s k a) (x : List (ι → ℝ)) (a : ι → ℝ) :
    0 ≤ qform s (fun i j => (x.map fun p => p i * p j).sum * k i j) a := by
  induction x with
  | nil => simp [qform]
  | cons p x ih =>
    have : qform s (fun i j => ((p :: x).map fun p => p i * p j).sum * k i j) a =
        qform s k (fun i => a i * p i) + qform s (fun i j => (x.map fun p => p i * p j).sum * k i j) a := by
      unfold qform
      rw [← Finset.sum_add_distrib]
      refine Finset.sum_congr rfl fun i _ => ?_
      rw [← Finset.sum_add_distrib]
      refine Finset.sum_congr rfl fun j _ => ?_
      simp only [List.map_cons, List.sum_cons]
      ring
    rw [this]
    exact add_nonneg (hk _) ih

theorem qform_pow (x : List (ι → ℝ)) (n : Nat) (a : ι → ℝ) :
    0 ≤ qform s (fun i j => ((x.map fun p => p i * p j).sum) ^ n) a := by
  induction n generalizing a with
  | zero =>
    have : qform s (fun i j => ((x.map fun p => p i * p j).sum) ^ 0) a = (∑ i ∈ s, a i) * ∑ i ∈ s, a i := by
      rw [Finset.sum_mul_sum]
      simp [qform]
    rw [this]
    exact mul_self_nonneg _
  | succ n ih =>
    have := qform_inner ih x a
    simpa only [pow_succ, mul_comm] using this

/-- Gaussians are positive semidefinite. -/
theorem gauss_nonneg (x : List (ι → ℝ)) {t : ℝ} (ht : 0 ≤ t) (a : ι → ℝ) :
    0 ≤ qform s (fun i j => Real.exp (-t * sqDist x i j)) a := by
  let b : ι → ℝ := fun i => a i * Real.exp (-t * (x.map fun p => p i ^ 2).sum)
  have e : qform s (fun i j => Real.exp (-t * sqDist x i j)) a =
      qform s (fun i j => Real.exp (2 * t * (x.map fun p => p i * p j).sum)) b := by
    unfold qform
    refine Finset.sum_congr rfl fun i _ => Finset.sum_congr rfl fun j _ => ?_
    beta_reduce
    rw [sqDist_expand, show -t * ((x.map fun p => p i ^ 2).sum + (x.map fun p => p j ^ 2).sum
      - 2 * (x.map fun p => p i * p j).sum) = -t * (x.map fun p => p i ^ 2).sum +
      (-t * (x.map fun p => p j ^ 2).sum + 2 * t * (x.map fun p => p i * p j).sum) by ring, Real.exp_add, Real.exp_add]
    ring
  rw [e]
  have hs : HasSum (fun n : Nat => (2 * t) ^ n / (n.factorial : ℝ) * qform s (fun i j => ((x.map fun p => p i * p j).sum) ^ n) b)
      (qform s (fun i j => Real.exp (2 * t * (x.map fun p => p i * p j).sum)) b) := by
    have : ∀ n : Nat, (2 * t) ^ n / (n.factorial : ℝ) * qform s (fun i j => ((x.map fun p => p i * p j).sum) ^ n) b =
        ∑ i ∈ s, ∑ j ∈ s, b i * b j * ((2 * t * (x.map fun p => p i * p j).sum) ^ n / (n.factorial : ℝ)) := by
      intro n
      unfold qform
      rw [Finset.mul_sum]
      refine Finset.sum_congr rfl fun i _ => ?_
      rw [Finset.mul_sum]
      refine Finset.sum_congr rfl fun j _ => ?_
      rw [mul_pow]
      ring
    simp only [this]
    refine hasSum_sum fun i _ => hasSum_sum fun j _ => HasSum.mul_left _ ?_
    rw [Real.exp_eq_exp_ℝ]
    exact NormedSpace.expSeries_div_hasSum_exp _
  exact hs.nonneg fun n => mul_nonneg (div_nonneg (pow_nonneg (by linarith) _) (by positivity)) (qform_pow x n b)

theorem gauss_tendsto {x : List (ι → ℝ)} (hx : ∀ i ∈ s, ∀ j ∈ s, i ≠ j → 0 < sqDist x i j) (h : ℝ) (a : ι → ℝ) :
    Tendsto (fun t => qform s (fun i j => Real.exp (-(t + h) * sqDist x i j)) a) atTop (𝓝 (∑ i ∈ s, a i ^ 2)) := by
  classical
  have e : ∑ i ∈ s, a i ^ 2 = ∑ i ∈ s, ∑ j ∈ s, a i * a j * (if i = j then 1 else 0) := by
    refine Finset.sum_congr rfl fun i hi => ?_
    rw [Finset.sum_eq_single_of_mem i hi]
    · rw [if_pos rfl]
      ring
    · intro j _ hne
      rw [if_neg hne.symm, mul_zero]
  rw [e]
  refine tendsto_finsetSum _ fun i hi => tendsto_finsetSum _ fun j hj => Tendsto.const_mul _ ?_
  by_cases hij : i = j
  · subst hij
    beta_reduce
    simp [sqDist_self]
  · rw [if_neg hij]
    refine Real.tendsto_exp_atBot.comp ?_
    refine Tendsto.atBot_mul_const (hx i hi j hj hij) ?_
    exact tendsto_neg_atTop_atBot.comp (tendsto_atTop_add_const_right _ _ tendsto_id)

theorem inner_pos {x : List (ι → ℝ)} (hx : ∀ i ∈ s, ∀ j ∈ s, i ≠ j → 0 < sqDist x i j) {h w : ℝ} (hh : 0 ≤ h) (hw : 0 < w)
    {a : ι → ℝ} (ha : ∃ i ∈ s, a i ≠ 0) :
    0 < qform s (fun i j => Real.exp (-h * sqDist x i j) / (w + sqDist x i j)) a := by
  have hneg : ∀ i j, -(w + sqDist x i j) < 0 := fun i j => by
    have := sqDist_nonneg x i j
    linarith
  have hint : ∀ i j, IntegrableOn (fun t => a i * a j * (Real.exp (-h * sqDist x i j) * Real.exp (-(w + sqDist x i j) * t)))
      (Set.Ioi (0 : ℝ)) := fun i j => ((integrableOn_exp_mul_Ioi (hneg i j) 0).const_mul _).const_mul _
  have e : qform s (fun i j => Real.exp (-h * sqDist x i j) / (w + sqDist x i j)) a =
      ∫ t in Set.Ioi (0 : ℝ), qform s (fun i j => Real.exp (-h * sqDist x i j) * Real.exp (-(w + sqDist x i j) * t)) a := by
    unfold qform
    rw [integral_finsetSum _ (fun i _ => integrable_finsetSum _ fun j _ => hint i j)]
    refine Finset.sum_congr rfl fun i _ => ?_
    rw [integral_finsetSum _ (fun j _ => hint i j)]
    refine Finset.sum_congr rfl fun j _ => ?_
    rw [integral_const_mul, integral_const_mul, integral_exp_mul_Ioi (hneg i j), mul_zero, Real.exp_zero, neg_div_neg_eq,
      mul_one_div]
  have e2 : ∀ t, qform s (fun i j => Real.exp (-h * sqDist x i j) * Real.exp (-(w + sqDist x i j) * t)) a =
      Real.exp (-w * t) * qform s (fun i j => Real.exp (-(t + h) * sqDist x i j)) a := by
    intro t
    unfold qform
    rw [Finset.mul_sum]
    refine Finset.sum_congr rfl fun i _ => ?_
    rw [Finset.mul_sum]
    refine Finset.sum_congr rfl fun j _ => ?_
    beta_reduce
    rw [← Real.exp_add, mul_left_comm, ← Real.exp_add]
    congr 2
    ring
  have nn : ∀ t ∈ Set.Ioi (0 : ℝ), 0 ≤ qform s (fun i j => Real.exp (-h * sqDist x i j) * Real.exp (-(w + sqDist x i j) * t)) a := by
    intro t ht
    rw [e2]
    exact mul_nonneg (Real.exp_pos _).le (gauss_nonneg x (add_nonneg (le_of_lt ht) hh) a)
  have sq : 0 < ∑ i ∈ s, a i ^ 2 := by
    obtain ⟨i, hi, h⟩ := ha
    exact Finset.sum_pos' (fun i _ => sq_nonneg _) ⟨i, hi, by positivity⟩
  obtain ⟨T, hT⟩ := eventually_atTop.1 ((gauss_tendsto hx h a).eventually (lt_mem_nhds sq))
  rw [e, setIntegral_pos_iff_support_of_nonneg_ae]
  · refine lt_of_lt_of_le (b := volume (Set.Ioi (max 0 T))) (by simp) (measure_mono fun t ht => ⟨?_, Set.mem_Ioi.2 (lt_of_le_of_lt (le_max_left _ _) (Set.mem_Ioi.1 ht))⟩)
    rw [Function.mem_support, e2]
    exact (mul_pos (Real.exp_pos _) (hT t (le_trans (le_max_right _ _) (le_of_lt ht)))).ne'
  · exact (ae_restrict_iff' measurableSet_Ioi).2 (Eventually.of_forall nn)
  · exact integrable_finsetSum _ fun i _ => integrable_finsetSum _ fun j _ => hint i j

end

theorem arctan_div_tendsto {c : ℝ} (hc : 0 < c) : Tendsto (fun v => Real.arctan (v / c)) atTop (𝓝 (Real.pi / 2)) :=
  (tendsto_nhds_of_tendsto_nhdsWithin Real.tendsto_arctan_atTop).comp (tendsto_id.atTop_div_const hc)

theorem arctan_div_deriv {c : ℝ} (hc : 0 < c) (v : ℝ) : HasDerivAt (fun v => Real.arctan (v / c)) (c / (v ^ 2 + c ^ 2)) v := by
  have := ((hasDerivAt_id v).div_const c).arctan
  refine this.congr_deriv ?_
  rw [id]
  field_simp
  ring

/-- A mixture of `1 / (v² + r²)`. -/
theorem mixture {r c : ℝ} (hr : 0 ≤ r) (hc : 0 < c) :
    IntegrableOn (fun v : ℝ => v ^ 2 / (v ^ 2 + c ^ 2) / (v ^ 2 + r ^ 2)) (Set.Ioi 0) ∧
    ∫ v in Set.Ioi (0 : ℝ), v ^ 2 / (v ^ 2 + c ^ 2) / (v ^ 2 + r ^ 2) = Real.pi / 2 * (1 / (r + c)) := by
  obtain ⟨F, F0, Fc, Fd, Fl⟩ : ∃ F : ℝ → ℝ, F 0 = 0 ∧ ContinuousWithinAt F (Set.Ici 0) 0 ∧
      (∀ v ∈ Set.Ioi (0 : ℝ), HasDerivAt F (v ^ 2 / (v ^ 2 + c ^ 2) / (v ^ 2 + r ^ 2)) v) ∧
      Tendsto F atTop (𝓝 (Real.pi / 2 * (1 / (r + c)))) := by
    rcases hr.eq_or_lt with rfl | hr
    · refine ⟨fun v => Real.arctan (v / c) / c, by simp, ?_, fun v hv => ?_, ?_⟩
      · exact ((arctan_div_deriv hc 0).div_const c).continuousAt.continuousWithinAt
      · have hv : (0 : ℝ) < v := hv
        refine ((arctan_div_deriv hc v).div_const c).congr_deriv ?_
        rw [zero_pow two_ne_zero, add_zero]
        field_simp
      · have := (arctan_div_tendsto hc).div_const c
        rwa [zero_add, mul_one_div]
    · by_cases h : r = c
      · subst h
        have hd : ∀ v : ℝ, HasDerivAt (fun v => Real.arctan (v / r) / (2 * r) - v / (2 * (v ^ 2 + r ^ 2)))
            (v ^ 2 / (v ^ 2 + r ^ 2) / (v ^ 2 + r ^ 2)) v := by
          intro v
          have hp : (v ^ 2 + r ^ 2) ≠ 0 := by positivity
          have h1 : HasDerivAt (fun v : ℝ => 2 * (v ^ 2 + r ^ 2)) (2 * (2 * v)) v := by
            simpa using (((hasDerivAt_id v).pow 2).add_const (r ^ 2)).const_mul 2
          refine (((arctan_div_deriv hc v).div_const (2 * r)).sub ((hasDerivAt_id v).div h1 (by positivity))).congr_deriv ?_
          simp only [id]
          field_simp
          ring
        refine ⟨fun v => Real.arctan (v / r) / (2 * r) - v / (2 * (v ^ 2 + r ^ 2)), by simp, ?_, fun v _ => hd v, ?_⟩
        · exact (hd 0).continuousAt.continuousWithinAt
        · have l1 : Tendsto (fun v : ℝ => v / (2 * (v ^ 2 + r ^ 2))) atTop (𝓝 0) := by
            refine squeeze_zero' (g := fun v => v⁻¹) ?_ ?_ tendsto_inv_atTop_zero
            · filter_upwards [eventually_gt_atTop 0] with v hv
              positivity
            · filter_upwards [eventually_gt_atTop 0] with v hv
              rw [div_le_iff₀ (by positivity), inv_mul_eq_div, le_div_iff₀ hv]
              nlinarith [sq_nonneg r, sq_nonneg v]
          have := ((arctan_div_tendsto hc).div_const (2 * r)).sub l1
          rwa [sub_zero, show Real.pi / 2 / (2 * r) = Real.pi / 2 * (1 / (r + r)) by ring] at this
      · have h1 : r ^ 2 - c ^ 2 ≠ 0 := by
          intro e
          have : (r - c) * (r + c) = 0 := by linarith
          rcases mul_eq_zero.1 this with e | e
          · exact h (by linarith)
          · linarith
        have hd : ∀ v : ℝ, HasDerivAt (fun v => (r * Real.arctan (v / r) - c * Real.arctan (v / c)) / (r ^ 2 - c ^ 2))
            (v ^ 2 / (v ^ 2 + c ^ 2) / (v ^ 2 + r ^ 2)) v := by
          intro v
          refine ((((arctan_div_deriv hr v).const_mul r).sub ((arctan_div_deriv hc v).const_mul c)).div_const _).congr_deriv ?_
          have hp : (v ^ 2 + r ^ 2) ≠ 0 := by positivity
          have hq : (v ^ 2 + c ^ 2) ≠ 0 := by positivity
          field_simp
          ring
        refine ⟨fun v => (r * Real.arctan (v / r) - c * Real.arctan (v / c)) / (r ^ 2 - c ^ 2), by simp, ?_, fun v _ => hd v, ?_⟩
        · exact (hd 0).continuousAt.continuousWithinAt
        · have := (((arctan_div_tendsto hr).const_mul r).sub ((arctan_div_tendsto hc).const_mul c)).div_const (r ^ 2 - c ^ 2)
          convert this using 2
          have : r + c ≠ 0 := by positivity
          field_simp
          ring
  have nn : ∀ v ∈ Set.Ioi (0 : ℝ), 0 ≤ v ^ 2 / (v ^ 2 + c ^ 2) / (v ^ 2 + r ^ 2) := fun v _ => by positivity
  refine ⟨integrableOn_Ioi_deriv_of_nonneg Fc Fd nn Fl, ?_⟩
  rw [integral_Ioi_of_hasDerivAt_of_nonneg Fc Fd nn Fl, F0, sub_zero]


/-- The kernels are positive definite on distinct points. -/
theorem kernel_form_pos {ι : Type} {s : Finset ι} {x : List (ι → ℝ)}
    (hx : ∀ i ∈ s, ∀ j ∈ s, i ≠ j → 0 < sqDist x i j) {h c : ℝ} (hh : 0 ≤ h) (hc : 0 < c)
    {a : ι → ℝ} (ha : ∃ i ∈ s, a i ≠ 0) :
    0 < qform s (fun i j => Real.exp (-h * sqDist x i j) / (√(sqDist x i j) + c)) a := by
  have hint : ∀ i j, IntegrableOn (fun v => a i * a j * (Real.exp (-h * sqDist x i j) *
      (v ^ 2 / (v ^ 2 + c ^ 2) / (v ^ 2 + √(sqDist x i j) ^ 2)))) (Set.Ioi (0 : ℝ)) :=
    fun i j => ((mixture (Real.sqrt_nonneg _) hc).1.const_mul _).const_mul _
  have e : Real.pi / 2 * qform s (fun i j => Real.exp (-h * sqDist x i j) / (√(sqDist x i j) + c)) a =
      ∫ v in Set.Ioi (0 : ℝ), qform s (fun i j => Real.exp (-h * sqDist x i j) *
        (v ^ 2 / (v ^ 2 + c ^ 2) / (v ^ 2 + √(sqDist x i j) ^ 2))) a := by
    unfold qform
    rw [integral_finsetSum _ (fun i _ => integrable_finsetSum _ fun j _ => hint i j), Finset.mul_sum]
    refine Finset.sum_congr rfl fun i _ => ?_
    rw [integral_finsetSum _ (fun j _ => hint i j), Finset.mul_sum]
    refine Finset.sum_congr rfl fun j _ => ?_
    rw [integral_const_mul, integral_const_mul, (mixture (Real.sqrt_nonneg _) hc).2]
    ring
  have pos : ∀ v ∈ Set.Ioi (0 : ℝ), 0 < qform s (fun i j => Real.exp (-h * sqDist x i j) *
        (v ^ 2 / (v ^ 2 + c ^ 2) / (v ^ 2 + √(sqDist x i j) ^ 2))) a := by
    intro v hv
    have hv : 0 < v := hv
    have : qform s (fun i j => Real.exp (-h * sqDist x i j) *
        (v ^ 2 / (v ^ 2 + c ^ 2) / (v ^ 2 + √(sqDist x i j) ^ 2))) a =
        v ^ 2 / (v ^ 2 + c ^ 2) * qform s (fun i j => Real.exp (-h * sqDist x i j) / (v ^ 2 + sqDist x i j)) a := by
      unfold qform
      rw [Finset.mul_sum]
      refine Finset.sum_congr rfl fun i _ => ?_
      rw [Finset.mul_sum]
      refine Finset.sum_congr rfl fun j _ => ?_
      beta_reduce
      rw [Real.sq_sqrt (sqDist_nonneg x i j)]
      ring
    rw [this]
    exact mul_pos (by positivity) (inner_pos hx hh (by positivity) ha)
  have : 0 < Real.pi / 2 * qform s (fun i j => Real.exp (-h * sqDist x i j) / (√(sqDist x i j) + c)) a := by
    rw [e, setIntegral_pos_iff_support_of_nonneg_ae]
    · refine lt_of_lt_of_le (b := volume (Set.Ioi (0 : ℝ))) (by simp) (measure_mono fun t ht => ⟨?_, ht⟩)
      exact (pos t ht).ne'
    · exact (ae_restrict_iff' measurableSet_Ioi).2 (Eventually.of_forall fun v hv => (pos v hv).le)
    · exact integrable_finsetSum _ fun i _ => integrable_finsetSum _ fun j _ => hint i j
  exact pos_of_mul_pos_right this (by positivity)

end Verif
