import Verif.Lemmas.Svd
import Verif.Props.LrAdd
import Mathlib.LinearAlgebra.Matrix.NonsingularInverse

/-
C44 for `old_rsvd`: what it returns, and that its product is not the projection.
-/

namespace Verif
open Finset

variable {R : Type} [CommRing R]

/-- A square matrix with orthonormal columns has orthonormal rows. -/
theorem OrthoCols.rows {k : Nat} {u : Nat → Nat → R} (h : OrthoCols k k u) : OrthoRows k k u := by
  let M : Matrix (Fin k) (Fin k) R := fun a b => u a b
  have h1 : M.transpose * M = 1 := by
    ext a b
    rw [Matrix.mul_apply, Matrix.one_apply]
    have := h a a.2 b b.2
    rw [Finset.sum_range] at this
    refine Eq.trans (Eq.trans rfl this) ?_
    simp only [Fin.ext_iff]
  have h2 : M * M.transpose = 1 := mul_eq_one_comm.1 h1
  intro a ha b hb
  have := congrFun (congrFun h2 ⟨a, ha⟩) ⟨b, hb⟩
  rw [Matrix.mul_apply, Matrix.one_apply] at this
  rw [Finset.sum_range]
  refine Eq.trans (Eq.trans rfl this) ?_
  simp only [Fin.ext_iff]

namespace Lapack

/-- The matrix `A^T Q` in `old_rsvd`. -/
private def coeff (L : Lapack R) (A : Dense R) (k : Nat) : Dense R :=
  ⟨A.cols, k, mm A.rows (fun i j => A.val j i) (L.qr (L.sample A k) k).1⟩

/-- The triangular factor of `A^T Q`. -/
private def core (L : Lapack R) (A : Dense R) (k : Nat) : Dense R := ⟨k, k, (L.qr (L.coeff A k) k).2⟩

private theorem gemmNew_tt_eq {A B : Dense R} (h : A.rows = B.cols) :
    Dense.gemmNew A B 1 true true =
      .ok ⟨A.cols, B.rows, mm A.rows (fun i j => A.val j i) (fun i j => B.val j i)⟩ := by
  simp only [Dense.gemmNew, h, Dense.gemm, Dense.zero, assertM, decide_true, if_true, except_bind_ok,
    Dense.opVal, mul_zero, add_zero, one_mul]
  congr

private theorem oldRsvd_eq (L : Lapack R) (A : Dense R) (k : Nat) :
    L.oldRsvd A k = .ok
      (⟨A.rows, k, mm k (L.qr (L.sample A k) k).1 (fun i j => (L.svd (L.core A k)).1 j i)⟩,
       ⟨k, k, fun i j => if i = j then (L.svd (L.core A k)).2.1 i else 0⟩,
       ⟨k, A.cols, mm k (fun i j => (L.svd (L.core A k)).2.2 j i)
          (fun i j => (L.qr (L.coeff A k) k).1 j i)⟩) := by
  rw [oldRsvd, Dense.gemmNew_ff_eq (by rfl), except_bind_ok, qrInto_eq L rfl rfl rfl, except_bind_ok,
    Dense.gemmNew_tf_eq (by rfl), except_bind_ok, qrInto_eq L rfl rfl rfl, except_bind_ok]
  simp only [svdNew, min_self]
  rw [Dense.gemmNew_ft_eq (by rfl), except_bind_ok, gemmNew_tt_eq (by rfl), except_bind_ok]
  rfl

end Lapack

/-- C44 (`old_rsvd`).  For a sample size that is not larger than either dimension of `A`,
`old_rsvd` returns factors of the expected dimensions; the columns of `U` and the rows of
`V` are orthonormal and `S` is diagonal with the singular values of the projection
`Q * Q^T * A`: the latter is `U' * S * V'` for orthonormal `U'` and `V'`.  `U'` and `V'` are
not `U` and `V` (`C44_old_rsvd_wrong`). -/
theorem C44_old_rsvd {L : Lapack R} (hL : L.Factors) (hO : L.Ortho) (A : Dense R) {k : Nat}
    (hm : k ≤ A.rows) (hn : k ≤ A.cols) :
    ∃ (U S V : Dense R) (Y : Dense R), L.oldRsvd A k = .ok (U, S, V) ∧
      U.rows = A.rows ∧ U.cols = k ∧ S.rows = k ∧ S.cols = k ∧ V.rows = k ∧ V.cols = A.cols ∧
      Y.rows = A.rows ∧ Y.cols = k ∧
      (∀ i j, Y.val i j = ∑ p ∈ range A.cols, A.val i p * L.random A A.cols k p j) ∧
      OrthoCols A.rows k U.val ∧ OrthoRows A.cols k V.val ∧ (∀ a b, a ≠ b → S.val a b = 0) ∧
      OrthoCols A.rows k (L.qr Y k).1 ∧
      ∃ U' V' : Nat → Nat → R, OrthoCols A.rows k U' ∧ OrthoRows A.cols k V' ∧
        ∀ i < A.rows, ∀ j < A.cols, terms k U' (fun l => S.val l l) V' i j =
          ∑ l ∈ range k, (L.qr Y k).1 i l * ∑ p ∈ range A.rows, (L.qr Y k).1 p l * A.val p j := by
  have hq : OrthoCols A.rows k (L.qr (L.sample A k) k).1 := by
    have := hO.qr (L.sample A k)
    rwa [show min (L.sample A k).rows (L.sample A k).cols = k from min_eq_right hm] at this
  have hb : OrthoCols A.cols k (L.qr (L.coeff A k) k).1 := by
    have := hO.qr (L.coeff A k)
    rwa [show min (L.coeff A k).rows (L.coeff A k).cols = k from min_eq_right hn] at this
  have hu : OrthoCols k k (L.svd (L.core A k)).1 := by
    have := hO.svdU (L.core A k)
    rwa [show min (L.core A k).rows (L.core A k).cols = k from min_self k] at this
  have hv : OrthoRows k k (L.svd (L.core A k)).2.2 := by
    have := hO.svdV (L.core A k)
    rwa [show min (L.core A k).rows (L.core A k).cols = k from min_self k] at this
  have hv' : OrthoRows k k (fun i j => (L.svd (L.core A k)).2.2 j i) :=
    OrthoCols.rows (u := fun i j => (L.svd (L.core A k)).2.2 j i) hv
  have fb := hL.qr (L.coeff A k)
  rw [show min (L.coeff A k).rows (L.coeff A k).cols = k from min_eq_right hn] at fb
  have fs := hL.svd (L.core A k)
  rw [show min (L.core A k).rows (L.core A k).cols = k from min_self k] at fs
  refine ⟨_, _, _, L.sample A k, Lapack.oldRsvd_eq L A k, rfl, rfl, rfl, rfl, rfl, rfl, rfl, rfl,
    fun _ _ => rfl, Lapack.OrthoCols_mm hq (OrthoCols.rows hu), Lapack.OrthoRows_mm hb hv', fun a b h => if_neg h, hq,
    mm k (L.qr (L.sample A k) k).1 (fun i j => (L.svd (L.core A k)).2.2 j i),
    mm k (fun i j => (L.svd (L.core A k)).1 j i) (fun i j => (L.qr (L.coeff A k) k).1 j i),
    Lapack.OrthoCols_mm hq hv, Lapack.OrthoRows_mm hb hu, fun i hi j hj => ?_⟩
  have e : terms k (mm k (L.qr (L.sample A k) k).1 (fun i j => (L.svd (L.core A k)).2.2 j i))
      (L.svd (L.core A k)).2.1 (mm k (fun i j => (L.svd (L.core A k)).1 j i)
        (fun i j => (L.qr (L.coeff A k) k).1 j i)) i j =
      ∑ p ∈ range k, (L.qr (L.sample A k) k).1 i p * ∑ q ∈ range k, (L.qr (L.coeff A k) k).1 j q *
        terms k (L.svd (L.core A k)).1 (L.svd (L.core A k)).2.1 (L.svd (L.core A k)).2.2 q p := by
    simp only [terms, mm, Finset.mul_sum, Finset.sum_mul]
    rw [Finset.sum_comm, Finset.sum_congr rfl (fun q _ => Finset.sum_comm), Finset.sum_comm]
    exact Finset.sum_congr rfl fun _ _ => Finset.sum_congr rfl fun _ _ => Finset.sum_congr rfl fun _ _ => by ring
  simp only [if_true]
  rw [e]
  refine Finset.sum_congr rfl (fun p hp => ?_)
  have hp := Finset.mem_range.1 hp
  congr 1
  rw [Finset.sum_congr rfl (fun q hq => by rw [fs q (Finset.mem_range.1 hq) p hp])]
  refine (fb j hj p hp).trans ?_
  simp only [Lapack.coeff, mm]
  exact Finset.sum_congr rfl (fun _ _ => mul_comm _ _)

/-- The hypotheses can be met: a 3-by-2 matrix with sample size 2. -/
example : ∃ L : Lapack ℝ, L.Factors ∧ L.Ortho ∧ ∃ f, L.oldRsvd ⟨3, 2, fun i j => (i : ℝ) - j⟩ 2 = .ok f := by
  obtain ⟨L, hL, hO, -⟩ := Lapack.exists_contract
  obtain ⟨U, S, V, -, h, -⟩ := C44_old_rsvd hL hO ⟨3, 2, fun i j => (i : ℝ) - j⟩ (k := 2) (by decide) (by decide)
  exact ⟨L, hL, hO, _, h⟩

/-! ### the product is not the projection -/

section Wrong

/-- Entries of a 2-by-2 matrix. -/
private def two (a b c d : ℝ) (i j : Nat) : ℝ :=
  if i = 0 then (if j = 0 then a else b) else (if j = 0 then c else d)

/-- `A` is the 2-by-2 matrix with entries `f`. -/
private def IsTwo (A : Dense ℝ) (f : Nat → Nat → ℝ) : Prop :=
  A.rows = 2 ∧ A.cols = 2 ∧ ∀ i < 2, ∀ j < 2, A.val i j = f i j

private theorem lt_two {i : Nat} (h : i < 2) : i = 0 ∨ i = 1 := by omega

open Classical in
/-- Routines that factor the identity as `1 * 1`, `[42 44; 0 75]` as itself times one or as
the product of a rotation, `diag(90, 35)` and a rotation, and other matrices as `L` does. -/
private noncomputable def patch (L : Lapack ℝ) : Lapack ℝ :=
  { L with
    qr := fun A k => if IsTwo A (two 1 0 0 1) ∧ k = 2 then (two 1 0 0 1, two 1 0 0 1)
      else if IsTwo A (two 42 44 0 75) ∧ k = 2 then (two 1 0 0 1, two 42 44 0 75) else L.qr A k
    svd := fun A => if IsTwo A (two 42 44 0 75) then
        (two (3/5) (-4/5) (4/5) (3/5), fun l => if l = 0 then 90 else 35, two (7/25) (24/25) (-24/25) (7/25))
      else L.svd A
    random := fun _ _ _ => two (75/3150) 0 (-44/3150) (42/3150) }

private theorem patch_factors {L : Lapack ℝ} (h : L.Factors) : (patch L).Factors := by
  refine ⟨fun A i hi j hj => ?_, h.rq, fun A i hi j hj => ?_⟩
  · simp only [patch]
    split_ifs with h1 h2
    · obtain ⟨⟨r, c, e⟩, k⟩ := h1
      rw [k, e i (r ▸ hi) j (c ▸ hj)]
      rcases lt_two (r ▸ hi) with rfl | rfl <;> rcases lt_two (c ▸ hj) with rfl | rfl <;>
        simp [Finset.sum_range_succ, two]
    · obtain ⟨⟨r, c, e⟩, k⟩ := h2
      rw [k, e i (r ▸ hi) j (c ▸ hj)]
      rcases lt_two (r ▸ hi) with rfl | rfl <;> rcases lt_two (c ▸ hj) with rfl | rfl <;>
        simp [Finset.sum_range_succ, two]
    · exact h.qr A i hi j hj
  · simp only [patch]
    split_ifs with h1
    · obtain ⟨r, c, e⟩ := h1
      rw [e i (r ▸ hi) j (c ▸ hj), r, c]
      rcases lt_two (r ▸ hi) with rfl | rfl <;> rcases lt_two (c ▸ hj) with rfl | rfl <;>
        simp [terms, Finset.sum_range_succ, two] <;> norm_num
    · exact h.svd A i hi j hj

private theorem patch_ortho {L : Lapack ℝ} (h : L.Ortho) : (patch L).Ortho := by
  have one : OrthoCols 2 2 (two 1 0 0 1) := by
    intro a ha b hb
    rcases lt_two ha with rfl | rfl <;> rcases lt_two hb with rfl | rfl <;>
      simp [Finset.sum_range_succ, two]
  refine ⟨fun A => ?_, h.rq, fun A => ?_, fun A => ?_⟩
  · simp only [patch]
    split_ifs with h1 h2
    · rw [h1.2, h1.1.1]; exact one
    · rw [h2.2, h2.1.1]; exact one
    · exact h.qr A
  · simp only [patch]
    split_ifs with h1
    · rw [h1.1, h1.2.1]
      intro a ha b hb
      rcases lt_two ha with rfl | rfl <;> rcases lt_two hb with rfl | rfl <;>
        simp [Finset.sum_range_succ, two] <;> norm_num
    · exact h.svdU A
  · simp only [patch]
    split_ifs with h1
    · rw [h1.1, h1.2.1]
      intro a ha b hb
      rcases lt_two ha with rfl | rfl <;> rcases lt_two hb with rfl | rfl <;>
        simp [Finset.sum_range_succ, two] <;> norm_num
    · exact h.svdV A

private theorem patch_sorted {L : Lapack ℝ} (h : L.Sorted) : (patch L).Sorted := by
  refine ⟨fun A l hl => ?_, fun A l l' hl' hl => ?_⟩
  · simp only [patch]
    split_ifs with h1
    · show (0 : ℝ) ≤ if l = 0 then 90 else 35
      split_ifs <;> norm_num
    · exact h.nonneg A l hl
  · simp only [patch]
    split_ifs with h1
    · show (if l' = 0 then (90 : ℝ) else 35) ≤ if l = 0 then 90 else 35
      split_ifs with h2 h3 h3
      · rfl
      · omega
      · norm_num
      · rfl
    · exact h.anti A l l' hl' hl

/-- C44.  The product returned by `old_rsvd` can be wrong although the sample spans the whole
space, with routines that satisfy everything assumed of LAPACK: the two orthogonal factors of
the inner decomposition are exchanged (rsvd.cpp:60 and 62).  `rsvd` is exact on the same
matrix. -/
theorem C44_old_rsvd_wrong : ∃ (L : Lapack ℝ) (A U S V U' S' V' : Dense ℝ), L.Factors ∧ L.Ortho ∧ L.Sorted ∧
    A.rows = 2 ∧ A.cols = 2 ∧ L.oldRsvd A 2 = .ok (U, S, V) ∧ L.rsvd A 2 = .ok (U', S', V') ∧
    (∀ i < 2, ∀ j < 2, ∑ l ∈ range 2, (∑ p ∈ range 2, U'.val i p * S'.val p l) * V'.val l j = A.val i j) ∧
    ∑ l ∈ range 2, (∑ p ∈ range 2, U.val 0 p * S.val p l) * V.val l 1 ≠ A.val 0 1 := by
  obtain ⟨L, hL, hO, hS, -⟩ := Lapack.exists_contract
  let A : Dense ℝ := ⟨2, 2, two 42 0 44 75⟩
  have hL' := patch_factors hL
  have hO' := patch_ortho hO
  have h1 : IsTwo ((patch L).sample A 2) (two 1 0 0 1) := by
    refine ⟨rfl, rfl, fun i hi j hj => ?_⟩
    rcases lt_two hi with rfl | rfl <;> rcases lt_two hj with rfl | rfl <;>
      simp [Lapack.sample, mm, patch, A, Finset.sum_range_succ, two] <;> norm_num
  have q1 : (patch L).qr ((patch L).sample A 2) 2 = (two 1 0 0 1, two 1 0 0 1) := if_pos ⟨h1, rfl⟩
  have h2 : IsTwo ((patch L).coeff A 2) (two 42 44 0 75) := by
    refine ⟨rfl, rfl, fun i hi j hj => ?_⟩
    simp only [Lapack.coeff, q1]
    rcases lt_two hi with rfl | rfl <;> rcases lt_two hj with rfl | rfl <;>
      simp [mm, A, Finset.sum_range_succ, two]
  have q2 : (patch L).qr ((patch L).coeff A 2) 2 = (two 1 0 0 1, two 42 44 0 75) := by
    refine (if_neg ?_).trans (if_pos ⟨h2, rfl⟩)
    rintro ⟨⟨-, -, h⟩, -⟩
    have a := h2.2.2 0 (by omega) 0 (by omega)
    rw [h 0 (by omega) 0 (by omega)] at a
    simp [two] at a
  have h3 : IsTwo ((patch L).core A 2) (two 42 44 0 75) := by
    refine ⟨rfl, rfl, fun i hi j hj => ?_⟩
    simp only [Lapack.core, q2]
  have s3 : (patch L).svd ((patch L).core A 2) = (two (3/5) (-4/5) (4/5) (3/5),
      fun l => if l = 0 then 90 else 35, two (7/25) (24/25) (-24/25) (7/25)) := if_pos h3
  obtain ⟨U', S', V', -, hr, -⟩ := C44_rsvd hL' A 2
  refine ⟨patch L, A, _, _, _, U', S', V', hL', hO', patch_sorted hS, rfl, rfl, Lapack.oldRsvd_eq _ A 2, hr, ?_, ?_⟩
  · refine C44_rsvd_exact hL' hO' (A := A) (k := 2) (le_refl _) (two 42 0 44 75) (fun i hi j hj => ?_) hr
    have e : ∀ l ∈ range 2, (∑ p ∈ range A.cols, A.val i p * (patch L).random A A.cols 2 p l) *
        two 42 0 44 75 l j = two 1 0 0 1 i l * two 42 0 44 75 l j := fun l hl => by
      rw [← h1.2.2 i hi l (Finset.mem_range.1 hl)]; rfl
    rw [Finset.sum_congr rfl e]
    rcases lt_two hi with rfl | rfl <;> rcases lt_two hj with rfl | rfl <;>
      simp [A, Finset.sum_range_succ, two]
  · simp only [q1, q2, s3, A]
    simp [mm, Finset.sum_range_succ, two]
    norm_num

end Wrong

end Verif
