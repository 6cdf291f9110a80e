import Verif.Spec.Qr
import Mathlib.LinearAlgebra.Matrix.NonsingularInverse
import Mathlib.Tactic.NoncommRing
import Mathlib.Tactic.Abel

/-!
Block reflectors on columns that are indexed by any finite set.
-/

set_option linter.unusedSectionVars false

namespace Verif
open Finset

variable {R ι : Type} [CommRing R] [DecidableEq ι]

/-- `(I - Y T Y^T) x` with `Y` indexed by `D` and `n` columns. -/
def refl (D : Finset ι) (n : Nat) (Y : ι → Nat → R) (T : Nat → Nat → R) (x : ι → R) (i : ι) : R :=
  x i - ∑ a ∈ range n, Y i a * ∑ b ∈ range n, T a b * ∑ l ∈ D, Y l b * x l

/-- Transposed entry function. -/
def tr (T : Nat → Nat → R) (a b : Nat) : R := T b a

/-- The reflector and its transpose are inverse to each other, on columns. -/
def ReflOrth (D : Finset ι) (n : Nat) (Y : ι → Nat → R) (T : Nat → Nat → R) : Prop :=
  ∀ x : ι → R, ∀ i ∈ D, refl D n Y T (refl D n Y (tr T) x) i = x i ∧
    refl D n Y (tr T) (refl D n Y T x) i = x i

section matrix

/-- Restriction to the index set as a matrix. -/
def rmat (D : Finset ι) (n : Nat) (Y : ι → Nat → R) : Matrix D (Fin n) R := fun i a => Y i a

/-- Square matrix of an entry function. -/
def sqm (n : Nat) (T : Nat → Nat → R) : Matrix (Fin n) (Fin n) R := fun a b => T a b

/-- The reflector as a matrix. -/
def reflm (D : Finset ι) (n : Nat) (Y : ι → Nat → R) (T : Nat → Nat → R) : Matrix D D R :=
  1 - rmat D n Y * sqm n T * (rmat D n Y).transpose

theorem refl_eq (D : Finset ι) (n : Nat) (Y : ι → Nat → R) (T : Nat → Nat → R) (x : ι → R) (i : D) :
    refl D n Y T x i = (reflm D n Y T).mulVec (fun l => x l) i := by
  unfold reflm
  rw [Matrix.sub_mulVec, Matrix.one_mulVec, Matrix.mul_assoc, ← Matrix.mulVec_mulVec,
    ← Matrix.mulVec_mulVec]
  simp only [Pi.sub_apply, refl]
  congr 1
  simp only [Matrix.mulVec, dotProduct, rmat, sqm, Matrix.transpose_apply]
  rw [Finset.sum_range (fun a => Y i a * ∑ b ∈ range n, T a b * ∑ l ∈ D, Y l b * x l)]
  refine Finset.sum_congr rfl (fun a _ => ?_)
  congr 1
  rw [Finset.sum_range (fun b => T a b * ∑ l ∈ D, Y l b * x l)]
  refine Finset.sum_congr rfl (fun b _ => ?_)
  congr 1
  exact (Finset.sum_coe_sort D (fun l => Y l b * x l)).symm

theorem refl_congr {D : Finset ι} {n : Nat} {Y Y' : ι → Nat → R} {T T' : Nat → Nat → R}
    {x x' : ι → R} (hY : ∀ i ∈ D, ∀ a < n, Y i a = Y' i a) (hT : ∀ a < n, ∀ b < n, T a b = T' a b)
    (hx : ∀ i ∈ D, x i = x' i) : ∀ i ∈ D, refl D n Y T x i = refl D n Y' T' x' i := by
  intro i hi
  unfold refl
  rw [hx i hi]
  congr 1
  refine Finset.sum_congr rfl (fun a ha => ?_)
  have ha := Finset.mem_range.1 ha
  rw [hY i hi a ha]
  congr 1
  refine Finset.sum_congr rfl (fun b hb => ?_)
  have hb := Finset.mem_range.1 hb
  rw [hT a ha b hb]
  congr 1
  exact Finset.sum_congr rfl (fun l hl => by rw [hY l hl b hb, hx l hl])

theorem sqm_tr (n : Nat) (T : Nat → Nat → R) : sqm n (tr T) = (sqm n T).transpose := rfl

theorem reflm_tr (D : Finset ι) (n : Nat) (Y : ι → Nat → R) (T : Nat → Nat → R) :
    reflm D n Y (tr T) = (reflm D n Y T).transpose := by
  unfold reflm
  rw [sqm_tr, Matrix.transpose_sub, Matrix.transpose_one, Matrix.transpose_mul, Matrix.transpose_mul,
    Matrix.transpose_transpose, Matrix.mul_assoc]

theorem reflOrth_of {D : Finset ι} {n : Nat} {Y : ι → Nat → R} {T : Nat → Nat → R}
    (h : (reflm D n Y T) * (reflm D n Y T).transpose = 1) : ReflOrth D n Y T := by
  have h' : (reflm D n Y T).transpose * (reflm D n Y T) = 1 := mul_eq_one_comm.1 h
  intro x i hi
  have e : ∀ (A B : Nat → Nat → R), (reflm D n Y A) * (reflm D n Y B) = 1 →
      refl D n Y A (refl D n Y B x) i = x i := by
    intro A B hAB
    have := refl_eq D n Y A (refl D n Y B x) ⟨i, hi⟩
    simp only at this
    rw [this]
    have e2 : (fun l : D => refl D n Y B x l) = (reflm D n Y B).mulVec (fun l => x l) :=
      funext (fun l => refl_eq D n Y B x l)
    rw [e2, Matrix.mulVec_mulVec, hAB, Matrix.one_mulVec]
  exact ⟨e _ _ (by rw [reflm_tr]; exact h), e _ _ (by rw [reflm_tr]; exact h')⟩

/-- A reflector on `range m`. -/
theorem reflm_range (m n : Nat) (V T : Nat → Nat → R) (i j : range m) :
    reflm (range m) n V T i j = reflector n V T i j := by
  simp only [reflm, Matrix.sub_apply, reflector, Matrix.one_apply, Subtype.ext_iff]
  congr 1
  rw [Matrix.mul_assoc, Matrix.mul_apply]
  rw [Finset.sum_range (fun a => V i a * ∑ b ∈ range n, T a b * V j b)]
  refine Finset.sum_congr rfl (fun a _ => ?_)
  simp only [rmat, Matrix.mul_apply, sqm, Matrix.transpose_apply]
  congr 1
  exact (Finset.sum_range (fun b => T a b * V j b)).symm

theorem reflm_orth {m n : Nat} {V T : Nat → Nat → R} (h : Orthogonal m (reflector n V T)) :
    (reflm (range m) n V T) * (reflm (range m) n V T).transpose = 1 := by
  ext i j
  rw [Matrix.mul_apply, Matrix.one_apply]
  simp only [Matrix.transpose_apply, reflm_range, Subtype.ext_iff]
  rw [Finset.sum_coe_sort (range m) (fun l => reflector n V T i l * reflector n V T j l)]
  exact (h i (Finset.mem_range.1 i.2) j (Finset.mem_range.1 j.2)).2

/-- Orthogonality carries over to a reflector that is multiplied from the left with
orthonormal columns `W`. -/
theorem reflOrth_lift {D : Finset ι} {m n : Nat} {V T : Nat → Nat → R} {W : ι → Nat → R}
    {Y : ι → Nat → R} (h : Orthogonal m (reflector n V T))
    (hW : ∀ c < m, ∀ d < m, ∑ i ∈ D, W i c * W i d = if c = d then 1 else 0)
    (hY : ∀ i ∈ D, ∀ a < n, Y i a = ∑ c ∈ range m, W i c * V c a) : ReflOrth D n Y T := by
  apply reflOrth_of
  let Wm : Matrix D (range m) R := fun i c => W i c
  have hW' : Wm.transpose * Wm = 1 := by
    ext c d
    rw [Matrix.mul_apply, Matrix.one_apply]
    simp only [Subtype.ext_iff]
    have e : ∑ x, Wm.transpose c x * Wm x d = ∑ x : D, W x c * W x d := rfl
    rw [e, Finset.sum_coe_sort D (fun i => W i c * W i d)]
    exact hW c (Finset.mem_range.1 c.2) d (Finset.mem_range.1 d.2)
  have hY' : rmat D n Y = Wm * rmat (range m) n V := by
    ext i a
    rw [Matrix.mul_apply]
    simp only [rmat, Wm]
    rw [hY i i.2 a a.2]
    exact (Finset.sum_coe_sort (range m) (fun c => W i c * V c a)).symm
  have h1 := reflm_orth h
  unfold reflm at h1 ⊢
  rw [hY']
  set V' := rmat (range m) n V
  set S := sqm n T
  simp only [Matrix.transpose_sub, Matrix.transpose_one, Matrix.transpose_mul,
    Matrix.transpose_transpose] at h1 ⊢
  have key : (1 - Wm * V' * S * (V'.transpose * Wm.transpose)) *
      (1 - Wm * V' * (S.transpose * (V'.transpose * Wm.transpose))) =
      1 - Wm * (1 - (1 - V' * S * V'.transpose) * (1 - V' * (S.transpose * V'.transpose))) *
        Wm.transpose := by
    have e : Wm * V' * S * (V'.transpose * Wm.transpose) *
        (Wm * V' * (S.transpose * (V'.transpose * Wm.transpose))) =
        Wm * V' * S * V'.transpose * V' * S.transpose * V'.transpose * Wm.transpose := by
      calc _ = Wm * V' * S * V'.transpose * (Wm.transpose * Wm) * V' * S.transpose * V'.transpose *
            Wm.transpose := by simp only [Matrix.mul_assoc]
        _ = _ := by rw [hW', Matrix.mul_one]
    rw [Matrix.sub_mul, Matrix.mul_sub, Matrix.mul_sub, e]
    simp only [Matrix.sub_mul, Matrix.mul_sub, Matrix.one_mul, Matrix.mul_one, Matrix.mul_assoc]
    abel
  rw [key, h1]
  simp

/-- Applying the lifted reflector to a lifted column. -/
theorem refl_lift {D : Finset ι} {m n : Nat} {V T : Nat → Nat → R} {W : ι → Nat → R}
    {Y : ι → Nat → R} {z : Nat → R} {x : ι → R}
    (hW : ∀ c < m, ∀ d < m, ∑ i ∈ D, W i c * W i d = if c = d then 1 else 0)
    (hY : ∀ i ∈ D, ∀ a < n, Y i a = ∑ c ∈ range m, W i c * V c a)
    (hx : ∀ i ∈ D, x i = ∑ c ∈ range m, W i c * z c) :
    ∀ i ∈ D, refl D n Y T x i = ∑ c ∈ range m, W i c * refl (range m) n V T z c := by
  intro i hi
  have inner : ∀ b < n, ∑ l ∈ D, Y l b * x l = ∑ c ∈ range m, V c b * z c := by
    intro b hb
    calc ∑ l ∈ D, Y l b * x l
        = ∑ l ∈ D, ∑ c ∈ range m, ∑ d ∈ range m, (W l c * W l d) * (V c b * z d) := by
          refine Finset.sum_congr rfl (fun l hl => ?_)
          rw [hY l hl b hb, hx l hl, Finset.sum_mul_sum]
          exact Finset.sum_congr rfl (fun c _ => Finset.sum_congr rfl (fun d _ => by ring))
      _ = ∑ c ∈ range m, ∑ d ∈ range m, (∑ l ∈ D, W l c * W l d) * (V c b * z d) := by
          rw [Finset.sum_comm]
          refine Finset.sum_congr rfl (fun c _ => ?_)
          rw [Finset.sum_comm]
          exact Finset.sum_congr rfl (fun d _ => by rw [Finset.sum_mul])
      _ = ∑ c ∈ range m, V c b * z c := by
          refine Finset.sum_congr rfl (fun c hc => ?_)
          rw [Finset.sum_eq_single c]
          · rw [hW c (Finset.mem_range.1 hc) c (Finset.mem_range.1 hc)]; simp
          · intro d hd hne
            rw [hW c (Finset.mem_range.1 hc) d (Finset.mem_range.1 hd), if_neg (Ne.symm hne), zero_mul]
          · intro h; exact absurd hc h
  unfold refl
  simp only [mul_sub, Finset.sum_sub_distrib]
  rw [hx i hi]
  congr 1
  have e1 : ∀ a ∈ range n, Y i a * ∑ b ∈ range n, T a b * ∑ l ∈ D, Y l b * x l =
      ∑ c ∈ range m, W i c * (V c a * ∑ b ∈ range n, T a b * ∑ l ∈ range m, V l b * z l) := by
    intro a ha
    rw [hY i hi a (Finset.mem_range.1 ha), Finset.sum_mul]
    refine Finset.sum_congr rfl (fun c _ => ?_)
    rw [mul_assoc]
    congr 2
    exact Finset.sum_congr rfl (fun b hb => by rw [inner b (Finset.mem_range.1 hb)])
  rw [Finset.sum_congr rfl e1, Finset.sum_comm]
  exact Finset.sum_congr rfl (fun c _ => by rw [Finset.mul_sum])

/-- The transposed reflector applied to a column. -/
theorem refl_range {m n : Nat} {V T : Nat → Nat → R} {z : Nat → R} {i : Nat} (hi : i < m) :
    refl (range m) n V (tr T) z i = ∑ l ∈ range m, reflector n V T l i * z l := by
  have := refl_eq (range m) n V (tr T) z ⟨i, Finset.mem_range.2 hi⟩
  simp only at this
  rw [this, reflm_tr]
  simp only [Matrix.mulVec, dotProduct, Matrix.transpose_apply, reflm_range]
  exact Finset.sum_coe_sort (range m) (fun l => reflector n V T l i * z l)

end matrix
end Verif
