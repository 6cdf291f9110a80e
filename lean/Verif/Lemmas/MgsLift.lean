import Verif.Lemmas.MgsLoop
import Mathlib.LinearAlgebra.Matrix.ToLin
import Mathlib.LinearAlgebra.FiniteDimensional.Basic
import Mathlib.Tactic.Abel

/-!
Block Gram-Schmidt QR: inner products of block columns, and how the rows of a block
are made of the rows of its split parts.
-/

set_option linter.unusedSectionVars false
set_option linter.unusedVariables false

namespace Verif
open Finset

/-! ### inner products -/

section
variable {R : Type} [CommRing R]

/-- Inner product of two vectors with `p` parts of lengths `h`. -/
def gdot (p : Nat) (h : Nat → Nat) (u v : Nat → Nat → R) : R :=
  ∑ i ∈ range p, ∑ x ∈ range (h i), u i x * v i x

theorem gdot_congr {p : Nat} {h : Nat → Nat} {u u' v v' : Nat → Nat → R} (hu : ∀ i < p, ∀ x < h i, u i x = u' i x)
    (hv : ∀ i < p, ∀ x < h i, v i x = v' i x) : gdot p h u v = gdot p h u' v' := by
  refine Finset.sum_congr rfl (fun i hi => Finset.sum_congr rfl (fun x hx => ?_))
  rw [hu i (Finset.mem_range.1 hi) x (Finset.mem_range.1 hx), hv i (Finset.mem_range.1 hi) x (Finset.mem_range.1 hx)]

theorem gdot_comm (p : Nat) (h : Nat → Nat) (u v : Nat → Nat → R) : gdot p h u v = gdot p h v u :=
  Finset.sum_congr rfl (fun i _ => Finset.sum_congr rfl (fun x _ => mul_comm _ _))

theorem gdot_sum {ι : Type} (p : Nat) (h : Nat → Nat) (u : Nat → Nat → R) (S : Finset ι) (v : ι → Nat → Nat → R)
    (c : ι → R) : gdot p h u (fun i x => ∑ s ∈ S, v s i x * c s) = ∑ s ∈ S, gdot p h u (v s) * c s := by
  simp only [gdot, Finset.mul_sum, Finset.sum_mul]
  rw [Finset.sum_comm' (s := S) (t := fun _ => range p) (s' := fun _ => S) (t' := range p) (fun _ _ => Iff.rfl)]
  refine Finset.sum_congr rfl (fun i _ => ?_)
  rw [Finset.sum_comm]
  simp only [mul_assoc]

theorem gdot_add (p : Nat) (h : Nat → Nat) (u v v' : Nat → Nat → R) :
    gdot p h u (fun i x => v i x + v' i x) = gdot p h u v + gdot p h u v' := by
  simp only [gdot, mul_add, Finset.sum_add_distrib]

end

/-! ### independent columns -/

/-- If `A = M * T` and the columns of `A` are independent, then so are those of `M`,
and `T` has full rank. -/
theorem inj_of_factor {K : Type} [Field K] {ι ρ : Type} [DecidableEq ι] (S : Finset ι) (P : ρ → Prop)
    {A M : ρ → ι → K} {T : ι → ι → K} (h : ∀ r, P r → ∀ i ∈ S, A r i = ∑ k ∈ S, M r k * T k i)
    (hA : ∀ c : ι → K, (∀ r, P r → ∑ i ∈ S, A r i * c i = 0) → ∀ i ∈ S, c i = 0) :
    (∀ c : ι → K, (∀ r, P r → ∑ i ∈ S, M r i * c i = 0) → ∀ i ∈ S, c i = 0) ∧
      ∀ b : ι → K, ∃ v : ι → K, ∀ k ∈ S, ∑ i ∈ S, T k i * v i = b k := by
  let f : (S → K) →ₗ[K] (S → K) := Matrix.mulVecLin (Matrix.of (fun a b : S => T a b))
  have hf : ∀ (v : S → K) (k : S), f v k = ∑ i : S, T k i * v i := fun v k => rfl
  let ext : (S → K) → ι → K := fun v i => if hi : i ∈ S then v ⟨i, hi⟩ else 0
  have he : ∀ (g : ι → K) (v : S → K), ∑ i ∈ S, g i * ext v i = ∑ i : S, g i * v i := by
    intro g v
    rw [← Finset.sum_coe_sort S (fun i => g i * ext v i)]
    refine Finset.sum_congr rfl (fun i _ => ?_)
    have : ext v i = v i := dif_pos i.2
    rw [this]
  have hAM : ∀ (r : ρ), P r → ∀ c : ι → K, ∑ i ∈ S, A r i * c i = ∑ k ∈ S, M r k * ∑ i ∈ S, T k i * c i := by
    intro r hr c
    rw [Finset.sum_congr rfl (fun i hi => by rw [h r hr i hi, Finset.sum_mul]), Finset.sum_comm]
    simp only [Finset.mul_sum, mul_assoc]
  have inj : Function.Injective f := by
    rw [← LinearMap.ker_eq_bot, LinearMap.ker_eq_bot']
    intro v hv
    have := hA (ext v) (fun r hr => by
      rw [hAM r hr]
      refine Finset.sum_eq_zero (fun k hk => ?_)
      rw [he, show ∑ i : S, T k i * v i = f v ⟨k, hk⟩ from rfl, hv]
      simp)
    funext i
    have h1 := this i i.2
    rwa [show ext v i = v i from dif_pos i.2] at h1
  have sur : Function.Surjective f := LinearMap.injective_iff_surjective.1 inj
  have hs : ∀ b : ι → K, ∃ v : ι → K, ∀ k ∈ S, ∑ i ∈ S, T k i * v i = b k := by
    intro b
    obtain ⟨v, hv⟩ := sur (fun k => b k)
    refine ⟨ext v, fun k hk => ?_⟩
    rw [he, show ∑ i : S, T k i * v i = f v ⟨k, hk⟩ from rfl, hv]
  refine ⟨fun c hc => ?_, hs⟩
  obtain ⟨v, hv⟩ := hs c
  have hz := hA v (fun r hr => by
    rw [hAM r hr, Finset.sum_congr rfl (fun k hk => by rw [hv k hk])]
    exact hc r hr)
  intro i hi
  rw [← hv i hi]
  exact Finset.sum_eq_zero (fun k hk => by rw [hz k hk, mul_zero])

/-! ### rows of a block and of its parts -/

namespace Mat
variable {R : Type} [CommRing R]

/-- Heights of the block rows that a block takes in the split block column. -/
def partH (M : Mat R) (a : Nat) : Nat :=
  match M with
  | .dense d => d.rows
  | .lowRank l => l.rank
  | .hier _ _ blk => (blk a 0).nRows
  | .empty _ _ => 0

/-- A column of a block made of the columns `v a` of its split parts. -/
def liftRow (M : Mat R) (v : Nat → Nat → R) (x : Nat) : R :=
  match M with
  | .dense _ => v 0 x
  | .lowRank l => ∑ t ∈ range l.rank, l.U.val x t * v 0 t
  | .hier br _ blk => v (locate (fun a => (blk a 0).nRows) br x).1 (locate (fun a => (blk a 0).nRows) br x).2
  | .empty _ _ => 0

theorem liftRow_congr {M : Mat R} {v v' : Nat → Nat → R} (h : ∀ a < rowsOf M, ∀ x < partH M a, v a x = v' a x)
    {x : Nat} (hx : x < M.nRows) : liftRow M v x = liftRow M v' x := by
  cases M with
  | dense d => exact h 0 (by simp [rowsOf]) x hx
  | lowRank l =>
    exact Finset.sum_congr rfl (fun t ht => by rw [h 0 (by simp [rowsOf]) t (Finset.mem_range.1 ht)])
  | hier br bc blk =>
    rw [nRows_hier] at hx
    obtain ⟨h1, h2, -⟩ := locate_spec _ _ _ hx
    exact h _ h1 _ h2
  | empty => rfl

theorem liftRow_sum {ι : Type} (M : Mat R) (S : Finset ι) (v : ι → Nat → Nat → R) (c : ι → R) (x : Nat) :
    liftRow M (fun a u => ∑ s ∈ S, v s a u * c s) x = ∑ s ∈ S, liftRow M (v s) x * c s := by
  cases M with
  | dense d => rfl
  | lowRank l =>
    simp only [liftRow, Finset.mul_sum, Finset.sum_mul]
    rw [Finset.sum_comm]
    simp only [mul_assoc]
  | hier br bc blk => rfl
  | empty => simp [liftRow]

theorem liftRow_zero (M : Mat R) (x : Nat) : liftRow M (fun _ _ => 0) x = 0 := by
  cases M <;> simp [liftRow]

/-- Orthonormal columns keep inner products. -/
theorem ortho_dot {m k : Nat} {u : Nat → Nat → R} (hu : OrthoCols m k u) (v v' : Nat → R) :
    ∑ x ∈ range m, (∑ t ∈ range k, u x t * v t) * (∑ t ∈ range k, u x t * v' t) = ∑ t ∈ range k, v t * v' t := by
  simp only [Finset.sum_mul_sum]
  rw [Finset.sum_comm]
  refine Finset.sum_congr rfl (fun a ha => ?_)
  rw [Finset.sum_comm, Finset.sum_eq_single a]
  · have := hu a (Finset.mem_range.1 ha) a (Finset.mem_range.1 ha)
    rw [if_pos rfl] at this
    rw [← one_mul (v a * v' a), ← this, Finset.sum_mul]
    exact Finset.sum_congr rfl (fun x _ => by ring)
  · intro b hb hab
    have := hu a (Finset.mem_range.1 ha) b (Finset.mem_range.1 hb)
    rw [if_neg (Ne.symm hab)] at this
    rw [← zero_mul (v a * v' b), ← this, Finset.sum_mul]
    exact Finset.sum_congr rfl (fun x _ => by ring)
  · intro h
    exact absurd ha h

theorem liftRow_dot {M : Mat R} (hM : M.WF) (ho : M.All LowRank.LeftOrth) (hE : ∀ r c, M ≠ .empty r c)
    (v v' : Nat → Nat → R) :
    ∑ x ∈ range M.nRows, liftRow M v x * liftRow M v' x =
      ∑ a ∈ range (rowsOf M), ∑ x ∈ range (partH M a), v a x * v' a x := by
  cases M with
  | dense d => simp only [rowsOf, Finset.sum_range_one]; rfl
  | lowRank l =>
    simp only [rowsOf, Finset.sum_range_one]
    exact ortho_dot ho (v 0) (v' 0)
  | hier br bc blk =>
    rw [nRows_hier, sum_blocks]
    refine Finset.sum_congr rfl (fun a ha => Finset.sum_congr rfl (fun x hx => ?_))
    simp only [liftRow]
    rw [locate_at (fun a => (blk a 0).nRows) br a x (Finset.mem_range.1 ha) (Finset.mem_range.1 hx)]
  | empty r c => exact absurd rfl (hE r c)

end Mat
end Verif
