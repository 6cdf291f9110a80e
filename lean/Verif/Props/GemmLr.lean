import Verif.Props.Gemm

/-
C21: which tolerance or rank is used when a product of dense matrices is added to a
low-rank matrix.
-/

namespace Verif
open Finset

variable {R : Type} [CommRing R] [DecidableEq R]

/-- C21.  A product of dense matrices with a low-rank target: the product, entry by
entry, is compressed with the target's own tolerance, or to the target's own rank if
it has no tolerance, and added to the target scaled by `beta`. -/
theorem C21_dense_into_lowrank (o : LrOps R) (fuel : Nat) {a b : Dense R} {c : LowRank R} {C' : Mat R}
    {α β : R} {ta tb : Bool} (h : Mat.gemm o fuel (.dense a) (.dense b) (.lowRank c) α β ta tb = .ok C') :
    ∃ ab x l, (ab : Dense R).rows = c.dim0 ∧ ab.cols = c.dim1 ∧
      (∀ i < c.dim0, ∀ j < c.dim1, ab.val i j = α * ∑ k ∈ range (if ta then a.rows else a.cols),
        (if ta then a.val k i else a.val i k) * (if tb then b.val j k else b.val k j)) ∧
      (c.eps = 0 → o.ofRank ab c.rank = .ok x) ∧ (c.eps ≠ 0 → o.ofEps ab c.eps = .ok x) ∧
      o.add { c with S := ⟨c.S.rows, c.S.cols, fun i j => c.S.val i j * β⟩ } x = .ok l ∧ C' = .lowRank l := by
  have D := C21_gemm_dims o fuel h
  cases fuel with
  | zero => cases h
  | succ fuel =>
    simp only [Mat.gemm, Mat.gemmBoth, Mat.gemmOmm, Mat.gemmToLowRank, Mat.gemmDDLr, LrOps.addAssign,
      except_bind_eq_ok, assertM_eq_ok] at h
    obtain ⟨-, -, -, -, -, -, ab, hab, x, hx, l, ⟨-, -, -, -, hl⟩, h⟩ := h
    cases h
    obtain ⟨-, r0, r1, rv⟩ := Mat.Dense_gemmNew_spec hab
    refine ⟨ab, x, l, ?_, ?_, fun i _ j _ => ?_, fun he => ?_, fun he => ?_, ?_, rfl⟩
    · rw [r0, ← show (if ta then a.cols else a.rows) = c.dim0 from D.1]
      cases ta <;> rfl
    · rw [r1, ← show (if tb then b.rows else b.cols) = c.dim1 from D.2.2]
      cases tb <;> rfl
    · rw [rv]
      cases ta <;> cases tb <;> rfl
    · rwa [if_neg (not_not.2 he)] at hx
    · rwa [if_pos he] at hx
    · exact hl

/-- A target with rank 1 and no tolerance, and a product of rank 2. -/
example : ∃ C', Mat.gemm (exactOps ℤ) 3 (.dense ⟨2, 2, fun i j => i + j⟩) (.dense ⟨2, 2, fun i j => i + 2 * j⟩)
    (.lowRank ⟨2, 2, 1, 0, ⟨2, 1, fun _ _ => 1⟩, ⟨1, 1, fun _ _ => 1⟩, ⟨1, 2, fun _ _ => 1⟩⟩) 1 1 false false =
      .ok C' := by
  obtain ⟨C', h, -⟩ := okAnd_spec (x := Mat.gemm (exactOps ℤ) 3 (.dense ⟨2, 2, fun i j => i + j⟩)
    (.dense ⟨2, 2, fun i j => i + 2 * j⟩)
    (.lowRank ⟨2, 2, 1, 0, ⟨2, 1, fun _ _ => 1⟩, ⟨1, 1, fun _ _ => 1⟩, ⟨1, 2, fun _ _ => 1⟩⟩) 1 1 false false)
    (P := fun _ => true) (by decide +kernel)
  exact ⟨C', h⟩

end Verif
