import Verif.Lemmas.SameOps
import Verif.Lemmas.Doolittle
import Verif.Spec.Lapack

/-
C73: the result of an operation depends on what its operands store and on nothing else.  Two
operands are alike when they have the same structure, dimensions, ranks, tolerances and entries
(`Mat.Same`).  In the model a `Dense` holds a function of any two indices, so these theorems also
say that no number outside the dimensions of a matrix reaches a result: every element the model
reads is one that the matrix has.
-/

namespace Verif
open Finset

variable {R : Type}

/-- **C73**: the low-rank operations of the library, for all three ways of adding. -/
theorem C73_lowRank [CommRing R] [DecidableEq R] {L : Lapack R} (hL : L.Local) (mode : LraMode)
    (fuel : Nat) : (L.ops mode fuel).Local := hL.ops mode fuel

section
variable [CommRing R] [DecidableEq R] {o : LrOps R} (ho : o.Local) (fuel : Nat)
include ho

/-- **C73**: `gemm(A, B, C, alpha, beta, TransA, TransB)`. -/
theorem C73_gemm {A A' B B' C C' : Mat R} (hA : A.Same A') (hB : B.Same B') (hC : C.Same C')
    (kA : A.HasBlocks) (kB : B.HasBlocks) (kC : C.HasBlocks) (α β : R) (ta tb : Bool) :
    Both Mat.Same (Mat.gemm o fuel A B C α β ta tb) (Mat.gemm o fuel A' B' C' α β ta tb) :=
  ((Mat.gemmBoth_alike ho fuel).1 _ _ _ _ _ _ _ _ _ _ hA hB hC kA kB kC).mono (fun _ _ h => h.1)

/-- **C73**: `gemm(A, B, alpha, TransA, TransB)` returning a new matrix. -/
theorem C73_gemm_new {A A' B B' : Mat R} (hA : A.Same A') (hB : B.Same B') (kA : A.HasBlocks)
    (kB : B.HasBlocks) (α : R) (ta tb : Bool) :
    Both Mat.Same (Mat.gemmNew o fuel A B α ta tb) (Mat.gemmNew o fuel A' B' α ta tb) :=
  ((Mat.gemmBoth_alike ho fuel).2 _ _ _ _ _ _ _ hA hB kA kB).mono (fun _ _ h => h.1)

/-- **C73**: `trmm`. -/
theorem C73_trmm {A A' B B' : Mat R} (hA : A.Same A') (hB : B.Same B') (kA : A.HasBlocks)
    (kB : B.HasBlocks) (side : Side) (uplo : Uplo) (tr unit : Bool) (α : R) :
    Both Mat.Same (Mat.trmm o fuel A B side uplo tr unit α) (Mat.trmm o fuel A' B' side uplo tr unit α) :=
  (Mat.same_trmmWith (Mat.gemmBoth_alike ho fuel).1 side uplo tr unit α fuel _ _ _ _ hA hB kA kB).mono
    (fun _ _ h => h.1)

omit [DecidableEq R] in
/-- **C73**: `+=`. -/
theorem C73_add {A A' B B' : Mat R} (hA : A.Same A') (hB : B.Same B') (kA : A.HasBlocks) :
    Both Mat.Same (A.addAssign o B) (A'.addAssign o B') :=
  (Mat.same_addAssign ho hA hB kA).mono (fun _ _ h => h.1)

end

section
variable [Field R] [DecidableEq R] {o : LrOps R} (ho : o.Local) (fuel : Nat)
include ho

/-- **C73**: `trsm`. -/
theorem C73_trsm {A A' B B' : Mat R} (hA : A.Same A') (hB : B.Same B') (kA : A.HasBlocks)
    (kB : B.HasBlocks) (uplo : Uplo) (side : Side) :
    Both Mat.Same (Mat.trsm o fuel A B uplo side) (Mat.trsm o fuel A' B' uplo side) :=
  (Mat.same_trsmWith (Mat.gemmBoth_alike ho fuel).1 uplo side fuel _ _ _ _ hA hB kA kB).mono
    (fun _ _ h => h.1)

/-- **C73**: `getrf`: both factors and the record of interchanges. -/
theorem C73_getrf {lu : Dense R → Dense R × Bool} (hlu : LuLocal lu) {A A' : Mat R} (hA : A.Same A')
    (kA : A.HasBlocks) :
    Both (fun x x' => x.1.Same x'.1 ∧ x.2.1.Same x'.2.1 ∧ x.2.2 = x'.2.2) (Mat.getrf lu o fuel A)
      (Mat.getrf lu o fuel A') :=
  (Mat.same_getrfWith (Mat.gemmBoth_alike ho fuel).1
    (fun _ _ _ _ h1 h2 h3 h4 => Mat.same_trsmWith (Mat.gemmBoth_alike ho fuel).1 .upper .right fuel _ _ _ _ h1 h2 h3 h4)
    (fun _ _ _ _ h1 h2 h3 h4 => Mat.same_trsmWith (Mat.gemmBoth_alike ho fuel).1 .lower .left fuel _ _ _ _ h1 h2 h3 h4)
    hlu fuel hA kA).mono (fun _ _ h => ⟨h.1.1, h.2.1.1, h.2.2⟩)

end

/-- **C73**: scaling. -/
theorem C73_scale [CommRing R] {A A' : Mat R} (hA : A.Same A') (β : R) :
    Both Mat.Same (A.scale β) (A'.scale β) :=
  (Mat.same_scale hA β).mono (fun _ _ h => h.1)

/-- **C73**: conversion to a dense matrix. -/
theorem C73_toDense [CommRing R] {A A' : Mat R} (hA : A.Same A') (kA : A.HasBlocks) :
    Both Dense.Same A.toDense A'.toDense := Mat.same_denseOf hA kA

/-- **C73**: `transpose`. -/
theorem C73_transpose [Zero R] {A A' : Mat R} (hA : A.Same A') :
    Both Mat.Same A.transpose A'.transpose := by
  induction A generalizing A' with
  | dense d =>
    cases A' <;> try exact hA.elim
    exact Both.ok (Dense.Same.transpose hA)
  | lowRank l =>
    cases A' <;> try exact hA.elim
    exact Both.ok (LowRank.Same.ofFactors hA.V.transpose hA.S.transpose hA.U.transpose)
  | hier m n A ih =>
    cases A' with
    | hier m' n' A' =>
      obtain ⟨rfl, rfl, hA⟩ := hA
      simp only [Mat.transpose]
      exact (collect2_both (P := fun _ _ x x' => x.Same x') (fun i hi j hj => ih i j (hA i hi j hj))).map
        (fun g g' hg => ⟨rfl, rfl, fun i hi j hj => hg j hj i hi⟩)
    | _ => exact hA.elim
  | empty m n =>
    cases A' <;> try exact hA.elim
    exact Both.err _ _

/-! ### the hypotheses can be met -/

/-- The stored part of a matrix. -/
def Dense.stored [Zero R] (A : Dense R) : Dense R :=
  ⟨A.rows, A.cols, fun i j => if i < A.rows ∧ j < A.cols then A.val i j else 0⟩

theorem Dense.Same.stored [Zero R] {A A' : Dense R} (h : A.Same A') : A.stored = A'.stored := by
  obtain ⟨h1, h2, h3⟩ := h
  simp only [Dense.stored, ← h1, ← h2, Dense.mk.injEq, true_and]
  funext i j
  by_cases c : i < A.rows ∧ j < A.cols
  · rw [if_pos c, if_pos c, h3 i c.1 j c.2]
  · rw [if_neg c, if_neg c]

/-- Kernels that read the stored part of their argument. -/
def Lapack.onStored [Zero R] (L : Lapack R) : Lapack R where
  qr A := L.qr A.stored
  rq A := L.rq A.stored
  svd A := L.svd A.stored
  truncRank A := L.truncRank A.stored
  geqp3 A := L.geqp3 A.stored
  random A := L.random A.stored

theorem Lapack.onStored_local [Zero R] (L : Lapack R) : L.onStored.Local where
  qr _ _ h := congrArg L.qr h.stored
  rq _ _ h := congrArg L.rq h.stored
  svd _ _ h := congrArg L.svd h.stored
  truncRank _ _ h := congrArg L.truncRank h.stored
  geqp3 _ _ h := congrArg L.geqp3 h.stored
  random _ _ h := congrArg L.random h.stored

theorem Dense.stored_val [Zero R] (A : Dense R) {i j : Nat} (hi : i < A.rows) (hj : j < A.cols) :
    A.stored.val i j = A.val i j := if_pos ⟨hi, hj⟩

/-- Reading the stored part only keeps the factorization equations. -/
theorem Lapack.onStored_factors [CommRing R] {L : Lapack R} (h : L.Factors) : L.onStored.Factors where
  qr A i hi j hj := (h.qr A.stored i hi j hj).trans (A.stored_val hi hj)
  rq A i hi j hj := (h.rq A.stored i hi j hj).trans (A.stored_val hi hj)
  svd A i hi j hj := (h.svd A.stored i hi j hj).trans (A.stored_val hi hj)

theorem elim_local {K : Type} [Field K] {f f' : Nat → Nat → K} {m n : Nat} (hmn : m ≤ n)
    (h : ∀ i < m, ∀ j < n, f i j = f' i j) :
    ∀ k ≤ m, ∀ i < m, ∀ j < n, elim f k i j = elim f' k i j := by
  intro k
  induction k with
  | zero => intro _ i hi j hj; exact h i hi j hj
  | succ k ih =>
    intro hk i hi j hj
    have ih' := ih (by omega)
    simp only [elim]
    rw [ih' i hi j hj, ih' i hi k (by omega), ih' k (by omega) k (by omega), ih' k (by omega) j hj]

/-- Gaussian elimination is such a kernel. -/
theorem doolittle_local {K : Type} [Field K] : LuLocal (doolittle (K := K)) := by
  intro a a' h hmn
  have e := elim_local hmn h.2.2
  constructor
  · intro i hi j hj
    simp only [doolittle]
    split
    · exact e i (by omega) i hi j hj
    · rw [e j (by omega) i hi j hj, e j (by omega) j (by omega) j hj]
  · have h1 := h.1
    simp only [doolittle]
    congr 1
    refine propext ⟨?_, ?_⟩
    · rintro ⟨l, hl, hz⟩
      exact ⟨l, by omega, by rw [← e l (by omega) l hl l (by omega)]; exact hz⟩
    · rintro ⟨l, hl, hz⟩
      have hl' : l < a.rows := by omega
      exact ⟨l, hl', by rw [e l (by omega) l hl' l (by omega)]; exact hz⟩

/-- A 2x2 hierarchical matrix with dense and low-rank blocks; the numbers stored are the same for
every `z`, which fills everything outside the dimensions. -/
def sameEx (z : ℚ) : Mat ℚ := .hier 2 2 (fun i j =>
  if i = j then .dense ⟨2, 2, fun a b => if a < 2 ∧ b < 2 then (if a = b then 4 else 1) else z⟩
  else .lowRank
    { dim0 := 2, dim1 := 2, rank := 1, eps := 0
      U := ⟨2, 1, fun a b => if a < 2 ∧ b < 1 then 1 else z⟩
      S := ⟨1, 1, fun a b => if a < 1 ∧ b < 1 then 1 / 2 else z⟩
      V := ⟨1, 2, fun a b => if a < 1 ∧ b < 2 then 1 else z⟩ })

theorem sameEx_same (z w : ℚ) : (sameEx z).Same (sameEx w) := by
  refine ⟨rfl, rfl, fun i hi j hj => ?_⟩
  by_cases h : i = j
  · simp only [if_pos h]
    exact ⟨rfl, rfl, fun a ha b hb => by
      change a < 2 at ha
      change b < 2 at hb
      simp [ha, hb]⟩
  · simp only [if_neg h]
    refine ⟨rfl, rfl, rfl, rfl, ⟨rfl, rfl, fun a ha b hb => ?_⟩, ⟨rfl, rfl, fun a ha b hb => ?_⟩,
      ⟨rfl, rfl, fun a ha b hb => ?_⟩⟩
    · change a < 2 at ha
      change b < 1 at hb
      simp [ha, hb]
    · change a < 1 at ha
      change b < 1 at hb
      simp [ha, hb]
    · change a < 1 at ha
      change b < 2 at hb
      simp [ha, hb]

theorem sameEx_blocks (z : ℚ) : (sameEx z).HasBlocks := by
  refine ⟨by omega, by omega, fun i _ j _ => ?_⟩
  dsimp only
  split <;> trivial

/-- The two differ as values of the model, not in what they store. -/
example : sameEx 0 ≠ sameEx 7 := by
  intro h
  have h1 : (match sameEx 0 with | .hier _ _ b => (match b 0 0 with | .dense d => d.val 2 2 | _ => 0) | _ => 0) =
      (match sameEx 7 with | .hier _ _ b => (match b 0 0 with | .dense d => d.val 2 2 | _ => 0) | _ => 0) := by
    rw [h]
  norm_num [sameEx] at h1

/-- A product of hierarchical matrices with low-rank blocks, whatever the kernels are. -/
example (L : Lapack ℚ) (mode : LraMode) (fuel : Nat) (z : ℚ) :
    Both Mat.Same (Mat.gemm (L.onStored.ops mode fuel) fuel (sameEx z) (sameEx z) (sameEx z) 2 1 false true)
      (Mat.gemm (L.onStored.ops mode fuel) fuel (sameEx 0) (sameEx 0) (sameEx 0) 2 1 false true) :=
  C73_gemm (C73_lowRank L.onStored_local mode fuel) fuel (sameEx_same z 0) (sameEx_same z 0)
    (sameEx_same z 0) (sameEx_blocks z) (sameEx_blocks z) (sameEx_blocks z) 2 1 false true

/-- Its factorization. -/
example (L : Lapack ℚ) (mode : LraMode) (fuel : Nat) (z : ℚ) :
    Both (fun x x' => x.1.Same x'.1 ∧ x.2.1.Same x'.2.1 ∧ x.2.2 = x'.2.2)
      (Mat.getrf doolittle (L.onStored.ops mode fuel) fuel (sameEx z))
      (Mat.getrf doolittle (L.onStored.ops mode fuel) fuel (sameEx 0)) :=
  C73_getrf (C73_lowRank L.onStored_local mode fuel) fuel doolittle_local (sameEx_same z 0) (sameEx_blocks z)

/-- A product that returns: the entry is the one the stored numbers give. -/
example : okAnd (Mat.gemm (Lapack.noOps ℚ) 3 (.dense ⟨1, 1, fun i j => if i < 1 ∧ j < 1 then 3 else 7⟩)
    (.dense ⟨1, 1, fun i j => if i < 1 ∧ j < 1 then 5 else 9⟩) (.dense ⟨1, 1, fun _ _ => 1⟩) 1 1 false false)
    (fun C => match C with | .dense c => decide (c.val 0 0 = 16) | _ => false) = true := by
  decide +kernel

end Verif
