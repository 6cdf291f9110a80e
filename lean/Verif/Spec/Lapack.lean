import Verif.Spec.Gemm
import Verif.Model.LrAdd

/-
What is assumed of the external factorization routines, and vocabulary for
truncated factorizations.
-/

namespace Verif
open Finset

variable {R : Type}

/-- `∑ u_l s_l v_l` over the first `k` terms, entry `(i,j)`. -/
def terms [CommRing R] (k : Nat) (u : Nat → Nat → R) (s : Nat → R) (v : Nat → Nat → R) (i j : Nat) : R :=
  ∑ l ∈ range k, u i l * s l * v l j

/-- The first `k` columns of `u` (of height `m`) are orthonormal. -/
def OrthoCols [CommRing R] (m k : Nat) (u : Nat → Nat → R) : Prop :=
  ∀ a < k, ∀ b < k, ∑ i ∈ range m, u i a * u i b = if a = b then 1 else 0

/-- The first `k` rows of `v` (of width `n`) are orthonormal. -/
def OrthoRows [CommRing R] (n k : Nat) (v : Nat → Nat → R) : Prop :=
  ∀ a < k, ∀ b < k, ∑ j ∈ range n, v a j * v b j = if a = b then 1 else 0

namespace LowRank

/-- The factors of `C` are the first `C.rank` columns of `u`, numbers of `s` and
rows of `v`. -/
structure Keeps [CommRing R] (C : LowRank R) (u : Nat → Nat → R) (s : Nat → R) (v : Nat → Nat → R) :
    Prop where
  U : ∀ i < C.dim0, ∀ l < C.rank, C.U.val i l = u i l
  S : ∀ a < C.rank, ∀ b < C.rank, C.S.val a b = if a = b then s a else 0
  V : ∀ l < C.rank, ∀ j < C.dim1, C.V.val l j = v l j

end LowRank

namespace Lapack

/-- The factorization equations: `Q*R = A`, `R*Q = A`, `U*S*V = A`, in exact
arithmetic and for the economic sizes the library asks for. -/
structure Factors [CommRing R] (L : Lapack R) : Prop where
  qr : ∀ (A : Dense R), ∀ i < A.rows, ∀ j < A.cols,
    ∑ l ∈ range (min A.rows A.cols),
      (L.qr A (min A.rows A.cols)).1 i l * (L.qr A (min A.rows A.cols)).2 l j = A.val i j
  rq : ∀ (A : Dense R), ∀ i < A.rows, ∀ j < A.cols,
    ∑ l ∈ range (min A.rows A.cols),
      (L.rq A (min A.rows A.cols)).1 i l * (L.rq A (min A.rows A.cols)).2 l j = A.val i j
  svd : ∀ (A : Dense R), ∀ i < A.rows, ∀ j < A.cols,
    terms (min A.rows A.cols) (L.svd A).1 (L.svd A).2.1 (L.svd A).2.2 i j = A.val i j

/-- The orthogonal factors are orthonormal. -/
structure Ortho [CommRing R] (L : Lapack R) : Prop where
  qr : ∀ (A : Dense R), OrthoCols A.rows (min A.rows A.cols) (L.qr A (min A.rows A.cols)).1
  rq : ∀ (A : Dense R), OrthoRows A.cols (min A.rows A.cols) (L.rq A (min A.rows A.cols)).2
  svdU : ∀ (A : Dense R), OrthoCols A.rows (min A.rows A.cols) (L.svd A).1
  svdV : ∀ (A : Dense R), OrthoRows A.cols (min A.rows A.cols) (L.svd A).2.2

/-- Singular values are non-negative and not increasing. -/
structure Sorted [CommRing R] [PartialOrder R] (L : Lapack R) : Prop where
  nonneg : ∀ (A : Dense R), ∀ l < min A.rows A.cols, 0 ≤ (L.svd A).2.1 l
  anti : ∀ (A : Dense R), ∀ l, ∀ l' < min A.rows A.cols, l ≤ l' → (L.svd A).2.1 l' ≤ (L.svd A).2.1 l

end Lapack
end Verif
