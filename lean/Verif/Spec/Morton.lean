import Mathlib.Data.List.Perm.Basic
import Mathlib.Algebra.Order.Floor.Ring
import Mathlib.Algebra.Field.Basic

/-
Independent specifications used for the Morton order properties (C38, C39).
-/

namespace Verif

/-- The comparator requirements of `std::sort`: a strict weak order. -/
structure StrictWeak {α : Type _} (lt : α → α → Bool) : Prop where
  irrefl : ∀ a, lt a a = false
  trans : ∀ a b c, lt a b = true → lt b c = true → lt a c = true
  incomp : ∀ a b c, lt a b = false → lt b a = false → lt b c = false → lt c b = false →
    lt a c = false ∧ lt c a = false

/-- What the C++ standard guarantees about `std::sort(first, last, comp)` for a
strict weak order: the range is permuted and no element precedes a smaller one.
Nothing is said about the order of equivalent elements. -/
structure SortSpec {α : Type _} (sort : (α → α → Bool) → List α → List α) : Prop where
  perm : ∀ lt l, StrictWeak lt → (sort lt l).Perm l
  sorted : ∀ lt l, StrictWeak lt → (sort lt l).Pairwise fun a b => lt b a = false

/-- `m` is the Morton index of the first `dim` components of `iX` on `level`
levels: digit `dim*l + k` of `m` is digit `l` of component `k`, and `m` has no
further digits. -/
def IsMorton (dim level : Nat) (iX : Nat → Int) (m : Int) : Prop :=
  0 ≤ m ∧ m < 2 ^ (dim * level) ∧
    ∀ l < level, ∀ k < dim, m / 2 ^ (dim * l + k) % 2 = iX k / 2 ^ l % 2

/-- Smallest and largest of the first `n` values of `v`. -/
def IsMin {K : Type _} [LE K] (v : Nat → K) (n : Nat) (a : K) : Prop := (∃ i < n, v i = a) ∧ ∀ i < n, a ≤ v i

/-- The largest of the first `n` values of `v`. -/
def IsMax {K : Type _} [LE K] (v : Nat → K) (n : Nat) (a : K) : Prop := (∃ i < n, v i = a) ∧ ∀ i < n, v i ≤ a

/-- `m` is the box number of point `i` of the point set `x` (`dims` coordinate
vectors of length `n`): the bounding box of the point set, enlarged to a cube and
by 1/2 on each side, is divided into `2^level` boxes per direction, and `m` is the
Morton index of the box containing the point. -/
def IsBox {K : Type _} [Field K] [LinearOrder K] [FloorRing K] (dims n : Nat) (x : Nat → Nat → K)
    (level i : Nat) (m : Int) : Prop :=
  ∃ (lo hi : Nat → K) (ext : K),
    (∀ d < dims, IsMin (x d) n (lo d) ∧ IsMax (x d) n (hi d)) ∧
    IsMax (fun d => hi d - lo d) dims ext ∧
    IsMorton dims level (fun d => ⌊(x d i - (lo d - 1 / 2)) / (ext + 1) * 2 ^ level⌋) m

end Verif
