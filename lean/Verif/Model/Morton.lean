import Verif.Model.Basic
import Mathlib.Algebra.Order.Floor.Ring
import Mathlib.Algebra.Field.Basic
import Mathlib.Data.List.Perm.Basic

/-
Model of `src/operations/misc/morton_index.cpp`.

A `std::vector` of length `d` is a function on `Nat` together with `d`.  Index
arithmetic is exact (`Int`), except that the two shifts whose results do not fit
their C++ type are reported as undefined behaviour.
-/

namespace Verif

namespace Morton

/-- State of the loop of `getCartesianIndex` (morton_index.cpp:25-27): the output
vector, the current dimension and level and the remaining Morton index. -/
structure CState where
  index : Nat → Int
  d : Nat
  level : Nat
  m : Int

/-- One iteration of the loop of `getCartesianIndex` (morton_index.cpp:28-31).
`index[d]` is out of bounds for `dim = 0`; `1 << level` is an `int` shift, which
overflows from level 31 on.  `%` on a negative index yields 0 or -1 (`Int.tmod`),
`>>=` rounds down (`Int` division by 2). -/
def cartStep (dim : Nat) (s : CState) : Except Err CState :=
  if dim ≤ s.d then .error .ub
  else if 31 ≤ s.level then .error .ub
  else
    let d' := (s.d + 1) % dim
    .ok { index := fun k => if k = s.d then s.index k + (s.m.tmod 2) * 2 ^ s.level else s.index k
          d := d'
          level := if d' = 0 then s.level + 1 else s.level
          m := s.m / 2 }

/-- The loop `while (mortonIndex != 0)` of `getCartesianIndex`
(morton_index.cpp:27-32), with a step budget. -/
def cartLoop (dim : Nat) : Nat → CState → Except Err CState
  | 0, s => if s.m = 0 then .ok s else .error .fuel
  | f + 1, s => if s.m = 0 then .ok s else do
      let s ← cartStep dim s
      cartLoop dim f s

/-- `getCartesianIndex` (morton_index.cpp:24-34). -/
def getCartesianIndex (fuel dim : Nat) (mortonIndex : Int) : Except Err (Nat → Int) := do
  let s ← cartLoop dim fuel ⟨fun _ => 0, 0, 0, mortonIndex⟩
  .ok s.index

/-- One pass of the inner loop of `getMortonIndex` (morton_index.cpp:40-41).
`x & 1` of a two's complement number is the remainder modulo 2 (`Int` `%`), `>>=`
rounds down.  A shift by 63 or more is reported as undefined behaviour (C++
leaves shifts by 64 or more undefined; a shift by 63 of a set bit does not fit;
the model does not distinguish a shift by 63 of a clear bit). -/
def mortonStep (size lev d : Nat) (s : Int × (Nat → Int)) : Except Err (Int × (Nat → Int)) :=
  if 63 ≤ size * lev + d then .error .ub
  else .ok (s.1 + (s.2 d % 2) * 2 ^ (size * lev + d),
    fun k => if k = d then s.2 d / 2 else s.2 k)

/-- `getMortonIndex` (morton_index.cpp:36-45).  The argument vector is passed by
reference and modified; the result is the pair of the Morton index and the vector
afterwards. -/
def getMortonIndex (size : Nat) (iX : Nat → Int) (level : Nat) : Except Err (Int × (Nat → Int)) :=
  loop level (fun lev s => loop size (fun d s => mortonStep size lev d s) s) (0, iX)

variable {K : Type _} [Field K] [LinearOrder K]

/-- Conversion of a floating point number to `int64_t`: truncation towards zero. -/
def trunc [FloorRing K] (x : K) : Int := if 0 ≤ x then ⌊x⌋ else ⌈x⌉

/-- `getBoxNumber` (morton_index.cpp:47-54).  `1 << level` is an `int` shift.
Coordinates are elements of an ordered field (no rounding). -/
def getBoxNumber [FloorRing K] (size : Nat) (p : Nat → K) (level : Nat) : Except Err Int :=
  if 31 ≤ level then .error .ub
  else do
    let r ← getMortonIndex size (fun dim => trunc (p dim * ((2 ^ level : Int) : K))) level
    .ok r.1

/-- `*std::min_element(v.begin(), v.end())` of a vector of length `n+1`
(morton_index.cpp:60). -/
def minElement (v : Nat → K) : Nat → K
  | 0 => v 0
  | n + 1 => if v (n + 1) < minElement v n then v (n + 1) else minElement v n

/-- `*std::max_element(v.begin(), v.end())` of a vector of length `n+1`
(morton_index.cpp:61). -/
def maxElement (v : Nat → K) : Nat → K
  | 0 => v 0
  | n + 1 => if maxElement v n < v (n + 1) then v (n + 1) else maxElement v n

/-- The box size computed by `normalizeWithinBox` (morton_index.cpp:58-65),
before adding `2*eps`. -/
def boxExtent (dims n : Nat) (x : Nat → Nat → K) : K :=
  match dims with
  | 0 => 0
  | d + 1 => max (boxExtent d n x) (maxElement (x d) (n - 1) - minElement (x d) (n - 1))

/-- `normalizeWithinBox` (morton_index.cpp:56-73) for `dims` coordinate vectors of
the same length `n`.  Dereferencing `min_element` of an empty vector is undefined
behaviour. -/
def normalizeWithinBox (dims n : Nat) (x : Nat → Nat → K) (eps : K) : Except Err (Nat → Nat → K) :=
  if 0 < dims ∧ n = 0 then .error .ub
  else .ok fun dim i => (x dim i - (minElement (x dim) (n - 1) - eps)) / (boxExtent dims n x + 2 * eps)

/-- `sortByMortonIndex` (morton_index.cpp:75-98) for `dims` coordinate vectors of
the same length `n` and a vector `perm` of length `np`.  `std::sort` with a
comparator is the parameter `sort`: it gets the strict order and the vector.
`xn[0]` is out of bounds for `dims = 0`, `perm[i]` for `n > np`. -/
def sortByMortonIndex [FloorRing K]
    (sort : ((Nat × Int) → (Nat × Int) → Bool) → List (Nat × Int) → List (Nat × Int))
    (dims n np : Nat) (x : Nat → Nat → K) (level : Nat) (perm : Nat → Nat) :
    Except Err ((Nat → Nat → K) × (Nat → Nat)) := do
  let xn ← normalizeWithinBox dims n x (1 / 2)
  if dims = 0 then .error .ub
  else do
    let box ← collect n (fun i => getBoxNumber dims (fun dim => xn dim i) level)
    let sorted := sort (fun a b => decide (a.2 < b.2)) ((List.range n).map fun i => (i, box i))
    if np < sorted.length then .error .ub
    else .ok (
      fun dim i => if i < sorted.length then x dim (sorted.getD i (0, 0)).1 else x dim i,
      fun i => if i < sorted.length then (sorted.getD i (0, 0)).1 else perm i)

end Morton

end Verif
