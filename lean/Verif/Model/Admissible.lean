import Verif.Model.ClusterTree
import Mathlib.Algebra.Order.Field.Basic

/-
Model of `MatrixInitializer::is_admissible`,
src/classes/initialization_helpers/matrix_initializer.cpp:44-91.
-/

namespace Verif

/-- `admis`, `admis_type` and `params` of `class MatrixInitializer`
(matrix_initializer.h).  For `PositionBased` only `(int64_t)admis` is used
(matrix_initializer.cpp:57), stored here already truncated. -/
inductive Admis (K : Type) where
  | position (admisTrunc : Int)
  | geometry (admis : K) (params : List (List K))

section
variable {K : Type} [Field K] [LinearOrder K]

/-- One iteration of `MatrixInitializer::get_coords_range`,
matrix_initializer.cpp:47: the vector constructor from two iterators, undefined
behaviour unless they delimit a valid range. -/
def coordsRange (coords : List K) (r : IndexRange) : Except Err (List K) :=
  if 0 ≤ r.start ∧ 0 ≤ r.n ∧ r.start + r.n ≤ coords.length then
    .ok ((coords.drop r.start.toNat).take r.n.toNat)
  else .error .ub

/-- `*std::min_element`: dereferencing `end()` of an empty range is undefined. -/
def minElement : List K → Except Err K
  | [] => .error .ub
  | x :: xs => .ok (xs.foldl min x)

/-- `*std::max_element`. -/
def maxElement : List K → Except Err K
  | [] => .error .ub
  | x :: xs => .ok (xs.foldl max x)

/-- `(min_coord, max_coord)` of one dimension, matrix_initializer.cpp:64-69. -/
def boxSide (pts : List K) : Except Err (K × K) := do
  let lo ← minElement pts
  let hi ← maxElement pts
  .ok (-(1/2) + lo, 1/2 + hi)

/-- The loop over dimensions, matrix_initializer.cpp:67-75: row box and column
box of each dimension. -/
def boxes (params : List (List K)) (rows cols : IndexRange) :
    Except Err (List ((K × K) × (K × K))) :=
  params.mapM (fun p => do
    let r ← boxSide (← coordsRange p rows)
    let c ← boxSide (← coordsRange p cols)
    .ok (r, c))

/-- `center_coord_*`, matrix_initializer.cpp:70,74. -/
def center (b : K × K) : K := b.1 + (b.2 - b.1) / 2

/-- Accumulators `max_length_row`, `max_length_col`, `dist`,
matrix_initializer.cpp:77-85. -/
def boxFold (bs : List ((K × K) × (K × K))) : K × K × K :=
  bs.foldl (fun (s : K × K × K) b =>
    (max s.1 (b.1.2 - b.1.1), max s.2.1 (b.2.2 - b.2.1),
     s.2.2 + |center b.1 - center b.2| * |center b.1 - center b.2|)) (0, 0, 0)

/-- `MatrixInitializer::is_admissible`, matrix_initializer.cpp:51-91.  The code
does not short-circuit: the geometric part is evaluated (and may be undefined)
also for vectors. -/
def isAdmissible (a : Admis K) (t : NodeInfo) : Except Err Bool :=
  let notVector := decide (1 < t.rows.n ∧ 1 < t.cols.n)
  match a with
  | .position admisTrunc =>
    .ok (notVector && decide (admisTrunc < ClusterTree.distToDiag t))
  | .geometry admis params => do
    let bs ← boxes params t.rows t.cols
    let s := boxFold bs
    let diam := max s.1 s.2.1
    .ok (notVector && decide (admis * admis * diam * diam < s.2.2))

end
end Verif
