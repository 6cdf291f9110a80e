import Verif.Model.Heap
import Verif.Model.IndexRange

/-
`Dense::split` into given numbers of rows and columns of blocks, dense.cpp:251-260.
-/

namespace Verif
variable {R : Type}

/-- `IndexRange(0, n).split(k)` as starts and lengths, dense.cpp:256-258.  A part of negative
length (C01) becomes a view with a negative dimension or an impossible allocation; this is
reported as undefined behaviour. -/
def evenRanges (n k : Nat) : Except Err (List (Nat × Nat)) :=
  let rs := (⟨0, n⟩ : IndexRange).split k
  if rs.all (fun r => decide (0 ≤ r.n)) then .ok (rs.map (fun r => (r.start.toNat, r.n.toNat)))
  else .error .ub

/-- `Dense::split(n_row_splits, n_col_splits, false)`, dense.cpp:251-260. -/
def DObj.splitViewN (d : DObj) (nr nc : Nat) : Except Err (List DObj) := do
  let rs ← evenRanges d.rows nr
  let cs ← evenRanges d.cols nc
  d.splitView rs cs

/-- `Dense::split(n_row_splits, n_col_splits, true)`, dense.cpp:251-260. -/
def DObj.splitCopyN [Zero R] (h : Heap R) (d : DObj) (nr nc : Nat) : Except Err (Heap R × List DObj) := do
  let rs ← evenRanges d.rows nr
  let cs ← evenRanges d.cols nc
  d.splitCopy h rs cs

end Verif
