import Verif.Model.Basic

/-
Model of `src/classes/initialization_helpers/index_range.cpp`.
-/

namespace Verif

/-- `class IndexRange` (include/FRANK/classes/initialization_helpers/index_range.h),
constructor index_range.cpp:13.  `int64_t` is modelled by `Int` (no wrap-around). -/
structure IndexRange where
  start : Int
  n : Int
deriving DecidableEq, Repr, Inhabited

namespace IndexRange

/-- One element of `IndexRange::split`, index_range.cpp:17-22: the `i`-th of `k`
children.  C++ integer division truncates, hence `Int.tdiv`. -/
def splitChild (r : IndexRange) (k i : Int) : IndexRange :=
  let childN := Int.tdiv (r.n + k - 1) k
  let childStart := r.start + childN * i
  let childN' := if i = k - 1 then r.n - childN * (k - 1) else childN
  ⟨childStart, childN'⟩

/-- `IndexRange::split`, index_range.cpp:15-24.  The number of parts is a
natural number (a negative `n_splits` makes the vector constructor throw);
`k = 0` returns the empty vector like the C++ loop does. -/
def split (r : IndexRange) (k : Nat) : List IndexRange :=
  (List.range k).map (fun (i : Nat) => r.splitChild (k : Int) (i : Int))

/-- `IndexRange::split_at`, index_range.cpp:26-28. -/
def splitAt (r : IndexRange) (index : Int) : List IndexRange :=
  [⟨r.start, index⟩, ⟨r.start + index, r.n - index⟩]

/-- The loop of `IndexRange::split_like`, index_range.cpp:34-41, for the list of
block sizes along the requested direction (`get_n_cols(like(0,i))` or
`get_n_rows(like(i,0))`).  The start of the range itself is not used by the
code: the running `child_start` begins at 0. -/
def splitLikeFrom : Int → List Int → List IndexRange
  | _, [] => []
  | s, c :: cs => ⟨s, c⟩ :: splitLikeFrom (s + c) cs

/-- `IndexRange::split_like`, index_range.cpp:30-43 (see `splitLikeFrom`). -/
def splitLike (_r : IndexRange) (sizes : List Int) : List IndexRange :=
  splitLikeFrom 0 sizes

end IndexRange
end Verif
