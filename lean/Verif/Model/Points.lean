import Verif.Model.File
import Mathlib.Data.Nat.Cast.Defs

/-
Model of the functions that supply points: `src/util/geometry_file.cpp` (at the level of
characters) and `src/util/experiment_setup.cpp`.
-/

namespace Verif

/-- `file >> x` for a variable that holds `old` (`none`: it has not been initialized).
White space is skipped.  If the stream is not good or nothing is left, the variable keeps its
value; if the text is not a number it becomes zero; both set the failure flag.  Reaching the
end sets the end-of-file flag.  Simplified: C++ stops at the first character that cannot
continue a number, which differs only for texts that are not numbers as a whole. -/
def Stream.into {α : Type _} (conv : List Char → Option α) (zero : α) (s : Stream) (old : Option α) :
    Option α × Stream :=
  if s.good then
    match s.rest.dropWhile isWs with
    | [] => (old, ⟨[], false⟩)
    | t@(_ :: _) =>
      match conv (t.takeWhile fun c => !isWs c) with
      | none => (some zero, ⟨t.dropWhile fun c => !isWs c, false⟩)
      | some x => (some x, ⟨t.dropWhile fun c => !isWs c, !(t.dropWhile fun c => !isWs c).isEmpty⟩)
  else (old, s)

/-- The variables of the loops of `read_geometry_file`: `vertices`, `a` and the file. -/
structure GeoState (R : Type _) where
  vertices : Nat → List R
  a : Option R
  file : Stream

/-- The body of the inner loop, geometry_file.cpp:20-21.  Using `a` before it has a value is
`ub`. -/
def GeoState.next {R : Type _} [Zero R] (num : List Char → Option R) (j : Nat) (x : GeoState R) :
    Except Err (GeoState R) :=
  match x.file.into num 0 x.a with
  | (none, _) => .error .ub
  | (some a, f) => .ok ⟨fun k => if k = j then x.vertices j ++ [a] else x.vertices k, some a, f⟩

/-- `read_geometry_file`, geometry_file.cpp:11-26.  `file = none`: the file cannot be opened.
A negative `dim` makes the constructor of `std::vector` throw, which ends the program.
`int`, `num` convert numeric texts (`operator>>` to `int64_t` and `double`). -/
def readGeometryFile {R : Type _} [Zero R] (int : List Char → Option Int) (num : List Char → Option R)
    (file : Option (List Char)) : Except Err (List (List R)) :=
  let s : Stream := match file with
    | none => ⟨[], false⟩
    | some c => ⟨c, true⟩
  let (n, s) := s.into int 0 none
  let (dim, s) := s.into int 0 none
  match dim, n with
  | some dim, some n =>
    if dim < 0 then .error .abort else do
      let x ← loop n.toNat (fun _ x => loop dim.toNat (fun j x => x.next num j) x) (⟨fun _ => [], none, s⟩ : GeoState R)
      .ok ((List.range dim.toNat).map x.vertices)
  | _, _ => .error .ub

/-- `get_sorted_random_vector`, experiment_setup.cpp:12-23, for non-negative `N`.  `draw i` is
the `i`-th number of the distribution; the generator is seeded with 0, so it is the same in
each call.  `std::sort` is a parameter. -/
def getSortedRandomVector {R : Type _} [LT R] [DecidableLT R] (sort : (R → R → Bool) → List R → List R)
    (draw : Nat → R) (N : Nat) : List R :=
  sort (fun a b => decide (a < b)) ((List.range N).map draw)

/-- `get_non_negative_vector`, experiment_setup.cpp:25-31, for `0 ≤ N < 2^31` (the counter is
an `int`). -/
def getNonNegativeVector {R : Type _} [NatCast R] (N : Nat) : List R :=
  (List.range N).map fun i : Nat => (i : R)

end Verif
