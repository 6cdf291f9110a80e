import Verif.Model.Basic

/-
Model of `src/classes/initialization_helpers/matrix_initializer_file.cpp` at the
level of characters.
-/

namespace Verif

/-- An input file stream: the characters not yet consumed, and whether neither the
end of the file has been hit nor an extraction has failed (`good()`). -/
structure Stream where
  rest : List Char
  good : Bool

/-- White space as skipped by `>>` in the classic locale. -/
def isWs (c : Char) : Bool := c = ' ' || c = '\n' || c = '\t' || c = '\r' || c = '\x0b' || c = '\x0c'

/-- `file.ignore(max, delim)`: characters up to and including the first `delim` are
dropped; reaching the end sets the end-of-file flag.  Without effect on a stream
that is not good. -/
def Stream.ignore (s : Stream) (delim : Char) : Stream :=
  if s.good then
    match s.rest.dropWhile (fun c => c ≠ delim) with
    | [] => ⟨[], false⟩
    | _ :: l => ⟨l, true⟩
  else s

/-- `file.ignore(1, '\n')`: one character is dropped. -/
def Stream.ignore1 (s : Stream) : Stream :=
  if s.good then
    match s.rest with
    | [] => ⟨[], false⟩
    | _ :: l => ⟨l, true⟩
  else s

/-- `file >> x`: white space is skipped, then the characters up to the next white
space or the end of the file are converted by `conv`; reaching the end sets the
end-of-file flag.  If the stream is not good, nothing is left or the conversion
fails, the variable keeps a stale or indeterminate value; this is reported as
`ub`.  Simplified: C++ stops at the first character that cannot continue a
number, which differs only for texts that are not numbers as a whole. -/
def Stream.extract {α : Type _} (conv : List Char → Option α) (s : Stream) : Except Err (α × Stream) :=
  if s.good then
    match conv ((s.rest.dropWhile isWs).takeWhile fun c => !isWs c) with
    | none => .error .ub
    | some x => .ok (x, ⟨(s.rest.dropWhile isWs).dropWhile fun c => !isWs c,
        !((s.rest.dropWhile isWs).dropWhile fun c => !isWs c).isEmpty⟩)
  else .error .ub

/-- The layouts of `MatrixLayout` (include/FRANK/definitions.h:22). -/
inductive MatrixLayout where
  | rowMajor
  | columnMajor

/-- `for (j<n) file.ignore(max, delim)` (matrix_initializer_file.cpp:42-44, 47-49,
60-62, 65-67). -/
def Stream.skip (s : Stream) (delim : Char) : Nat → Stream
  | 0 => s
  | n + 1 => (s.skip delim n).ignore delim

/-- The inner loop reading `n` numbers (matrix_initializer_file.cpp:50-53,
68-71). -/
def readItems {R : Type _} [Inhabited R] (num : List Char → Option R) (n : Nat) (s : Stream) :
    Except Err ((Nat → R) × Stream) :=
  loop n (fun j p => do
    let r ← p.2.extract num
    .ok (fun k => if k = j then r.1 else p.1 k, r.2)) (fun _ => default, s)

/-- One pass of the outer loop (matrix_initializer_file.cpp:46-55, 64-73):
`before` items are skipped, `n` items read, and the rest of the line is skipped if
there are more items. -/
def readLine {R : Type _} [Inhabited R] (num : List Char → Option R) (before n : Nat) (more : Bool) (s : Stream) :
    Except Err ((Nat → R) × Stream) := do
  let r ← readItems num n (s.skip ' ' before)
  .ok (r.1, if more then r.2.ignore '\n' else r.2)

/-- The two loops of one layout (matrix_initializer_file.cpp:41-56 row-major,
59-74 column-major; the two cases are the same code with the roles of rows and
columns exchanged): `linesBefore` lines are skipped, `m` lines are read. -/
def readLines {R : Type _} [Inhabited R] (num : List Char → Option R) (linesBefore m before n : Nat) (more : Bool)
    (s : Stream) : Except Err (Nat → Nat → R) := do
  let r ← loop m (fun i (p : (Nat → Nat → R) × Stream) => do
    let q ← readLine num before n more p.2
    .ok (fun k => if k = i then q.1 else p.1 k, q.2)) (fun _ _ => default, s.skip '\n' linesBefore)
  .ok r.1

/-- `MatrixInitializerFile::fill_dense_representation`
(matrix_initializer_file.cpp:24-78) for a matrix with `m` rows, `n` columns and
elements `A`, and index ranges starting at `r` and `c`.  `file = none`: the file
does not exist.  `int` and `num` convert numeric texts (`operator>>` to `int64_t`
and `double`). -/
def fillFromFile {R : Type _} [Inhabited R] (int : List Char → Option Nat) (num : List Char → Option R)
    (file : Option (List Char)) (ordering : MatrixLayout) (A : Nat → Nat → R) (m n r c : Nat) :
    Except Err (Nat → Nat → R) :=
  match file with
  | none => .ok A
  | some chars => do
    let d0 ← Stream.extract int ⟨chars, true⟩
    let d1 ← Stream.extract int d0.2
    let s := d1.2.ignore1
    assertM (decide (r + m ≤ d0.1))
    assertM (decide (c + n ≤ d1.1))
    match ordering with
    | .rowMajor => do
      let v ← readLines num r m c n (decide (c + n < d1.1)) s
      .ok fun i j => if i < m ∧ j < n then v i j else A i j
    | .columnMajor => do
      let v ← readLines num c n r m (decide (r + m < d0.1)) s
      .ok fun i j => if i < m ∧ j < n then v j i else A i j

end Verif
