import Verif.Model.File

/-
Specification of matrix files (C42).
-/

namespace Verif

/-- Items separated by single blanks. -/
def blankSep : List (List Char) → List Char
  | [] => []
  | [x] => x
  | x :: y :: l => x ++ ' ' :: blankSep (y :: l)

/-- Lines separated by newlines, followed by `tail`. -/
def bodyText : List (List (List Char)) → List Char → List Char
  | [], tail => tail
  | [l], tail => blankSep l ++ tail
  | l :: l' :: ls, tail => blankSep l ++ '\n' :: bodyText (l' :: ls) tail

/-- White space: blank, tabulator, line end, carriage return, vertical tabulator, form feed. -/
def isBlank (c : Char) : Bool := [' ', '\t', '\n', '\r', '\x0b', '\x0c'].contains c

/-- A text without white space. -/
def IsWord (w : List Char) : Prop := w ≠ [] ∧ ∀ c ∈ w, isBlank c = false

/-- `chars` is the text of a file holding the `N`-by-`M` matrix `A` in the given
layout: the dimensions, a newline, then one line per row (column) of numeric
texts separated by blanks; after the last line the file ends or goes on with a
newline. -/
def IsMatrixFile {R : Type _} (int : List Char → Option Nat) (num : List Char → Option R) (chars : List Char)
    (layout : MatrixLayout) (N M : Nat) (A : Nat → Nat → R) : Prop :=
  ∃ (tN tM : List Char) (text : Nat → Nat → List Char) (tail : List Char),
    IsWord tN ∧ int tN = some N ∧ IsWord tM ∧ int tM = some M ∧
    (∀ i < N, ∀ j < M, IsWord (text i j) ∧ num (text i j) = some (A i j)) ∧
    (tail = [] ∨ ∃ t, tail = '\n' :: t) ∧
    chars = tN ++ ' ' :: tM ++ '\n' ::
      bodyText
        (match layout with
          | .rowMajor => (List.range N).map fun i => (List.range M).map fun j => text i j
          | .columnMajor => (List.range M).map fun j => (List.range N).map fun i => text i j) tail

end Verif
