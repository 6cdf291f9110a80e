import Verif.Model.Mat

/-
Model of printing a matrix, `print(const Matrix&)` and `type` of `src/util/print.cpp`,
with `VERBOSE` on.  What is written to standard output is a list of items rather than of
characters; widths, digits and the dashes of the lines are left out.
-/

namespace Verif

/-- What `print` writes: an entry (print.cpp:149), the end of a line (print.cpp:151, 172),
the line of dashes (`print_separation_line`, print.cpp:137-140), the heading of a factor
(print.cpp:157, 159, 161) and the heading of a block (print.cpp:169). -/
inductive Tok where
  | num (s : String)
  | eol
  | line
  | factor (s : String)
  | block (type : String) (i j : Nat)
deriving DecidableEq

variable {R : Type}

/-- `type` (print.cpp:30-52).  Its last method, for other classes, has no counterpart. -/
def Mat.typeName : Mat R → String
  | .dense _ => "Dense"
  | .lowRank _ => "LowRank"
  | .hier _ _ _ => "Hierarchical"
  | .empty _ _ => "Empty"

/-- `print_omm(const Dense&)` (print.cpp:146-154); `sh` is how an entry is written. -/
def Dense.print (sh : R → String) (d : Dense R) : List Tok :=
  (List.range d.rows).flatMap (fun i => (List.range d.cols).map (fun j => Tok.num (sh (d.val i j))) ++ [.eol]) ++ [.line]

/-- `print_omm` (print.cpp:142-175).  For `Empty` the fallback is called: it writes to the
error stream only, and returns. -/
def Mat.print (sh : R → String) : Mat R → List Tok
  | .dense d => d.print sh
  | .lowRank l =>
    .factor "U" :: (l.U.print sh ++ .factor "S" :: (l.S.print sh ++ .factor "V" :: (l.V.print sh ++ [.line])))
  | .hier br bc blk =>
    (List.range br).flatMap (fun i =>
      (List.range bc).flatMap (fun j => .block (blk i j).typeName i j :: (blk i j).print sh) ++ [.eol]) ++ [.line]
  | .empty _ _ => []

end Verif
