import Verif.Model.File
import Verif.Model.Mat

namespace Verif

/-- `Dense(filename, ordering, n_rows, n_cols, row_start, col_start)`, dense.cpp:130-139:
a matrix of zeros (dense.cpp:108-113) is filled from the file.  Dimensions and offsets are
natural numbers. -/
def Dense.ofFile {R : Type} [Zero R] [Inhabited R] (int : List Char → Option Nat) (num : List Char → Option R)
    (file : Option (List Char)) (ordering : MatrixLayout) (m n r c : Nat) : Except Err (Dense R) := do
  let A ← fillFromFile int num file ordering (fun _ _ => 0) m n r c
  .ok ⟨m, n, A⟩

end Verif
