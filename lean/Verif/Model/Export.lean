import Verif.Model.Dispatch

/-
Export of the block structure, src/util/print.cpp:55-128.
-/

namespace Verif

variable {R : Type}

/-- The scalar fields of the JSON object of one block; fields that the code does
not set are `none`.  `pos` is `abs_pos`, `type` is the class whose name `type(A)`
returns (print.cpp:34-52). -/
structure JsonFields (R : Type) where
  type : Kind
  rows : Nat
  cols : Nat
  pos : Option (Nat × Nat)
  level : Option Nat
  rank : Option Nat
  svalues : Option (List R)

/-- The JSON object of one block: without or with the key `children`, an array of
`br` arrays with `bc` elements. -/
inductive JsonNode (R : Type) where
  | leaf (f : JsonFields R)
  | node (f : JsonFields R) (br bc : Nat) (children : Nat → Nat → JsonNode R)

instance : Inhabited (JsonNode R) := ⟨.leaf ⟨.empty, 0, 0, none, none, none, none⟩⟩

/-- `to_json` and `to_json_omm`, print.cpp:60-122.  `sv` is `get_singular_values`
(svd.cpp:46-60).  For an `Empty` the fallback reports an error but does not abort
(print.cpp:117-122): the object keeps only `type` and `dim`. -/
def Mat.toJson [CommRing R] (sv : Dense R → List R) :
    Mat R → Nat → Nat → Nat → Except Err (JsonNode R)
  | .hier br bc blk, i, j, level => do
    let m ← (Mat.hier br bc blk).getNRows
    let n ← (Mat.hier br bc blk).getNCols
    let ch ← collect2 br bc (fun a b => (blk a b).toJson sv (i * br + a) (j * bc + b) (level + 1))
    .ok (.node ⟨.hier, m, n, some (i, j), some level, none, none⟩ br bc ch)
  | .lowRank l, i, j, level => do
    let d ← l.toDense
    .ok (.leaf ⟨.lowRank, l.dim0, l.dim1, some (i, j), some level, some l.rank, some (sv d)⟩)
  | .dense d, i, j, level =>
    .ok (.leaf ⟨.dense, d.rows, d.cols, some (i, j), some level, none, some (sv d)⟩)
  | .empty m n, _, _, _ => .ok (.leaf ⟨.empty, m, n, none, none, none, none⟩)

/-- The document written by `write_JSON`, print.cpp:124-128: `to_json` with its
default arguments. -/
def Mat.writeJson [CommRing R] (sv : Dense R → List R) (A : Mat R) : Except Err (JsonNode R) :=
  A.toJson sv 0 0 0

end Verif
