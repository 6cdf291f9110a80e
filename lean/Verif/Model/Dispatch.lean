import Verif.Model.Mat

/-
Open multi-methods: the dispatch of yomm2 and the method tables of the library.

A method definition `define_method(r, name_omm, (const Dense& A, Matrix& B))`
names for each virtual parameter the class it accepts; a call picks the most
specific definition that accepts the dynamic classes of the arguments.  All
matrix classes derive directly from `Matrix` (initialize.cpp:9-13), so that a
virtual parameter accepts one class or all of them.
-/

namespace Verif

/-- The registered matrix classes, initialize.cpp:10-13. -/
inductive Kind where
  | dense | lowRank | hier | empty
  deriving DecidableEq

/-- The dynamic class of a matrix. -/
def Mat.kind {R : Type} : Mat R → Kind
  | .dense _ => .dense
  | .lowRank _ => .lowRank
  | .hier _ _ _ => .hier
  | .empty _ _ => .empty

/-- Declared class of a virtual parameter: `Matrix` (`any`) or a derived class. -/
inductive Param where
  | any
  | is (k : Kind)
  deriving DecidableEq

/-- The parameter accepts an argument of class `k`. -/
def Param.accepts : Param → Kind → Bool
  | .any, _ => true
  | .is k, k' => k = k'

/-- The class of the first parameter is the class of the second or derived from
it. -/
def Param.le : Param → Param → Bool
  | _, .any => true
  | .any, .is _ => false
  | .is k, .is k' => k = k'

/-- The virtual parameters of one `define_method`. -/
abbrev Method := List Param

/-- The method can be called with arguments of these classes. -/
def Method.accepts : Method → List Kind → Bool
  | [], [] => true
  | p :: m, k :: ks => p.accepts k && Method.accepts m ks
  | _, _ => false

/-- Each parameter of the first method is at least as specific. -/
def Method.le : Method → Method → Bool
  | [], [] => true
  | p :: m, p' :: m' => p.le p' && Method.le m m'
  | _, _ => false

/-- Outcome of a call: the definition that runs, no definition applies, or no
applicable definition is more specific than all others.  In the last two cases
yomm2 calls its error handler, which aborts. -/
inductive Resolution where
  | run (m : Method)
  | none
  | ambiguous
  deriving DecidableEq

/-- Overload resolution of yomm2: among the definitions that accept the
arguments, the one that is at least as specific as all the others. -/
def resolve (tbl : List Method) (ks : List Kind) : Resolution :=
  match tbl.filter (fun m => m.accepts ks) with
  | [] => .none
  | m :: ms =>
    match (m :: ms).filter (fun a => (m :: ms).all (fun b => Method.le a b)) with
    | [a] => .run a
    | _ => .ambiguous

namespace Tables
open Kind

/-- Parameter of class `Dense`. -/
abbrev D : Param := .is dense
/-- Parameter of class `LowRank`. -/
abbrev L : Param := .is lowRank
/-- Parameter of class `Hierarchical`. -/
abbrev H : Param := .is hier
/-- Parameter of class `Empty`. -/
abbrev E : Param := .is empty
/-- Parameter of class `Matrix`. -/
abbrev M : Param := .any

/-- `gemm_omm` with a target: gemm.cpp:126, 148, 164, 180, 202, 220, 237, 254, 275,
292, 308, 324, 341, 358, 375, 396, 420, 444, 468, 494, 522, 547, 574, 594, 612, 631. -/
def gemm : List Method :=
  [[D, D, D], [L, D, D], [D, L, D], [L, L, D],
   [D, D, L], [L, D, L], [D, L, L], [L, L, L], [H, L, L], [D, H, L], [H, D, L], [L, H, L],
   [D, L, H], [L, D, H], [L, L, H], [H, H, L],
   [H, H, H], [D, D, H], [L, H, H], [D, H, H], [H, L, H], [H, D, H],
   [H, H, D], [M, H, D], [H, M, D], [M, M, M]]

/-- `gemm_omm` returning a new matrix: gemm.cpp:72, 110.  The second definition
is not an error fallback, it allocates a dense target. -/
def gemmNew : List Method := [[H, H], [M, M]]

/-- `trmm_omm`: trmm.cpp:53, 74, 91, 109, 127, 146, 220. -/
def trmm : List Method := [[D, D], [D, L], [D, H], [H, D], [H, L], [H, H], [M, M]]

/-- `trsm_omm`: trsm.cpp:40, 92, 106, 117, 128. -/
def trsm : List Method := [[H, H], [D, D], [M, L], [H, D], [M, M]]

/-- `getrf_omm`: getrf.cpp:45, 67, 86. -/
def getrf : List Method := [[H], [D], [M]]

/-- `addition_omm`: addition.cpp:39, 48, 53, 62, 191, 205. -/
def addition : List Method := [[D, D], [D, L], [H, H], [H, L], [L, L], [M, M]]

/-- `multiplication_omm`: multiplication.cpp:28, 39, 46, 57. -/
def multiplication : List Method := [[D], [L], [H], [M]]

/-- `transpose_omm`: transpose.cpp:24, 34, 39, 49. -/
def transpose : List Method := [[D], [L], [H], [M]]

/-- `norm_omm`: norm.cpp:24, 34, 36, 46. -/
def norm : List Method := [[D], [L], [H], [M]]

/-- `shallow_copy_omm`: misc.cpp:292, 297, 303, 313. -/
def shallowCopy : List Method := [[D], [L], [H], [M]]

/-- `split_omm`: misc.cpp:180, 199, 243, 275. -/
def split : List Method := [[D], [L], [H], [M]]

/-- `get_memory_usage_omm`: get_memory_usage.cpp:31, 43, 57, 74. -/
def memUsage : List Method := [[D], [L], [H], [M]]

/-- `zero_all_omm`: misc.cpp:34, 38, 50, 57. -/
def zeroAll : List Method := [[D], [L], [H], [M]]

/-- `zero_lower_omm`: misc.cpp:69, 75, 85. -/
def zeroLower : List Method := [[D], [H], [M]]

/-- `zero_upper_omm`: misc.cpp:97, 103, 113. -/
def zeroUpper : List Method := [[D], [H], [M]]

/-- `resize_omm`: resize.cpp:27, 37. -/
def resize : List Method := [[D], [M]]

/-- `collect_diff_norm_omm` of `l2_error`: l2_error.cpp:43, 51, 57, 63, 69, 76, 83,
103. -/
def diffNorm : List Method :=
  [[D, D], [D, L], [L, D], [L, L], [H, M], [M, H], [H, H], [M, M]]

/-- `geqrt_omm`: geqrt.cpp:34, 46. -/
def geqrt : List Method := [[D, D], [M, M]]

/-- `larfb_omm`: larfb.cpp:37, 51, 59. -/
def larfb : List Method := [[D, D, D], [D, D, L], [M, M, M]]

/-- `tpqrt_omm`: tpqrt.cpp:35, 45, 56. -/
def tpqrt : List Method := [[D, D, D], [D, L, D], [M, M, M]]

/-- `tpmqrt_omm`: tpmqrt.cpp:45, 61, 77, 92, 108, 124, 140, 156, 173. -/
def tpmqrt : List Method :=
  [[D, D, D, D], [L, D, D, D], [D, D, L, D], [D, D, D, L], [L, D, L, D], [L, D, D, L], [D, D, L, L],
   [L, D, L, L], [M, M, M, M]]

/-- `get_right_factor_omm`: qr.cpp:97, 101; there is no definition for `Matrix`. -/
def rightFactor : List Method := [[D], [L]]

/-- `fill_dense_from` (conversion to `Dense`): dense.cpp:64, 73, 77, 83, 89. -/
def fillDense : List Method := [[H, D], [L, D], [D, D], [E, D], [M, M]]

/-- `to_json_omm`: print.cpp:68, 90, 104, 117. -/
def toJson : List Method := [[H], [L], [D], [M]]

end Tables
end Verif
