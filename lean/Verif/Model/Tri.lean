import Verif.Model.Gemm
import Mathlib.Algebra.Field.Defs

/-
Triangular multiplication (src/operations/BLAS/trmm.cpp), triangular solve
(src/operations/BLAS/trsm.cpp) and LU factorization
(src/operations/LAPACK/getrf.cpp).

As in `Verif/Model/Gemm.lean` this is a value-level model: the operands do not
share storage.
-/

namespace Verif
open Finset

variable {R : Type}

/-- `enum class Mode { Upper, Lower }`, include/FRANK/definitions.h:24. -/
inductive Uplo where
  | upper
  | lower
deriving DecidableEq

/-- `enum class Side { Left, Right }`, include/FRANK/definitions.h:23. -/
inductive Side where
  | left
  | right
deriving DecidableEq

/-- `side == Side::Left ? x : y`. -/
def Side.pick {α : Type _} (s : Side) (x y : α) : α :=
  match s with
  | .left => x
  | .right => y

namespace Dense

/-- The triangular matrix that `cblas_dtrmm` and `cblas_dtrsm` read out of `A`:
one triangle, the diagonal replaced by ones for `CblasUnit`. -/
def tri [Zero R] [One R] (A : Dense R) (uplo : Uplo) (unit : Bool) (i j : Nat) : R :=
  if i = j then (if unit then 1 else A.val i j)
  else match uplo with
    | .upper => if i < j then A.val i j else 0
    | .lower => if j < i then A.val i j else 0

/-- `D D` of `trmm`, trmm.cpp:53-72; `cblas_dtrmm` is modelled by its definition. -/
def trmm [CommRing R] (side : Side) (uplo : Uplo) (trans unit : Bool) (α : R) (A B : Dense R) :
    Except Err (Dense R) := do
  assertM (decide (A.rows = A.cols))
  assertM (decide (A.rows = side.pick B.rows B.cols))
  let T := fun i j => if trans then A.tri uplo unit j i else A.tri uplo unit i j
  .ok ⟨B.rows, B.cols, fun i j => side.pick
    (α * ∑ l ∈ range A.rows, T i l * B.val l j)
    (α * ∑ l ∈ range A.rows, B.val i l * T l j)⟩

/-- Substitution with the triangular matrix `T`, taking the unknowns in the order
`σ 0, σ 1, ...`. -/
def subst [Field R] (T : Nat → Nat → R) (σ : Nat → Nat) : Nat → (Nat → R) → Nat → R
  | 0, b => b
  | t + 1, b =>
    let x := subst T σ t b
    fun i => if i = σ t then
        (x (σ t) - ∑ u ∈ range t, T (σ t) (σ u) * x (σ u)) / T (σ t) (σ t)
      else x i

/-- Order of the unknowns: forwards, or backwards from `n-1`. -/
def solveOrder (backwards : Bool) (n t : Nat) : Nat := if backwards then n - 1 - t else t

/-- `D D` of `trsm`, trsm.cpp:92-104: `cblas_dtrsm` without transposition, lower
triangles unit.  The BLAS reads the leading triangle of `A` of the order it
needs; there is no check that `A` is large enough (undefined behaviour).  A zero
on the diagonal of an upper triangle leads to a division by zero; the model
reports it as `ub` too. -/
def trsm [Field R] [DecidableEq R] (uplo : Uplo) (side : Side) (A B : Dense R) :
    Except Err (Dense R) :=
  let n := side.pick B.rows B.cols
  let T := A.tri uplo (decide (uplo = .lower))
  if B.rows = 0 ∨ B.cols = 0 then .ok B
  else if n ≤ A.rows ∧ n ≤ A.cols ∧ (List.range n).all (fun i => decide (T i i ≠ 0)) then
    .ok ⟨B.rows, B.cols, fun i j => side.pick
      (subst T (solveOrder (decide (uplo = .upper)) n) n (fun l => B.val l j) i)
      (subst (fun a b => T b a) (solveOrder (decide (uplo = .lower)) n) n (fun l => B.val i l) j)⟩
  else .error .ub

end Dense

namespace LowRank

/-- The factor of a low-rank matrix that is changed by an operation from the left
(`U`) or right (`V`). -/
def outer (side : Side) (l : LowRank R) : Dense R := side.pick l.U l.V

/-- `l` with that factor replaced. -/
def setOuter (side : Side) (l : LowRank R) (X : Dense R) : LowRank R :=
  side.pick { l with U := X } { l with V := X }

end LowRank

namespace Mat

/-- `A(i,j)` with the asserts of `Hierarchical::operator()`,
hierarchical.cpp:170-180. -/
def blockAt (br bc : Nat) (blk : Nat → Nat → Mat R) (i j : Nat) : Except Err (Mat R) := do
  assertM (decide (i < br))
  assertM (decide (j < bc))
  .ok (blk i j)

/-! ### trmm -/

/-- Number of off-diagonal steps of the loop over `k` for block `(i,j)`,
trmm.cpp:165 (`k=i+1..A.dim[1]-1`), 178 (`k=j-1..0`), 194 (`k=i-1..0`), 207
(`k=j+1..B.dim[1]-1`). -/
def trmmCount (uplo : Uplo) (side : Side) (n i j : Nat) : Nat :=
  match uplo, side with
  | .upper, .left => n - (i + 1)
  | .upper, .right => j
  | .lower, .left => i
  | .lower, .right => n - (j + 1)

/-- Value of `k` in off-diagonal step `u` of the same loops. -/
def trmmIndex (uplo : Uplo) (side : Side) (i j u : Nat) : Nat :=
  match uplo, side with
  | .upper, .left => i + 1 + u
  | .upper, .right => j - 1 - u
  | .lower, .left => i - 1 - u
  | .lower, .right => j + 1 + u

section
variable [CommRing R]

/-- `H H` of `trmm`, trmm.cpp:146-217.  In each of the four cases the loop over
`k` starts with the diagonal block (`k == i` or `k == j`); the other steps
multiply with blocks of `B_copy`, the original contents of `B`, so that the
blocks of the result do not depend on each other. -/
def trmmHH (g : GemmT R) (t : Mat R → Mat R → Except Err (Mat R)) (side : Side) (uplo : Uplo)
    (trans : Bool) (α : R) (p q : Nat) (A : Nat → Nat → Mat R) (r s : Nat) (B : Nat → Nat → Mat R) :
    Except Err (Mat R) := do
  assertM (decide (p = q))
  assertM (decide (p = side.pick r s))
  assertM (!trans)
  let B' ← collect2 r s (fun i j => do
    let c ← t (A (side.pick i j) (side.pick i j)) (B i j)
    loop (trmmCount uplo side (side.pick r s) i j) (fun u c =>
      side.pick
        (g (A i (trmmIndex uplo side i j u)) (B (trmmIndex uplo side i j u) j) c α 1 false false)
        (g (B i (trmmIndex uplo side i j u)) (A (trmmIndex uplo side i j u) j) c α 1 false false)) c)
  .ok (.hier r s B')

/-- The method bodies of `trmm`, trmm.cpp:53-229, with the recursive call as
parameter `t`.  The blocks of `split(..., false)` are views, the new contents of
the split matrix are read off the blocks with `joinDense`. -/
def trmmOmm (g : GemmT R) (t : Mat R → Mat R → Except Err (Mat R)) (side : Side) (uplo : Uplo)
    (trans unit : Bool) (α : R) (A B : Mat R) : Except Err (Mat R) :=
  match A, B with
  | .dense a, .dense b => do
    let d ← Dense.trmm side uplo trans unit α a b
    .ok (.dense d)
  | .dense a, .lowRank b => do
    assertM (decide (a.rows = a.cols))
    assertM (decide (a.rows = side.pick b.dim0 b.dim1))
    let d ← Dense.trmm side uplo trans unit α a (b.outer side)
    .ok (.lowRank (b.setOuter side d))
  | .dense a, .hier r s B => do
    assertM (decide (a.rows = a.cols))
    assertM (decide (a.rows = side.pick (Mat.hier r s B).nRows (Mat.hier r s B).nCols))
    let AH ← (Mat.dense a).split (side.pick r s) (side.pick r s)
    t AH (.hier r s B)
  | .hier p q A, .dense b => do
    assertM (decide (p = q))
    assertM (decide ((Mat.hier p q A).nRows = side.pick b.rows b.cols))
    let BH ← (Mat.dense b).split (side.pick q 1) (side.pick 1 p)
    let BH' ← t (.hier p q A) BH
    joinDense b BH'
  | .hier p q A, .lowRank b => do
    assertM (decide (p = q))
    assertM (decide ((Mat.hier p q A).nRows = side.pick b.dim0 b.dim1))
    let BH ← (Mat.dense (b.outer side)).split (side.pick q 1) (side.pick 1 p)
    let BH' ← t (.hier p q A) BH
    let X ← joinDense (b.outer side) BH'
    let X ← X.asDense
    .ok (.lowRank (b.setOuter side X))
  | .hier p q A, .hier r s B => trmmHH g t side uplo trans α p q A r s B
  | _, _ => .error .abort

/-- `trmm` with a given `gemm`; the last argument bounds the depth of the
recursion. -/
def trmmWith (g : GemmT R) (side : Side) (uplo : Uplo) (trans unit : Bool) (α : R) :
    Nat → Mat R → Mat R → Except Err (Mat R)
  | 0, _, _ => .error .fuel
  | fuel + 1, A, B => trmmOmm g (trmmWith g side uplo trans unit α fuel) side uplo trans unit α A B

/-- `trmm(A, B, side, uplo, trans, diag, alpha)`, trmm.cpp:37-43.  `trans` and
`unit` stand for `trans == 't'` and `diag == 'u'`.  The result is the new value of
`B`.  The overload without `trans` and `diag`, trmm.cpp:45-51, passes `false`,
`false`. -/
def trmm [DecidableEq R] (o : LrOps R) (fuel : Nat) (A B : Mat R) (side : Side) (uplo : Uplo)
    (trans unit : Bool) (α : R) : Except Err (Mat R) :=
  trmmWith (gemm o fuel) side uplo trans unit α fuel A B

end

/-! ### trsm -/

/-- The in-place substitution loops of trsm.cpp:47-52, 60-67 and 74-81 along one
block row or block column `x`: block `σ t` receives the products with the blocks
`σ u` for `u < t` that are already solved (`gm`), and is then solved with the
diagonal block (`sv`). -/
def blockSubst (n : Nat) (gm : Nat → Nat → Mat R → Mat R → Except Err (Mat R))
    (sv : Nat → Mat R → Except Err (Mat R)) (σ : Nat → Nat) (x : Nat → Mat R) :
    Except Err (Nat → Mat R) :=
  loop n (fun t x => do
    let b ← loop t (fun u b => gm (σ t) (σ u) (x (σ u)) b) (x (σ t))
    let b' ← sv (σ t) b
    .ok (fun i => if i = σ t then b' else x i)) x

section
variable [Field R] [DecidableEq R]

/-- `H H` of `trsm`, trsm.cpp:40-90.  The block columns (left) or block rows
(right) of `B` are treated one after the other and do not depend on each other.
In the left upper case `B` has a single block column, where `B[i]` is `B(i,0)`. -/
def trsmHH (g : GemmT R) (t : Mat R → Mat R → Except Err (Mat R)) (uplo : Uplo) (side : Side)
    (p q : Nat) (A : Nat → Nat → Mat R) (r s : Nat) (B : Nat → Nat → Mat R) : Except Err (Mat R) :=
  let gmL := fun i k xk xi => do
    let a ← blockAt p q A i k
    g a xk xi (-1) 1 false false
  let gmR := fun j k xk xj => do
    let a ← blockAt p q A k j
    g xk a xj (-1) 1 false false
  let sv := fun i x => do
    let a ← blockAt p q A i i
    t a x
  match uplo, side with
  | .upper, .left =>
    if s = 1 then do
      let X ← blockSubst r gmL sv (Dense.solveOrder true r) (fun i => B i 0)
      .ok (.hier r s (fun i _ => X i))
    else .error .abort
  | .upper, .right => do
    let X ← collect r (fun i => blockSubst s gmR sv (Dense.solveOrder false s) (fun j => B i j))
    .ok (.hier r s (fun i j => X i j))
  | .lower, .left => do
    let X ← collect s (fun j => blockSubst r gmL sv (Dense.solveOrder false r) (fun i => B i j))
    .ok (.hier r s (fun i j => X j i))
  | .lower, .right => .error .abort

/-- The method bodies of `trsm`, trsm.cpp:40-131, with the recursive call as
parameter `t`. -/
def trsmOmm (g : GemmT R) (t : Mat R → Mat R → Except Err (Mat R)) (uplo : Uplo) (side : Side)
    (A B : Mat R) : Except Err (Mat R) :=
  match A, B with
  | .dense a, .dense b => do
    let d ← Dense.trsm uplo side a b
    .ok (.dense d)
  | A, .lowRank b => do
    let X ← t A (.dense (b.outer side))
    let X ← X.asDense
    .ok (.lowRank (b.setOuter side X))
  | .hier p q A, .dense b => do
    let BH ← (Mat.dense b).split (side.pick p 1) (side.pick 1 q)
    let BH' ← t (.hier p q A) BH
    joinDense b BH'
  | .hier p q A, .hier r s B => trsmHH g t uplo side p q A r s B
  | _, _ => .error .abort

/-- `trsm` with a given `gemm`; the last argument bounds the depth of the
recursion. -/
def trsmWith (g : GemmT R) (uplo : Uplo) (side : Side) : Nat → Mat R → Mat R → Except Err (Mat R)
  | 0, _, _ => .error .fuel
  | fuel + 1, A, B => trsmOmm g (trsmWith g uplo side fuel) uplo side A B

/-- `trsm(A, B, uplo, side)`, trsm.cpp:34-38.  The result is the new value of
`B`. -/
def trsm (o : LrOps R) (fuel : Nat) (A B : Mat R) (uplo : Uplo) (side : Side) : Except Err (Mat R) :=
  trsmWith (gemm o fuel) uplo side fuel A B

/-! ### getrf -/

/-- `getrf` on a `Dense`, getrf.cpp:67-84.  `lu` is `LAPACKE_dgetrf`: the packed
factors and whether `ipiv` records any row interchange; the code ignores `ipiv`,
the model passes the flag through so that properties can refer to it.  For more
rows than columns `L(i,i)` fails an assert. -/
def getrfDense (lu : Dense R → Dense R × Bool) (a : Dense R) : Except Err (Mat R × Mat R × Bool) := do
  assertM (decide (a.rows ≤ a.cols))
  .ok (.dense ⟨a.rows, a.cols, fun i j => if j < i then (lu a).1.val i j else if i = j then 1 else 0⟩,
    .dense ⟨a.rows, a.cols, fun i j => if j < i then 0 else (lu a).1.val i j⟩, (lu a).2)

/-- Blocks of `L` and `A` and the interchange flag during the factorization. -/
abbrev LuState (R : Type) := (Nat → Nat → Mat R) × (Nat → Nat → Mat R) × Bool

/-- Step `i` of the outer loop of `getrf` on a `Hierarchical`, getrf.cpp:48-62:
factorize the diagonal block, solve for the block column of `L` and the block row
of `A`, update the remaining blocks. -/
def getrfStep (g : GemmT R) (f : Mat R → Except Err (Mat R × Mat R × Bool))
    (su sl : Mat R → Mat R → Except Err (Mat R)) (p q i : Nat) (st : LuState R) :
    Except Err (LuState R) := do
  let d ← blockAt p q st.2.1 i i
  let x ← f d
  let lc ← collect (p - (i + 1)) (fun a => su x.2.1 (st.2.1 (i + 1 + a) i))
  let ur ← collect (q - (i + 1)) (fun b => sl x.1 (st.2.1 i (i + 1 + b)))
  let up ← collect2 (p - (i + 1)) (q - (i + 1)) (fun a b =>
    g (lc a) (ur b) (st.2.1 (i + 1 + a) (i + 1 + b)) (-1) 1 false false)
  .ok (fun a b =>
      if a = i ∧ b = i then x.1
      else if b = i ∧ i < a then lc (a - (i + 1))
      else if a = i ∧ i < b then .empty (st.2.1 a b).nRows (st.2.1 a b).nCols
      else st.1 a b,
    fun a b =>
      if a = i ∧ b = i then x.2.1
      else if b = i ∧ i < a then .empty (st.2.1 a b).nRows (st.2.1 a b).nCols
      else if a = i ∧ i < b then ur (b - (i + 1))
      else if i < a ∧ i < b then up (a - (i + 1)) (b - (i + 1))
      else st.2.1 a b,
    st.2.2 || x.2.2)

/-- `getrf_omm`, getrf.cpp:45-89.  The result is `(L, U, interchanges)`; `U` is
what is left of `A`.  The initial blocks of `L` are never read. -/
def getrfWith (lu : Dense R → Dense R × Bool) (g : GemmT R)
    (su sl : Mat R → Mat R → Except Err (Mat R)) : Nat → Mat R → Except Err (Mat R × Mat R × Bool)
  | 0, _ => .error .fuel
  | fuel + 1, A =>
    match A with
    | .dense a => getrfDense lu a
    | .hier p q A => do
      let st ← loop p (getrfStep g (getrfWith lu g su sl fuel) su sl p q)
        ((fun _ _ => .empty 0 0, A, false) : LuState R)
      .ok (.hier p q st.1, .hier p q st.2.1, st.2.2)
    | _ => .error .abort

/-- `getrf(A)`, getrf.cpp:40-43. -/
def getrf (lu : Dense R → Dense R × Bool) (o : LrOps R) (fuel : Nat) (A : Mat R) :
    Except Err (Mat R × Mat R × Bool) :=
  getrfWith lu (gemm o fuel) (fun A B => trsm o fuel A B .upper .right)
    (fun A B => trsm o fuel A B .lower .left) fuel A

end
end Mat
end Verif
