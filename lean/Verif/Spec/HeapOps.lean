import Verif.Model.HeapOps
import Verif.Spec.Heap

/-
The same operations on matrices as values, and when a memory represents values.
Used by the statements of Props/HeapOps.lean.
-/

namespace Verif

variable {R : Type}

/-- The matrix with entries outside its dimensions set to zero. -/
def Dense.clip [Zero R] (A : Dense R) : Dense R :=
  ⟨A.rows, A.cols, fun i j => if i < A.rows ∧ j < A.cols then A.val i j else 0⟩

/-- The environment with the value of `o` replaced. -/
def setVal [Zero R] (V : Nat → Dense R) (o : Nat) (D : Dense R) : Nat → Dense R :=
  fun x => if x = o then D.clip else V x

section
variable [Field R] [DecidableEq R]

/-- An operation on values: no storage, no sharing. -/
def valStep (K : QrKernels R) (V : Nat → Dense R) : ArithOp R → Except Err (Nat → Dense R)
  | .fill o v => .ok (setVal V o ((V o).fill v))
  | .copyTo s t rs cs =>
    if rs + (V t).rows ≤ (V s).rows ∧ cs + (V t).cols ≤ (V s).cols then
      .ok (setVal V t ((V s).sub rs cs (V t).rows (V t).cols))
    else .error .assertFail
  | .add o a => do
    let d ← Dense.addAssign (V o) (V a)
    .ok (setVal V o d)
  | .scale o b => .ok (setVal V o ((V o).scale b))
  | .gemm a b c α β ta tb => do
    let d ← Dense.gemm (V a) (V b) (V c) α β ta tb
    .ok (setVal V c d)
  | .trmm a b side uplo tr unit α => do
    let d ← Dense.trmm side uplo tr unit α (V a) (V b)
    .ok (setVal V b d)
  | .trsm a b uplo side => do
    let d ← Dense.trsm uplo side (V a) (V b)
    .ok (setVal V b d)
  | .larfb v t c tr => do
    let d ← Dense.larfb (V v) (V t) (V c) tr
    .ok (setVal V c d)
  | .geqrt a t => do
    let x ← Dense.geqrt K (V a) (V t)
    .ok (setVal (setVal V a x.1) t x.2)
  | .tpqrt a b t => do
    let x ← Dense.tpqrt K (V a) (V b) (V t)
    .ok (setVal (setVal (setVal V a x.1) b x.2.1) t x.2.2)
  | .tpmqrt v t a b tr => do
    let x ← Dense.tprfb (V v) (V t) (V a) (V b) tr
    .ok (setVal (setVal V a x.1) b x.2)

/-- A program on values. -/
def valRun (K : QrKernels R) (V : Nat → Dense R) : List (ArithOp R) → Except Err (Nat → Dense R)
  | [] => .ok V
  | op :: t => do
    let V' ← valStep K V op
    valRun K V' t

end

/-- The objects an operation changes. -/
def ArithOp.targets : ArithOp R → List Nat
  | .fill o _ => [o]
  | .copyTo _ t _ _ => [t]
  | .add o _ => [o]
  | .scale o _ => [o]
  | .gemm _ _ c _ _ _ _ => [c]
  | .trmm _ b _ _ _ _ _ => [b]
  | .trsm _ b _ _ => [b]
  | .larfb _ _ c _ => [c]
  | .geqrt a t => [a, t]
  | .tpqrt a b t => [a, b, t]
  | .tpmqrt _ _ a b _ => [a, b]

/-- The objects an operation only reads. -/
def ArithOp.operands : ArithOp R → List Nat
  | .fill _ _ => []
  | .copyTo s _ _ _ => [s]
  | .add _ a => [a]
  | .scale _ _ => []
  | .gemm a b _ _ _ _ _ => [a, b]
  | .trmm a _ _ _ _ _ _ => [a]
  | .trsm a _ _ _ => [a]
  | .larfb v t _ _ => [v, t]
  | .geqrt _ _ => []
  | .tpqrt _ _ _ => []
  | .tpmqrt v t _ _ _ => [v, t]

/-- The operation is a loop over the entries (not a call of BLAS or LAPACK). -/
def ArithOp.isLoop : ArithOp R → Bool
  | .fill _ _ => true
  | .copyTo _ _ _ _ => true
  | .add _ _ => true
  | .scale _ _ => true
  | _ => false

/-- The operation only names objects of `S`, and the routines of BLAS and LAPACK are
called with different objects as targets and operands.  (`A += A` is allowed.) -/
def ArithOp.Uses (S : List Nat) (op : ArithOp R) : Prop :=
  (∀ x ∈ op.targets ++ op.operands, x ∈ S) ∧
  (op.isLoop = false → op.targets.Nodup ∧ ∀ x ∈ op.targets, x ∉ op.operands)

/-- The two objects have no stored element in common: no write to an element of one
of them is an access to an element of the other. -/
def DObj.Apart (h : Heap R) (d e : DObj) : Prop :=
  ∀ i < d.rows, ∀ j < d.cols, ∀ i' < e.rows, ∀ j' < e.cols, d.access h i j ≠ e.access h i' j'

/-- The objects numbered by `S` are matrices with at least one entry that own their
storage and have no stored element in common.  They may be parts of the same or of
larger matrices. -/
def Mem.Separate (m : Mem R) (S : List Nat) : Prop :=
  (∀ o ∈ S, ∃ d, m.objs[o]? = some d ∧ d.data ≠ none ∧ 0 < d.rows ∧ 0 < d.cols) ∧
  ∀ o ∈ S, ∀ o' ∈ S, o ≠ o' → ∀ d e, m.objs[o]? = some d → m.objs[o']? = some e → d.Apart m.heap e

/-- Object `o` is a matrix with the dimensions and entries of `D`. -/
def Mem.Shows [Zero R] (m : Mem R) (o : Nat) (D : Dense R) : Prop :=
  (∃ d, m.objs[o]? = some d ∧ d.rows = D.rows ∧ d.cols = D.cols) ∧
  ∀ i < D.rows, ∀ j < D.cols, m.read o i j = .ok (D.val i j)

end Verif
