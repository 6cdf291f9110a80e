import Verif.Model.Heap
import Verif.Model.Arith
import Verif.Model.Qr
import Verif.Model.Mgs

/-
Operations on dense matrices as they act on the stored elements: which elements the
loops and the BLAS and LAPACK routines read and write when the matrices are parts of
larger matrices.
-/

namespace Verif

variable {R : Type}

namespace DObj

/-- A matrix as a BLAS or LAPACK routine is given it: the address `&A`
(dense.cpp:194-196), dimensions `m`, `n` and leading dimension `ld`, row major. -/
def arg (d : DObj) (m n ld : Nat) : DObj := ⟨m, n, ld, d.data, 0, 0, d.off⟩

/-- Two matrices have a stored element in common. -/
def shares (a b : DObj) : Bool :=
  decide (a.data = b.data ∧ ∃ i < a.rows, ∃ j < a.cols, ∃ i' < b.rows, ∃ j' < b.cols,
    a.off + (i * a.stride + j) = b.off + (i' * b.stride + j'))

/-- What BLAS and LAPACK require of their arguments: every leading dimension is
positive and at least the number of columns (row major), and what is written has
nothing in common with the other arguments.  `ins` are read, `outs` are read and
written.  A violation is undefined behaviour. -/
def contract (ins outs : List DObj) : Except Err Unit :=
  if (∀ a ∈ ins ++ outs, 0 < a.stride ∧ a.cols ≤ a.stride) ∧
      (∀ a ∈ outs, ∀ b ∈ ins, a.shares b = false) ∧ outs.Pairwise (fun a b => a.shares b = false)
  then .ok ()
  else .error .ub

/-- The entries a routine reads. -/
def fetch [Zero R] (h : Heap R) (a : DObj) : Except Err (Dense R) := do
  let g ← @collect2 R ⟨0⟩ a.rows a.cols (fun i j => a.read h i j)
  .ok ⟨a.rows, a.cols, fun i j => if i < a.rows ∧ j < a.cols then g i j else 0⟩

/-- The entries a routine writes. -/
def store (h : Heap R) (a : DObj) (v : Nat → Nat → R) : Except Err (Heap R) :=
  loop a.rows (fun i h => loop a.cols (fun j h => a.write h i j (v i j)) h) h

/-! ### loops over the entries -/

/-- `addition_omm(Dense, Dense)`, addition.cpp:39-46, entry by entry. -/
def addAssign [Zero R] [Add R] (h : Heap R) (A B : DObj) : Except Err (Heap R) :=
  loop A.rows (fun i h => loop A.cols (fun j h => do
    let x ← A.read h i j
    let y ← B.read h i j
    A.write h i j (x + y)) h) h

/-- `operator*=(Dense&, double)`, multiplication.cpp:28-37, entry by entry. -/
def scale [Zero R] [Mul R] (h : Heap R) (A : DObj) (b : R) : Except Err (Heap R) :=
  loop A.rows (fun i h => loop A.cols (fun j h => do
    let x ← A.read h i j
    A.write h i j (x * b)) h) h

/-! ### calls of BLAS and LAPACK -/

section
variable [CommRing R]

/-- `gemm` on `Dense`: asserts of gemm.cpp:44-49, call of gemm.cpp:134-146. -/
def gemm (h : Heap R) (A B C : DObj) (α β : R) (ta tb : Bool) : Except Err (Heap R) := do
  assertM (decide ((if ta then A.cols else A.rows) = C.rows))
  assertM (decide ((if ta then A.rows else A.cols) = (if tb then B.cols else B.rows)))
  assertM (decide ((if tb then B.rows else B.cols) = C.cols))
  let k := if ta then A.rows else A.cols
  let a := if ta then A.arg k C.rows A.stride else A.arg C.rows k A.stride
  let b := if tb then B.arg C.cols k B.stride else B.arg k C.cols B.stride
  let c := C.arg C.rows C.cols C.stride
  contract [a, b] [c]
  let x ← a.fetch h
  let y ← b.fetch h
  let z ← c.fetch h
  let r ← Dense.gemm x y z α β ta tb
  c.store h r.val

/-- `trmm` on `Dense`, trmm.cpp:53-72. -/
def trmm (h : Heap R) (A B : DObj) (side : Side) (uplo : Uplo) (trans unit : Bool) (α : R) :
    Except Err (Heap R) := do
  assertM (decide (A.rows = A.cols))
  assertM (decide (A.rows = side.pick B.rows B.cols))
  let n := side.pick B.rows B.cols
  let a := A.arg n n A.stride
  let b := B.arg B.rows B.cols B.stride
  contract [a] [b]
  let x ← a.fetch h
  let y ← b.fetch h
  let r ← Dense.trmm side uplo trans unit α x y
  b.store h r.val

/-- `trsm` on `Dense`, trsm.cpp:92-104. -/
def trsm {R : Type} [Field R] [DecidableEq R] (h : Heap R) (A B : DObj) (uplo : Uplo) (side : Side) :
    Except Err (Heap R) := do
  let n := side.pick B.rows B.cols
  let a := A.arg n n A.stride
  let b := B.arg B.rows B.cols B.stride
  contract [a] [b]
  let x ← a.fetch h
  let y ← b.fetch h
  let r ← Dense.trsm uplo side x y
  b.store h r.val

/-- `larfb` on `Dense`, larfb.cpp:37-48. -/
def larfb (h : Heap R) (V T C : DObj) (trans : Bool) : Except Err (Heap R) := do
  let v := V.arg C.rows T.cols V.stride
  let t := T.arg T.cols T.cols T.stride
  let c := C.arg C.rows C.cols C.stride
  contract [v, t] [c]
  let x ← v.fetch h
  let y ← t.fetch h
  let z ← c.fetch h
  let r ← Dense.larfb x y z trans
  c.store h r.val

/-- `geqrt` on `Dense`, geqrt.cpp:34-43. -/
def geqrt (K : QrKernels R) (h : Heap R) (A T : DObj) : Except Err (Heap R) := do
  assertM (decide (T.rows = A.cols))
  assertM (decide (T.cols = A.cols))
  let a := A.arg A.rows A.cols A.stride
  let t := T.arg A.cols A.cols T.stride
  contract [] [a, t]
  let x ← a.fetch h
  let y ← t.fetch h
  let r ← Dense.geqrt K x y
  let h ← a.store h r.1.val
  t.store h r.2.val

/-- `tpqrt` on `Dense`, tpqrt.cpp:34-43. -/
def tpqrt (K : QrKernels R) (h : Heap R) (A B T : DObj) : Except Err (Heap R) := do
  let a := A.arg B.cols B.cols A.stride
  let b := B.arg B.rows B.cols B.stride
  let t := T.arg B.cols B.cols T.stride
  contract [] [a, b, t]
  let x ← a.fetch h
  let y ← b.fetch h
  let z ← t.fetch h
  let r ← Dense.tpqrt K x y z
  let h ← a.store h r.1.val
  let h ← b.store h r.2.1.val
  t.store h r.2.2.val

/-- `tpmqrt` on `Dense`, tpmqrt.cpp:44-60. -/
def tpmqrt (h : Heap R) (V T A B : DObj) (trans : Bool) : Except Err (Heap R) := do
  let v := V.arg B.rows T.cols V.stride
  let t := T.arg T.cols T.cols T.stride
  let a := A.arg T.cols B.cols A.stride
  let b := B.arg B.rows B.cols B.stride
  contract [v, t] [a, b]
  let x ← v.fetch h
  let y ← t.fetch h
  let z ← a.fetch h
  let w ← b.fetch h
  let r ← Dense.tprfb x y z w trans
  let h ← a.store h r.1.val
  b.store h r.2.val

end

/-- `mgs_qr(A, Q, R)` on `Dense`, mgs_qr.cpp:320-338: all BLAS and LAPACK calls use
`A.dim[1]` as leading dimension of `A`, not its stride.  The new heap, the object
that `Q` becomes and what is left of `A`.  Simplified: the columns are read together
at the beginning and written together at the end, which is the same when `R` has no
element in common with what is read of `A`; otherwise the model reports undefined
behaviour. -/
noncomputable def mgsQr (h : Heap ℝ) (A Q Rm : DObj) : Except Err (Heap ℝ × DObj × DObj) := do
  let a := A.arg A.rows A.cols A.cols
  contract [] [a, Rm.arg Rm.rows Rm.cols Rm.stride]
  let x ← a.fetch h
  let z ← Rm.fetch h
  let r ← Dense.mgsQr x (Dense.zero Q.rows Q.cols) z
  let h ← a.store h r.1.val
  let h ← Rm.store h r.2.val
  .ok (h, A, A.movedFrom)

end DObj

/-! ### programs -/

/-- The operations above on the objects of a program, named by position. -/
inductive ArithOp (R : Type) where
  | fill (o : Nat) (v : R)
  | copyTo (src dst rs cs : Nat)
  | add (o a : Nat)
  | scale (o : Nat) (b : R)
  | gemm (a b c : Nat) (α β : R) (ta tb : Bool)
  | trmm (a b : Nat) (side : Side) (uplo : Uplo) (trans unit : Bool) (α : R)
  | trsm (a b : Nat) (uplo : Uplo) (side : Side)
  | larfb (v t c : Nat) (trans : Bool)
  | geqrt (a t : Nat)
  | tpqrt (a b t : Nat)
  | tpmqrt (v t a b : Nat) (trans : Bool)

section
variable [Field R] [DecidableEq R]

/-- Object number `o`. -/
def Mem.obj (m : Mem R) (o : Nat) : Except Err DObj :=
  match m.objs[o]? with
  | none => .error .ub
  | some d => .ok d

/-- The buffers after an operation; the objects stay what they are. -/
def Mem.arith (K : QrKernels R) (m : Mem R) : ArithOp R → Except Err (Heap R)
  | .fill o v => do
    let d ← m.obj o
    d.fill m.heap v
  | .copyTo s t rs cs => do
    let d ← m.obj s
    let e ← m.obj t
    d.copyTo m.heap e rs cs
  | .add o a => do
    let d ← m.obj o
    let e ← m.obj a
    d.addAssign m.heap e
  | .scale o b => do
    let d ← m.obj o
    d.scale m.heap b
  | .gemm a b c α β ta tb => do
    let x ← m.obj a
    let y ← m.obj b
    let z ← m.obj c
    DObj.gemm m.heap x y z α β ta tb
  | .trmm a b side uplo tr unit α => do
    let x ← m.obj a
    let y ← m.obj b
    DObj.trmm m.heap x y side uplo tr unit α
  | .trsm a b uplo side => do
    let x ← m.obj a
    let y ← m.obj b
    DObj.trsm m.heap x y uplo side
  | .larfb v t c tr => do
    let x ← m.obj v
    let y ← m.obj t
    let z ← m.obj c
    DObj.larfb m.heap x y z tr
  | .geqrt a t => do
    let x ← m.obj a
    let y ← m.obj t
    DObj.geqrt K m.heap x y
  | .tpqrt a b t => do
    let x ← m.obj a
    let y ← m.obj b
    let z ← m.obj t
    DObj.tpqrt K m.heap x y z
  | .tpmqrt v t a b tr => do
    let x ← m.obj v
    let y ← m.obj t
    let z ← m.obj a
    let w ← m.obj b
    DObj.tpmqrt m.heap x y z w tr

/-- A program of such operations. -/
def Mem.arithRun (K : QrKernels R) (m : Mem R) : List (ArithOp R) → Except Err (Mem R)
  | [] => .ok m
  | op :: t => do
    let h ← m.arith K op
    Mem.arithRun K ⟨h, m.objs⟩ t

end

end Verif
