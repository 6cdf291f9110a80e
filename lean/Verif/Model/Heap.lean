import Verif.Model.Basic

/-
Dense matrices as they are stored: objects with a stride and a start that refer to
shared buffers (src/classes/dense.cpp, include/FRANK/classes/dense.h).
-/

namespace Verif

variable {R : Type}

/-- The allocated buffers (`std::vector<double>` held by `std::shared_ptr`).  A
buffer is named by its position.  Buffers are never removed: as long as an object
owns a buffer it stays allocated, and accesses through objects without owned
buffer are errors (see `DObj.access`). -/
abbrev Heap (R : Type) := List (List R)

/-- An object of class `Dense`, dense.h:43-66.  `data` is the buffer owned
(`shared_ptr`, `none` is the null pointer), `r0`, `c0` are `rel_start`, `off` is
`data_ptr` as offset from the beginning of the buffer.  `unique_id` is in
`Verif/Model/Ids.lean`. -/
structure DObj where
  rows : Nat
  cols : Nat
  stride : Nat
  data : Option Nat
  r0 : Nat
  c0 : Nat
  off : Nat
deriving DecidableEq

namespace DObj

/-- `Dense()`, dense.h:68 with the member initializers of 43-66. -/
def default : DObj := ⟨0, 0, 0, none, 0, 0, 0⟩

/-- Position `k` of an owned buffer, if there is such a position. -/
def elem (h : Heap R) (data : Option Nat) (k : Nat) : Except Err (Nat × Nat) :=
  match data with
  | none => .error .ub
  | some b => if k < (h.getD b []).length then .ok (b, k) else .error .ub

/-- Element `(i,j)`, `Dense::operator()`, dense.cpp:182-192: buffer and position.
An object that owns no buffer (never initialised, or moved from) has no elements;
for a moved-from object the code would still use the old address, the model
reports undefined behaviour even if another owner keeps the buffer alive. -/
def access (h : Heap R) (d : DObj) (i j : Nat) : Except Err (Nat × Nat) := do
  assertM (decide (i < d.rows))
  assertM (decide (j < d.cols))
  elem h d.data (d.off + (i * d.stride + j))

/-- Reading `A(i,j)`. -/
def read [Zero R] (h : Heap R) (d : DObj) (i j : Nat) : Except Err R := do
  let a ← d.access h i j
  .ok ((h.getD a.1 []).getD a.2 0)

/-- Element `i` of a row or column, `Dense::operator[]`, dense.cpp:160-180. -/
def accessVec (h : Heap R) (d : DObj) (i : Nat) : Except Err (Nat × Nat) := do
  assertM (decide (d.rows = 1 ∨ d.cols = 1))
  if d.rows = 1 then do
    assertM (decide (i < d.cols))
    elem h d.data (d.off + i)
  else do
    assertM (decide (i < d.rows))
    elem h d.data (d.off + i * d.stride)

/-- `A(i,j) = v`. -/
def write (h : Heap R) (d : DObj) (i j : Nat) (v : R) : Except Err (Heap R) := do
  let a ← d.access h i j
  .ok (h.set a.1 ((h.getD a.1 []).set a.2 v))

/-- `Dense::copy_to`, dense.cpp:141-149. -/
def copyTo [Zero R] (h : Heap R) (src dst : DObj) (rs cs : Nat) : Except Err (Heap R) := do
  assertM (decide (rs + dst.rows ≤ src.rows))
  assertM (decide (cs + dst.cols ≤ src.cols))
  loop dst.rows (fun i h => loop dst.cols (fun j h => do
    let v ← src.read h (rs + i) (cs + j)
    dst.write h i j v) h) h

/-- `Dense::operator=(double)`, dense.cpp:151-158. -/
def fill (h : Heap R) (d : DObj) (v : R) : Except Err (Heap R) :=
  loop d.rows (fun i h => loop d.cols (fun j h => d.write h i j v) h) h

/-- A new buffer of `m*n` zeros and an object covering it with stride `s`. -/
def alloc [Zero R] (h : Heap R) (m n s : Nat) : Heap R × DObj :=
  (h ++ [List.replicate (m * n) 0], ⟨m, n, s, some h.length, 0, 0, 0⟩)

/-- `Dense(n_rows, n_cols)`, dense.cpp:108-113. -/
def new [Zero R] (h : Heap R) (m n : Nat) : Heap R × DObj := alloc h m n n

/-- Copy constructor, dense.cpp:35-42 (with `fill_dense_from` for two `Dense`,
77-81). -/
def copyCtor [Zero R] (h : Heap R) (a : DObj) : Except Err (Heap R × DObj) := do
  let x := alloc h a.rows a.cols a.cols
  let h' ← a.copyTo x.1 x.2 0 0
  .ok (h', x.2)

/-- Copy assignment from another object, dense.cpp:44-54: the stride of the source
is kept, the buffer is allocated without it. -/
def copyAssign [Zero R] (h : Heap R) (a : DObj) : Except Err (Heap R × DObj) := do
  let x := alloc h a.rows a.cols a.stride
  let h' ← a.copyTo x.1 x.2 0 0
  .ok (h', x.2)

/-- Copy assignment of an object to itself, dense.cpp:44-54: the new buffer has
already replaced the old one when the entries are copied. -/
def selfAssign [Zero R] (h : Heap R) (a : DObj) : Except Err (Heap R × DObj) := do
  let x := alloc h a.rows a.cols a.stride
  let h' ← x.2.copyTo x.1 x.2 0 0
  .ok (h', x.2)

/-- `Dense::shallow_copy`, dense.cpp:198-207. -/
def shallowCopy (d : DObj) : DObj := d

/-- The object left behind by the defaulted move constructor and move assignment,
dense.h:96-98: the shared pointer is null, everything else stays. -/
def movedFrom (d : DObj) : DObj := { d with data := none }

/-- Child of `Dense::split` without copying for the row range `r` and column range
`c` (pairs of start and length), dense.cpp:235-247. -/
def block (d : DObj) (r c : Nat × Nat) : DObj :=
  { rows := r.2, cols := c.2, stride := d.stride, data := d.data
    r0 := d.r0 + r.1, c0 := d.c0 + c.1
    off := (d.r0 + r.1) * d.stride + (d.c0 + c.1) }

/-- `Dense::split` without copying, dense.cpp:218-251: children in row-major order.
Without owned buffer the null pointer is dereferenced. -/
def splitView (d : DObj) (rs cs : List (Nat × Nat)) : Except Err (List DObj) :=
  if d.data = none ∧ rs ≠ [] ∧ cs ≠ [] then .error .ub
  else .ok (rs.flatMap (fun r => cs.map (fun c => d.block r c)))

/-- One child of `Dense::split` with copying, dense.cpp:226-232. -/
def splitCopyOne [Zero R] (h : Heap R) (d : DObj) (r c : Nat × Nat) : Except Err (Heap R × DObj) := do
  let x := new h r.2 c.2
  let h' ← d.copyTo x.1 x.2 r.1 c.1
  .ok (h', x.2)

/-- Children of `Dense::split` with copying for a list of pairs of ranges. -/
def splitCopyAll [Zero R] (d : DObj) : Heap R → List ((Nat × Nat) × (Nat × Nat)) →
    Except Err (Heap R × List DObj)
  | h, [] => .ok (h, [])
  | h, rc :: t => do
    let x ← d.splitCopyOne h rc.1 rc.2
    let y ← splitCopyAll d x.1 t
    .ok (y.1, x.2 :: y.2)

/-- `Dense::split` with copying, dense.cpp:224-233. -/
def splitCopy [Zero R] (h : Heap R) (d : DObj) (rs cs : List (Nat × Nat)) :
    Except Err (Heap R × List DObj) :=
  splitCopyAll d h (rs.flatMap (fun r => cs.map (fun c => (r, c))))

/-- `Dense::is_submatrix`, dense.cpp:209-214. -/
def isSubmatrix (h : Heap R) (d : DObj) : Except Err Bool :=
  match d.data with
  | none => .error .ub
  | some b => .ok (!(decide (d.r0 = 0 ∧ d.c0 = 0) && decide ((h.getD b []).length = d.rows * d.cols)))

end DObj

/-! ### programs on several objects -/

/-- Buffers and the objects of a program. -/
structure Mem (R : Type) where
  heap : Heap R
  objs : List DObj

/-- Operations of a program; objects are named by their position. -/
inductive MemOp (R : Type) where
  | default
  | new (m n : Nat)
  | copy (o : Nat)
  | assign (o a : Nat)
  | shallow (o : Nat)
  | splitView (o : Nat) (rs cs : List (Nat × Nat))
  | splitCopy (o : Nat) (rs cs : List (Nat × Nat))
  | moveCtor (o : Nat)
  | moveAssign (o a : Nat)
  | destroy (o : Nat)
  | write (o i j : Nat) (v : R)
  | fill (o : Nat) (v : R)
  | copyTo (src dst rs cs : Nat)

/-- One step of a program.  Naming an object that does not exist is an error. -/
def Mem.step [Zero R] (m : Mem R) : MemOp R → Except Err (Mem R)
  | .default => .ok ⟨m.heap, m.objs ++ [DObj.default]⟩
  | .new r c => .ok ⟨(DObj.new m.heap r c).1, m.objs ++ [(DObj.new m.heap r c).2]⟩
  | .copy o =>
    match m.objs[o]? with
    | none => .error .ub
    | some d => do
      let x ← d.copyCtor m.heap
      .ok ⟨x.1, m.objs ++ [x.2]⟩
  | .assign o a =>
    match m.objs[o]?, m.objs[a]? with
    | some _, some d =>
      if o = a then do
        let x ← d.selfAssign m.heap
        .ok ⟨x.1, m.objs.set o x.2⟩
      else do
        let x ← d.copyAssign m.heap
        .ok ⟨x.1, m.objs.set o x.2⟩
    | _, _ => .error .ub
  | .shallow o =>
    match m.objs[o]? with
    | none => .error .ub
    | some d => .ok ⟨m.heap, m.objs ++ [d.shallowCopy]⟩
  | .splitView o rs cs =>
    match m.objs[o]? with
    | none => .error .ub
    | some d => do
      let x ← d.splitView rs cs
      .ok ⟨m.heap, m.objs ++ x⟩
  | .splitCopy o rs cs =>
    match m.objs[o]? with
    | none => .error .ub
    | some d => do
      let x ← d.splitCopy m.heap rs cs
      .ok ⟨x.1, m.objs ++ x.2⟩
  | .moveCtor o =>
    match m.objs[o]? with
    | none => .error .ub
    | some d => .ok ⟨m.heap, m.objs.set o d.movedFrom ++ [d]⟩
  | .moveAssign o a =>
    match m.objs[o]?, m.objs[a]? with
    | some _, some d => if o = a then .ok m else .ok ⟨m.heap, (m.objs.set o d).set a d.movedFrom⟩
    | _, _ => .error .ub
  | .destroy o =>
    match m.objs[o]? with
    | none => .error .ub
    | some _ => .ok ⟨m.heap, m.objs.set o DObj.default⟩
  | .write o i j v =>
    match m.objs[o]? with
    | none => .error .ub
    | some d => do
      let h ← d.write m.heap i j v
      .ok ⟨h, m.objs⟩
  | .fill o v =>
    match m.objs[o]? with
    | none => .error .ub
    | some d => do
      let h ← d.fill m.heap v
      .ok ⟨h, m.objs⟩
  | .copyTo s t rs cs =>
    match m.objs[s]?, m.objs[t]? with
    | some a, some b => do
      let h ← a.copyTo m.heap b rs cs
      .ok ⟨h, m.objs⟩
    | _, _ => .error .ub

end Verif
