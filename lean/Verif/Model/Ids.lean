import Verif.Model.Heap

/-
The ids of dense matrices: `unique_id` of the objects of a program and the counter
`next_unique_id` (src/classes/dense.cpp:29).
-/

namespace Verif

variable {R : Type}

/-- A memory with the ids of its objects.  `ids` holds `unique_id` of each object
(dense.h:66), `none` is the initial value -1; `next` is `next_unique_id`
(dense.cpp:29).  Simplified: the counter does not wrap around (it has 64 bits). -/
structure IdMem (R : Type) where
  mem : Mem R
  ids : List (Option Nat)
  next : Nat

/-- `n` ids drawn from the counter one after the other. -/
def drawIds (next n : Nat) : List (Option Nat) := (List.range' next n).map some

/-- The ids and the counter after an operation:
default constructor dense.h:66, 68;
constructors with dimensions dense.cpp:109;
copy constructor dense.cpp:37;
copy assignment dense.cpp:52;
`shallow_copy` dense.cpp:205;
`split` without copying dense.cpp:243, with copying 227 and 229 (the child is moved, its id with it);
defaulted move constructor and assignment (dense.h:96-98), which copy the number and leave it in the source.
The other operations do not touch ids.  An object that no longer exists is represented
by a default constructed one. -/
def idsAfter (ids : List (Option Nat)) (next : Nat) : MemOp R → List (Option Nat) × Nat
  | .default => (ids ++ [none], next)
  | .new _ _ => (ids ++ [some next], next + 1)
  | .copy _ => (ids ++ [some next], next + 1)
  | .assign o _ => (ids.set o (some next), next + 1)
  | .shallow o => (ids ++ [ids.getD o none], next)
  | .splitView _ rs cs => (ids ++ drawIds next (rs.length * cs.length), next + rs.length * cs.length)
  | .splitCopy _ rs cs => (ids ++ drawIds next (rs.length * cs.length), next + rs.length * cs.length)
  | .moveCtor o => (ids ++ [ids.getD o none], next)
  | .moveAssign o a => (ids.set o (ids.getD a none), next)
  | .destroy o => (ids.set o none, next)
  | .write _ _ _ _ => (ids, next)
  | .fill _ _ => (ids, next)
  | .copyTo _ _ _ _ => (ids, next)

/-- One operation of a program. -/
def IdMem.step [Zero R] (m : IdMem R) (op : MemOp R) : Except Err (IdMem R) := do
  let m' ← m.mem.step op
  .ok ⟨m', (idsAfter m.ids m.next op).1, (idsAfter m.ids m.next op).2⟩

/-- A program. -/
def IdMem.run [Zero R] (m : IdMem R) : List (MemOp R) → Except Err (IdMem R)
  | [] => .ok m
  | op :: t => do
    let m' ← m.step op
    m'.run t

/-- Before the first operation. -/
def IdMem.start : IdMem R := ⟨⟨[], []⟩, [], 0⟩

/-- `Dense::id()` of object number `o`, dense.cpp:216 (`none` is -1). -/
def IdMem.id (m : IdMem R) (o : Nat) : Except Err (Option Nat) :=
  match m.ids[o]? with
  | none => .error .ub
  | some t => .ok t

end Verif
