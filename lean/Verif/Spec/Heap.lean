import Verif.Model.Heap

/-
Programs that use dense matrices as documented, and what can be observed of a
memory.  Used by the statements of Props/Heap.lean.
-/

namespace Verif

variable {R : Type}

/-- The value of element `(i,j)` of object number `o`. -/
def Mem.read [Zero R] (m : Mem R) (o i j : Nat) : Except Err R :=
  match m.objs[o]? with
  | none => .error .ub
  | some d => d.read m.heap i j

/-- Running a program. -/
def Mem.run [Zero R] (m : Mem R) : List (MemOp R) → Except Err (Mem R)
  | [] => .ok m
  | op :: t => do
    let m' ← m.step op
    m'.run t

/-- An object whose elements may be accessed: it owns a buffer or has no
elements.  (Excluded are moved-from objects that keep their dimensions.) -/
def DObj.Usable (d : DObj) : Prop := d.data ≠ none ∨ d.rows = 0 ∨ d.cols = 0

/-- Ranges inside `[0, n)`. -/
def RangesIn (n : Nat) (rs : List (Nat × Nat)) : Prop := ∀ r ∈ rs, r.1 + r.2 ≤ n

/-- Ranges that follow each other from `s` to `n`. -/
def TilesFrom : Nat → Nat → List (Nat × Nat) → Prop
  | s, n, [] => s = n
  | s, n, r :: t => r.1 = s ∧ TilesFrom (s + r.2) n t

/-- A partition of `[0, n)` into consecutive ranges. -/
def Tiles (n : Nat) (rs : List (Nat × Nat)) : Prop := TilesFrom 0 n rs

/-- The rows of the object are stored without gaps (or there are no gaps because
there is at most one row or no column). -/
def DObj.Gapless (d : DObj) : Prop := d.rows ≤ 1 ∨ d.cols = 0 ∨ d.stride = d.cols

/-- Documented use of the operations: objects exist and may be accessed, indices
and ranges are inside the dimensions.  The sources of assignments have no gaps
(see C12 for the others). -/
def MemOp.Valid (m : Mem R) : MemOp R → Prop
  | .default => True
  | .new _ _ => True
  | .copy o => ∃ d, m.objs[o]? = some d ∧ d.Usable
  | .assign o a => o < m.objs.length ∧ ∃ d, m.objs[a]? = some d ∧ d.Usable ∧ d.Gapless
  | .shallow o => o < m.objs.length
  | .splitView o rs cs => ∃ d, m.objs[o]? = some d ∧ d.data ≠ none ∧
      RangesIn d.rows rs ∧ RangesIn d.cols cs
  | .splitCopy o rs cs => ∃ d, m.objs[o]? = some d ∧ d.Usable ∧
      RangesIn d.rows rs ∧ RangesIn d.cols cs
  | .moveCtor o => o < m.objs.length
  | .moveAssign o a => o < m.objs.length ∧ a < m.objs.length
  | .destroy o => o < m.objs.length
  | .write o i j _ => ∃ d, m.objs[o]? = some d ∧ d.data ≠ none ∧ i < d.rows ∧ j < d.cols
  | .fill o _ => ∃ d, m.objs[o]? = some d ∧ d.Usable
  | .copyTo s t rs cs => ∃ d e, m.objs[s]? = some d ∧ m.objs[t]? = some e ∧ d.Usable ∧
      e.Usable ∧ rs + e.rows ≤ d.rows ∧ cs + e.cols ≤ d.cols

/-- Memories reached from the empty one by operations used as documented. -/
inductive Reach [Zero R] : Mem R → Prop
  | start : Reach ⟨[], []⟩
  | step {m m' : Mem R} {op : MemOp R} : Reach m → op.Valid m → m.step op = .ok m' → Reach m'

/-- The operation changes elements through object `o` and does nothing else. -/
def MemOp.WritesTo (o : Nat) : MemOp R → Prop
  | .write o' _ _ _ => o' = o
  | .fill o' _ => o' = o
  | _ => False

instance (o : Nat) : DecidablePred (MemOp.WritesTo (R := R) o) := fun op => by
  cases op <;> unfold MemOp.WritesTo <;> infer_instance

/-- The operation only changes elements (through any object). -/
def MemOp.IsWrite (op : MemOp R) : Prop := ∃ o, op.WritesTo o

end Verif
