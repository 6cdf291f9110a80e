import Verif.Model.Heap

/-
Matrix objects that own dense objects on the heap, and `MatrixProxy`, the handle
that owns one matrix of any class (src/classes/matrix_proxy.cpp).
-/

namespace Verif

variable {R : Type}

/-- What a `MatrixProxy` holds (`unique_ptr<Matrix>`, matrix_proxy.h): nothing, or an
object of one of the four classes.  A `Hierarchical` holds proxies
(hierarchical.h:43-50). -/
inductive HObj (R : Type) where
  | null
  | dense (d : DObj)
  | lowRank (dim0 dim1 rank : Nat) (eps : R) (U S V : DObj)
  | hier (br bc : Nat) (blk : Nat → Nat → HObj R)
  | empty (m n : Nat)

instance : Inhabited (HObj R) := ⟨.null⟩

/-- Filling a vector element by element where each element may change the heap. -/
def collectS {σ α : Type _} [Inhabited α] (n : Nat) (f : Nat → σ → Except Err (σ × α)) (s : σ) :
    Except Err (σ × (Nat → α)) :=
  match n with
  | 0 => .ok (s, fun _ => default)
  | n + 1 => do
    let g ← collectS n f s
    let x ← f n g.1
    .ok (x.1, fun i => if i = n then x.2 else g.2 i)

namespace HObj

/-- `clone`, matrix_proxy.cpp:22-43, used by the copy constructor and the copy
assignment of `MatrixProxy` (72-78): the copy constructors of the classes.
`LowRank` and `Hierarchical` have defaulted copy constructors (low_rank.h:79,
hierarchical.h:57), which copy member by member: the factors by the copy
constructor of `Dense`, the blocks by the copy constructor of `MatrixProxy`.  An
empty proxy violates the assertion of the conversion operator (84-87). -/
def clone [Zero R] : HObj R → Heap R → Except Err (Heap R × HObj R)
  | .null, _ => .error .assertFail
  | .dense d, h => do
    let x ← d.copyCtor h
    .ok (x.1, .dense x.2)
  | .lowRank m n r e U S V, h => do
    let x ← U.copyCtor h
    let y ← S.copyCtor x.1
    let z ← V.copyCtor y.1
    .ok (z.1, .lowRank m n r e x.2 y.2 z.2)
  | .hier br bc blk, h => do
    let x ← collectS br (fun i h => collectS bc (fun j h => (blk i j).clone h) h) h
    .ok (x.1, .hier br bc x.2)
  | .empty m n, h => .ok (h, .empty m n)

/-- Move constructor and move assignment of `MatrixProxy` (defaulted, matrix_proxy.h)
: the new handle and what is left in the old one. -/
def move (A : HObj R) : HObj R × HObj R := (A, .null)

/-- `move_clone`, matrix_proxy.cpp:45-66, used for making a handle from a matrix that
is moved from (82): the new handle and what is left of the matrix.  The blocks of a
moved-from `Hierarchical` are gone (its vector is empty), modelled as empty
handles. -/
def moveClone : HObj R → Except Err (HObj R × HObj R)
  | .null => .error .assertFail
  | .dense d => .ok (.dense d, .dense d.movedFrom)
  | .lowRank m n r e U S V =>
      .ok (.lowRank m n r e U S V, .lowRank m n r e U.movedFrom S.movedFrom V.movedFrom)
  | .hier br bc blk => .ok (.hier br bc blk, .hier br bc (fun _ _ => .null))
  | .empty m n => .ok (.empty m n, .empty m n)

/-- `Dense(MatrixProxy&&)`, dense.cpp:96-107 (`move_from_dense`). -/
def toDense : HObj R → Except Err DObj
  | .null => .error .assertFail
  | .dense d => .ok d
  | _ => .error .abort

/-- `LowRank(MatrixProxy&&)`, low_rank.cpp:26-38 (`move_from_low_rank`); the object
itself is returned. -/
def toLowRank : HObj R → Except Err (HObj R)
  | .null => .error .assertFail
  | .lowRank m n r e U S V => .ok (.lowRank m n r e U S V)
  | _ => .error .abort

/-- `Hierarchical(MatrixProxy&&)`, hierarchical.cpp:32-44
(`move_from_hierarchical`). -/
def toHierarchical : HObj R → Except Err (HObj R)
  | .null => .error .assertFail
  | .hier br bc blk => .ok (.hier br bc blk)
  | _ => .error .abort

end HObj

/-- `LowRank(U, S, V, true)` from handles, low_rank.cpp:69-73: each factor is copied
into a handle and moved out of it, which needs dense factors. -/
def lowRankOfHandles [Zero R] (m n : Nat) (eps : R) (U : HObj R) (S : DObj) (V : HObj R) (h : Heap R) :
    Except Err (Heap R × HObj R) := do
  let x ← U.clone h
  let u ← x.2.toDense
  let y ← S.copyCtor x.1
  let z ← V.clone y.1
  let v ← z.2.toDense
  .ok (z.1, .lowRank m n S.rows eps u y.2 v)

end Verif
