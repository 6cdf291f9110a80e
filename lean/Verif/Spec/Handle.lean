import Verif.Model.Handle

/-
What a handle shows to its user: structure and entries.
-/

namespace Verif

variable {R : Type}

/-- Two dense objects with the same dimensions and the same readable entries. -/
def SameDense [Zero R] (h h' : Heap R) (d d' : DObj) : Prop :=
  d.rows = d'.rows ∧ d.cols = d'.cols ∧ ∀ i < d.rows, ∀ j < d.cols,
    ∃ v, d.read h i j = .ok v ∧ d'.read h' i j = .ok v

/-- Two handles (in two heaps) hold matrices of the same class and structure with the
same readable entries. -/
def SameValue [Zero R] (h h' : Heap R) : HObj R → HObj R → Prop
  | .dense d, .dense d' => SameDense h h' d d'
  | .lowRank m n r e U S V, .lowRank m' n' r' e' U' S' V' =>
      m = m' ∧ n = n' ∧ r = r' ∧ e = e' ∧ SameDense h h' U U' ∧ SameDense h h' S S' ∧
        SameDense h h' V V'
  | .hier br bc blk, .hier br' bc' blk' =>
      br = br' ∧ bc = bc' ∧ ∀ i < br, ∀ j < bc, SameValue h h' (blk i j) (blk' i j)
  | .empty m n, .empty m' n' => m = m' ∧ n = n'
  | _, _ => False

/-- The dense object `d` is a part of the matrix: the matrix itself, a factor of a
low-rank matrix, or a part of a block, at any depth. -/
def HObj.Has : HObj R → DObj → Prop
  | .dense d, e => e = d
  | .lowRank _ _ _ _ U S V, e => e = U ∨ e = S ∨ e = V
  | .hier br bc blk, e => ∃ i j, i < br ∧ j < bc ∧ (blk i j).Has e
  | _, _ => False

/-- Operations after a copy: an entry of a part of one of the handles `As` is written,
or any handle is copied (and the copy is not used). -/
inductive HandleStep [Zero R] (As : List (HObj R)) : Heap R → Heap R → Prop
  | write {h h' : Heap R} {A : HObj R} {d : DObj} {i j : Nat} {v : R} :
      A ∈ As → A.Has d → d.write h i j v = .ok h' → HandleStep As h h'
  | copy {h h' : Heap R} {B B' : HObj R} : B.clone h = .ok (h', B') → HandleStep As h h'

/-- Any number of such operations. -/
inductive HandleSteps [Zero R] (As : List (HObj R)) : Heap R → Heap R → Prop
  | refl (h : Heap R) : HandleSteps As h h
  | tail {h h' h'' : Heap R} : HandleSteps As h h' → HandleStep As h' h'' → HandleSteps As h h''

end Verif
