import Mathlib.Data.Set.Basic
import Mathlib.Logic.Relation
import Mathlib.Logic.Function.Basic

/-
OpenMP task regions: the semantics of `#pragma omp task depend(...)` inside
`#pragma omp parallel` / `#pragma omp single`, and of `#pragma omp parallel for`,
as used by the programs in /repo/examples.

The memory is a function from cells to values.  A task body is a sequence of
atomic steps; bodies of different tasks are interleaved step by step (sequentially
consistent interleaving).  A step may touch only the cells it declares.
-/

namespace Verif.Omp

variable {Cell V Loc J : Type}

/-- An atomic step of a task: the cells it may read, the cells it may write, and its
effect.  Cells outside `writes` keep their value; the new values depend on the cells in
`reads` only. -/
structure Step (Cell V : Type) where
  reads : Set Cell
  writes : Set Cell
  act : (Cell → V) → (Cell → V)
  frame : ∀ s c, c ∉ writes → act s c = s c
  dep : ∀ s s', (∀ c ∈ reads, s c = s' c) → ∀ c ∈ writes, act s c = act s' c

/-- The step that marks the completion of a task. -/
def Step.finish : Step Cell V := ⟨∅, ∅, id, fun _ _ _ => rfl, fun _ _ _ _ h => h.elim⟩

/-- A parallel region whose tasks are generated by one thread: the tasks in the order of
their creation, their `depend` clauses, and their bodies.  `outs` holds the locations of
`depend(out: ..)` and `depend(inout: ..)`, which OpenMP treats alike. -/
structure Region (Loc Cell V J : Type) where
  jobs : List J
  ins : J → List Loc
  outs : J → List Loc
  body : J → List (Step Cell V)

namespace Region

/-- The dependence OpenMP derives from the `depend` clauses of two sibling tasks, the
first created before the second: some location is named by both, and not only read. -/
def Clash (P : Region Loc Cell V J) (x y : J) : Prop :=
  ∃ l, (l ∈ P.outs x ∧ (l ∈ P.ins y ∨ l ∈ P.outs y)) ∨ (l ∈ P.ins x ∧ l ∈ P.outs y)

/-- Task `y` has to wait for task `x`: `x` was created before `y` and their clauses clash. -/
def Waits (P : Region Loc Cell V J) (x y : J) : Prop := [x, y].Sublist P.jobs ∧ P.Clash x y

/-- The steps of a task, with the completion as last one. -/
def steps (P : Region Loc Cell V J) (x : J) : List (Step Cell V) := P.body x ++ [Step.finish]

/-- All steps of a task are done. -/
def Done (P : Region Loc Cell V J) (c : J → Nat) (x : J) : Prop := (P.steps x).length ≤ c x

/-- A task that may run now: it is not complete, and the tasks it has to wait for are. -/
def Ready (P : Region Loc Cell V J) (c : J → Nat) (x : J) : Prop :=
  x ∈ P.jobs ∧ ¬ P.Done c x ∧ ∀ w, P.Waits w x → P.Done c w

/-- One step of the region: any task that may run performs its next step.  A state is the
number of steps done by each task and the memory.  Simplified: all tasks exist from the
beginning; in OpenMP a task also has to be created first, which allows fewer executions. -/
inductive Move [DecidableEq J] (P : Region Loc Cell V J) :
    (J → Nat) × (Cell → V) → (J → Nat) × (Cell → V) → Prop where
  | step (c : J → Nat) (s : Cell → V) (x : J) (hx : P.Ready c x) (h : c x < (P.steps x).length) :
      Move P (c, s) (Function.update c x (c x + 1), (P.steps x)[c x].act s)

/-- The states that executions from memory `s` can reach. -/
def Reach [DecidableEq J] (P : Region Loc Cell V J) (s : Cell → V) (st : (J → Nat) × (Cell → V)) :
    Prop := Relation.ReflTransGen P.Move (fun _ => 0, s) st

/-- `s'` is the memory at the barrier that ends the region, for some execution: all tasks
are complete. -/
def Ends [DecidableEq J] (P : Region Loc Cell V J) (s s' : Cell → V) : Prop :=
  ∃ c, P.Reach s (c, s') ∧ ∀ x ∈ P.jobs, P.Done c x

end Region

/-- A `parallel for` loop: every iteration is a task without dependences. -/
def parFor (iters : List J) (body : J → List (Step Cell V)) : Region Unit Cell V J :=
  ⟨iters, fun _ => [], fun _ => [], body⟩

end Verif.Omp
