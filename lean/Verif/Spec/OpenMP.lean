import Verif.Model.OpenMP

/-
Specification for parallel regions (C36, C37).
-/

namespace Verif.Omp

variable {Cell V Loc J : Type}

/-- Performing a sequence of steps one after the other. -/
def exec (l : List (Step Cell V)) (s : Cell → V) : Cell → V := l.foldl (fun s σ => σ.act s) s

/-- The sequential program: the bodies of the tasks in the order of the program text. -/
def sequential (jobs : List J) (body : J → List (Step Cell V)) (s : Cell → V) : Cell → V :=
  jobs.foldl (fun s x => exec (body x) s) s

/-- Two steps that must not run concurrently: one writes a cell the other reads or writes. -/
def Step.Conflict (σ τ : Step Cell V) : Prop :=
  ∃ c, (c ∈ σ.writes ∧ (c ∈ τ.reads ∨ c ∈ τ.writes)) ∨ (c ∈ σ.reads ∧ c ∈ τ.writes)

/-- Schedule independence: every execution that completes ends with the memory of the
sequential program. -/
def Region.Deterministic [DecidableEq J] (P : Region Loc Cell V J) : Prop :=
  ∀ s s', P.Ends s s' → s' = sequential P.jobs P.body s

/-- No races: whenever two tasks may both run, none of their steps conflict. -/
def Region.RaceFree [DecidableEq J] (P : Region Loc Cell V J) : Prop :=
  ∀ s c s', P.Reach s (c, s') → ∀ x y, x ≠ y → P.Ready c x → P.Ready c y →
    ∀ σ ∈ P.body x, ∀ τ ∈ P.body y, ¬ σ.Conflict τ

/-- No deadlock: unless all tasks are complete, some task may run. -/
def Region.Progress [DecidableEq J] (P : Region Loc Cell V J) : Prop :=
  ∀ s c s', P.Reach s (c, s') → (∃ x ∈ P.jobs, ¬ P.Done c x) → ∃ x, P.Ready c x

/-- Every execution from any memory can be completed. -/
def Region.Completes [DecidableEq J] (P : Region Loc Cell V J) : Prop :=
  ∀ s c s', P.Reach s (c, s') →
    ∃ c' s'', Relation.ReflTransGen P.Move (c, s') (c', s'') ∧ ∀ x ∈ P.jobs, P.Done c' x

/-- The bodies touch only the cells the tasks are said to touch. -/
def Within (body : J → List (Step Cell V)) (reads writes : J → Set Cell) : Prop :=
  ∀ x, ∀ σ ∈ body x, σ.reads ⊆ reads x ∧ σ.writes ⊆ writes x

end Verif.Omp
