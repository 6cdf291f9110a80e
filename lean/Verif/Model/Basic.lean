/-
Common ground of the model: outcomes other than a normal return, and the two
loop shapes used by the C++ code.
-/

namespace Verif

/-- Outcomes of a modelled C++ function other than a normal return.

* `assertFail`: an `assert(...)` is violated (undefined behaviour follows in
  release builds, which define `NDEBUG`).
* `abort`: `std::abort()` is reached, possibly through
  `src/util/omm_error_handler.cpp:16-30`.
* `ub`: undefined behaviour (out-of-bounds access, null dereference, `vector`
  of negative size).
* `fuel`: the step budget of the model is used up; a C++ run that does not
  terminate shows up as `fuel` for every budget. -/
inductive Err where
  | assertFail
  | abort
  | ub
  | fuel
deriving DecidableEq, Repr

/-- `assert(b)` as used throughout `/repo/src` (with assertions enabled). -/
def assertM (b : Bool) : Except Err Unit :=
  if b then .ok () else .error .assertFail

/-- A counted loop `for (int64_t i=0; i<n; i++) s = body(i, s)` whose body may
fail. -/
def loop {σ : Type _} (n : Nat) (body : Nat → σ → Except Err σ) (s : σ) : Except Err σ :=
  match n with
  | 0 => .ok s
  | n + 1 => do
    let s ← loop n body s
    body n s

/-- Filling a `std::vector` of length `n` element by element in increasing
order, `for (i<n) v[i] = f(i)`, where computing an element may fail.  The result
is represented as a function; only its values below `n` are meaningful. -/
def collect {α : Type _} [Inhabited α] (n : Nat) (f : Nat → Except Err α) :
    Except Err (Nat → α) :=
  match n with
  | 0 => .ok (fun _ => default)
  | n + 1 => do
    let g ← collect n f
    let x ← f n
    .ok (fun i => if i = n then x else g i)

/-- Filling an `m`-by-`n` block container in row-major order,
`for (i<m) for (j<n) out(i,j) = f(i,j)` (the loop nest used for `Hierarchical`
everywhere in `/repo/src`). -/
def collect2 {α : Type _} [Inhabited α] (m n : Nat) (f : Nat → Nat → Except Err α) :
    Except Err (Nat → Nat → α) :=
  collect m (fun i => collect n (f i))

end Verif
