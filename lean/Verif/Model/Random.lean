import Verif.Model.Construct

/-
Model of the kernels that use a random number generator, src/functions.cpp:36-66.
-/

namespace Verif
variable {R : Type}

/-- `std::mt19937 gen` together with the distribution `dist` of functions.cpp:41, 44 and
57, 60: the state of both, the state after seeding (with a newly made distribution) and one
call `dist(gen)`.  The standard library is not modelled; the two kernels differ only in the
distribution. -/
structure Rng (R : Type) where
  State : Type
  seed : Nat → State
  draw : State → R × State

/-- `gen.seed(s)`, functions.cpp:43 and 59.  The standard requires the state to become that
of `std::mt19937(s)`; the distribution is made after it. -/
def Rng.reseed (g : Rng R) (_ : g.State) (s : Nat) : g.State := g.seed s

/-- `random_normal` and `random_uniform`, functions.cpp:36-50 and 52-66.  `rd` is what
`std::random_device` returns, which may be another number in every call. -/
def randomKernel (g : Rng R) (rd : (rows cols stride : Nat) → (rowStart colStart : Int) → Nat) : KernelFn R :=
  fun mem m n stride rs cs => do
    let gen := g.seed (rd m n stride rs cs)
    let gen := g.reseed gen 0
    let s ← loop m (fun i (s : (Nat → R) × g.State) => loop n (fun j s =>
      let d := g.draw s.2
      .ok (fun x => if x = i * stride + j then d.1 else s.1 x, d.2)) s) (mem, gen)
    .ok s.1

end Verif
