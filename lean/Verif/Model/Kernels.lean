import Verif.Model.Construct
import Mathlib.Analysis.Real.Sqrt
import Mathlib.Analysis.Complex.Exponential

/-
Model of the built-in kernels, src/functions.cpp.
-/

namespace Verif

/-- The loop nest shared by all kernels of functions.cpp (for example 97-108):
`A[i*A_stride+j] = e(i+row_start, j+col_start)`. -/
def kernelLoop {R : Type} (e : (i j : Nat) → (cols : Nat) → (gi gj : Int) → Except Err R) :
    KernelFn R := fun mem m n stride rs cs =>
  loop m (fun i mem => loop n (fun j mem => do
    let v ← e i j n (rs + i) (cs + j)
    .ok (fun x => if x = i * stride + j then v else mem x)) mem) mem

/-- `x[k][i]`: reading past the end (or at a negative index, which wraps to a
huge `uint64_t`) is undefined. -/
def coordAt (x : List ℝ) (i : Int) : Except Err ℝ :=
  if h : 0 ≤ i ∧ i.toNat < x.length then .ok (x[i.toNat]'h.2) else .error .ub

/-- `x[d]`: the coordinate list of dimension `d`. -/
def dimAt (x : List (List ℝ)) (d : Nat) : Except Err (List ℝ) :=
  if h : d < x.length then .ok x[d] else .error .ub

/-- The accumulation `rij += (x[k][i]-x[k][j])^2` over the dimensions,
functions.cpp:99-105 and 118-124. -/
def distSq (x : List (List ℝ)) (gi gj : Int) : Except Err ℝ :=
  x.foldlM (fun rij xk => do
    let a ← coordAt xk gi
    let b ← coordAt xk gj
    .ok (rij + (a - b) * (a - b))) 0

/-- The kernels of functions.cpp whose entries do not come from a random number
generator (those that do: `Verif/Model/Random.lean`). -/
inductive Builtin where
  | zeros | identity | cauchy2d | laplacend | helmholtznd
deriving DecidableEq

/-- Entry written by a kernel for the global position `(gi,gj)`:
`zeros` functions.cpp:20, `identity` functions.cpp:31 (the comparison is made in
`uint64_t`, which does not change equality), `cauchy2d` functions.cpp:86-87,
`laplacend` functions.cpp:99-106, `helmholtznd` functions.cpp:118-125. -/
noncomputable def Builtin.entry (x : List (List ℝ)) : Builtin → Int → Int → Except Err ℝ
  | .zeros, _, _ => .ok 0
  | .identity, gi, gj => .ok (if gi = gj then 1 else 0)
  | .cauchy2d, gi, gj => do
    let a ← coordAt (← dimAt x 0) gi
    let b ← coordAt (← dimAt x 1) gj
    .ok (1 / ((a - b) + 1 / 100))
  | .laplacend, gi, gj => do
    let rij ← distSq x gi gj
    .ok (1 / (Real.sqrt rij + 1 / 1000))
  | .helmholtznd, gi, gj => do
    let rij ← distSq x gi gj
    .ok (Real.exp (-1 * rij) / (Real.sqrt rij + 1 / 1000))

/-- The built-in kernels, functions.cpp:14-34, 79-128. -/
noncomputable def Builtin.kernel (b : Builtin) (x : List (List ℝ)) : KernelFn ℝ :=
  kernelLoop (fun _ _ _ gi gj => b.entry x gi gj)

/-- `arange`, functions.cpp:68-77: numbers the entries of the block it is given,
whatever its offset. -/
noncomputable def arange : KernelFn ℝ :=
  kernelLoop (fun i j n _ _ => .ok ((i * n + j : Nat) : ℝ))

end Verif
