import Verif.Model.Mat
import Mathlib.Analysis.Real.Sqrt

/-
`truncated_geqp3`, src/operations/LAPACK/geqp3.cpp:69-191; `double` is modelled by
`ℝ`.
-/

namespace Verif
open Finset

/-- What the routine calls: `dlarfg` for a vector of the given length (the new first
entry, the vector `v` from index 1 on, and `tau`), `dlamch('e')`, and the outcome
of reading the element one past the end of a vector (undefined behaviour in C++;
some number on the machines the library runs on). -/
structure Geqp3Env where
  /-- `LAPACKE_dlarfg`, geqp3.cpp:117 and 121. -/
  larfg : Nat → (Nat → ℝ) → ℝ × (Nat → ℝ) × ℝ
  /-- `LAPACKE_dlamch('e')`, geqp3.cpp:79. -/
  tol : ℝ
  /-- `*cnorm.end()`. -/
  past : Except Err ℝ

namespace Geqp3
noncomputable section

/-- `std::max_element` on the `t + 1` elements of `c` that begin at `r`: the first
maximum. -/
def maxIdx (c : Nat → ℝ) (r : Nat) : Nat → Nat
  | 0 => r
  | t + 1 => if c (maxIdx c r t) < c (r + 1 + t) then r + 1 + t else maxIdx c r t

/-- `*std::max_element(cnorm.begin() + r, cnorm.end())`, geqp3.cpp:94 and 161: the
past-the-end iterator is dereferenced if the range is empty. -/
def maxAt (E : Geqp3Env) (n : Nat) (c : Nat → ℝ) (r : Nat) : Except Err ℝ :=
  if r < n then .ok (c (maxIdx c r (n - r - 1))) else E.past

/-- The local variables of the loop. -/
structure St where
  /-- `A` -/
  A : Nat → Nat → ℝ
  /-- `tau` -/
  tau : Nat → ℝ
  /-- `ipiv` (a vector of doubles that holds column numbers) -/
  ipiv : Nat → Nat
  /-- `cnorm` -/
  cnorm : Nat → ℝ
  /-- `partial_cnorm` -/
  pcnorm : Nat → ℝ
  /-- `r` -/
  r : Nat

/-- `std::swap(x[r], x[k])`. -/
def swapAt {α : Type} (x : Nat → α) (r k : Nat) : Nat → α :=
  fun j => if j = r then x k else if j = k then x r else x j

/-- `cblas_dnrm2` of the rows `lo ≤ i < m` of column `j`. -/
def colNorm (A : Nat → Nat → ℝ) (lo m j : Nat) : ℝ := Real.sqrt (∑ i ∈ Ico lo m, A i j * A i j)

/-- Initial values, geqp3.cpp:82-93. -/
def init (m : Nat) (A : Nat → Nat → ℝ) : St where
  A := A
  tau := fun _ => 0
  ipiv := fun j => j
  cnorm := fun j => colNorm A 0 m j
  pcnorm := fun j => colNorm A 0 m j
  r := 0

/-- Pivot selection and swaps, geqp3.cpp:104-109. -/
def pivot (n : Nat) (s : St) : St :=
  let k := maxIdx s.cnorm s.r (n - s.r - 1)
  { s with
    A := fun i => swapAt (s.A i) s.r k
    cnorm := swapAt s.cnorm s.r k
    pcnorm := swapAt s.pcnorm s.r k
    ipiv := swapAt s.ipiv s.r k }

/-- Householder vector of column `r`, geqp3.cpp:111-122. -/
def house (E : Geqp3Env) (m : Nat) (s : St) : St :=
  let g := E.larfg (m - s.r) (fun i => s.A (s.r + i) s.r)
  { s with
    A := fun i j => if j = s.r ∧ s.r ≤ i then (if i = s.r then g.1 else g.2.1 (i - s.r)) else s.A i j
    tau := fun j => if j = s.r then g.2.2 else s.tau j }

/-- Application of the reflector to the columns on the right, geqp3.cpp:124-136
(`cblas_dgemv` and `cblas_dger` by definition). -/
def apply (m n : Nat) (s : St) : St :=
  if s.r < min m n - 1 then
    let v := fun i => if i = s.r then 1 else s.A i s.r
    let w := fun j => ∑ i ∈ Ico s.r m, s.A i j * v i
    { s with A := fun i j => if s.r ≤ i ∧ s.r < j then s.A i j - s.tau s.r * v i * w j else s.A i j }
  else s

/-- New value of `cnorm[j]` and `partial_cnorm[j]`, geqp3.cpp:138-158. -/
def downdate (E : Geqp3Env) (m : Nat) (s : St) (j : Nat) : ℝ × ℝ :=
  if s.cnorm j ≠ 0 then
    let t := |s.A s.r j / s.cnorm j|
    let temp := max 0 ((1 - t) * (1 + t))
    let temp2 := temp * (s.cnorm j / s.pcnorm j) * (s.cnorm j / s.pcnorm j)
    if temp2 > Real.sqrt E.tol then (s.cnorm j * Real.sqrt temp, s.pcnorm j)
    else if s.r < m - 1 then (colNorm s.A (s.r + 1) m j, colNorm s.A (s.r + 1) m j)
    else (0, 0)
  else (s.cnorm j, s.pcnorm j)

/-- The loop over the columns, geqp3.cpp:137-159, and `r++`. -/
def norms (E : Geqp3Env) (m : Nat) (s : St) : St :=
  { s with
    cnorm := fun j => if s.r < j then (downdate E m s j).1 else s.cnorm j
    pcnorm := fun j => if s.r < j then (downdate E m s j).2 else s.pcnorm j
    r := s.r + 1 }

/-- One pass of the loop body without the last statement, geqp3.cpp:104-160. -/
def step (E : Geqp3Env) (m n : Nat) (s : St) : St := norms E m (apply m n (house E m (pivot n s)))

/-- The loop, geqp3.cpp:103-162; the first argument is `min_dim - r`, `mc` is
`max_cnorm`. -/
def run (E : Geqp3Env) (m n : Nat) (thr : ℝ) : Nat → St → ℝ → Except Err St
  | 0, s, _ => .ok s
  | t + 1, s, mc =>
    if mc > thr then do
      let s' := step E m n s
      let mc' ← maxAt E n s'.cnorm s'.r
      run E m n thr t s' mc'
    else .ok s

/-- `x - tau v (v^T x)`: the reflector stored in column `l`, applied to a vector of
length `m`. -/
def hh (m : Nat) (tau : ℝ) (v x : Nat → ℝ) (i : Nat) : ℝ :=
  x i - tau * v i * ∑ l ∈ range m, v l * x l

/-- The vector of the reflector stored in column `l` below the diagonal. -/
def vec (A : Nat → Nat → ℝ) (l i : Nat) : ℝ := if i < l then 0 else if i = l then 1 else A i l

/-- The product `H_0 ... H_{r-1}` of the stored reflectors, applied to a vector. -/
def applyQ (m : Nat) (s : St) : Nat → (Nat → ℝ) → Nat → ℝ
  | 0, x => x
  | r + 1, x => applyQ m s r (hh m (s.tau r) (vec s.A r) x)

/-- `Q`, geqp3.cpp:163-171.  `dorgqr` by definition: the first `r` columns of the
product of the reflectors. -/
def formQ (m : Nat) (s : St) : Dense ℝ :=
  ⟨m, s.r, fun i j => applyQ m s s.r (fun p => if p = j then 1 else 0) i⟩

/-- `ipivT` after `i` passes of the loop, geqp3.cpp:181-182. -/
def ipivT (ipiv : Nat → Nat) : Nat → Nat → Nat
  | 0, _ => 0
  | i + 1, c => if c = ipiv i then i else ipivT ipiv i c

/-- `R` with its columns put back, geqp3.cpp:172-188. -/
def formR (n : Nat) (s : St) : Dense ℝ :=
  ⟨s.r, n, fun i j => if i ≤ ipivT s.ipiv n j then s.A i (ipivT s.ipiv n j) else 0⟩

end
end Geqp3

open Geqp3 in
/-- `truncated_geqp3(A, eps)`, geqp3.cpp:71-191.  In the case of a zero matrix
(geqp3.cpp:96-102) `Q(0,0) = 1` violates an assertion if there is no row. -/
noncomputable def truncatedGeqp3 (E : Geqp3Env) (A : Dense ℝ) (eps : ℝ) : Except Err (Dense ℝ × Dense ℝ) := do
  let s := init A.rows A.val
  let thr := eps * Real.sqrt (Mat.normDense A)
  let mc ← maxAt E A.cols s.cnorm 0
  if mc ≤ E.tol then do
    assertM (decide (0 < A.rows))
    .ok (⟨A.rows, 1, fun i j => if i = 0 ∧ j = 0 then 1 else 0⟩, Dense.zero 1 A.cols)
  else do
    let s' ← run E A.rows A.cols thr (min A.rows A.cols) s mc
    .ok (formQ A.rows s', formR A.cols s')

end Verif
