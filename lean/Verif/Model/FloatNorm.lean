import Verif.Model.RealOps

/-
`norm` and `l2_error` as they run on `double`: every operation that rounds is an
operation of an unspecified floating-point arithmetic, applied in the order of
the source.  The control flow is that of `Mat.norm` and `Mat.collectDiffNorm`.
-/

namespace Verif

open Finset

/-- The rounding operations the two functions execute.  `sqAdd s x` is the
statement `s += x * x` (norm.cpp:28): two roundings, or one if the compiler
fuses them.  `gemm k a b i j` is entry `(i,j)` of `cblas_dgemm` with `alpha = 1`,
`beta = 0` and inner dimension `k` (the two calls behind dense.cpp:73-75); BLAS
may add the products in any order, which is why it is not built from `add`.
`double` values are represented by the real numbers they denote; overflow,
underflow, infinities and NaN are not modelled. -/
structure FlArith where
  add : ℝ → ℝ → ℝ
  sub : ℝ → ℝ → ℝ
  div : ℝ → ℝ → ℝ
  sqrt : ℝ → ℝ
  sqAdd : ℝ → ℝ → ℝ
  gemm : Nat → (Nat → Nat → ℝ) → (Nat → Nat → ℝ) → Nat → Nat → ℝ

namespace FlArith

variable (F : FlArith)

/-- A double loop `for i < m, for j < n: s = f(s, i, j)`. -/
def loop2 (m n : Nat) (f : ℝ → Nat → Nat → ℝ) (s : ℝ) : ℝ :=
  (List.range m).foldl (fun s i => (List.range n).foldl (fun s j => f s i j) s) s

/-- `norm_omm(Dense)`, norm.cpp:24-32. -/
def normDense (A : Dense ℝ) : ℝ :=
  loop2 A.rows A.cols (fun s i j => F.sqAdd s (A.val i j)) 0

/-- `gemm` on `Dense` with `alpha = 1`, `beta = 0` and no transposition: asserts of
gemm.cpp:44-49, call of gemm.cpp:134-146. -/
def gemmDense (A B C : Dense ℝ) : Except Err (Dense ℝ) := do
  assertM (decide (A.rows = C.rows))
  assertM (decide (A.cols = B.rows))
  assertM (decide (B.cols = C.cols))
  .ok ⟨C.rows, C.cols, F.gemm A.cols A.val B.val⟩

/-- `fill_dense_from(LowRank, Dense)`, dense.cpp:73-75. -/
def fillDense (A : LowRank ℝ) (B : Dense ℝ) : Except Err (Dense ℝ) := do
  assertM (decide (A.U.cols = A.S.rows))
  let US ← F.gemmDense A.U A.S (Dense.zero A.U.rows A.S.cols)
  F.gemmDense US A.V B

/-- `fill_dense_from`, dense.cpp:64-92. -/
def fillDenseFrom : Mat ℝ → Dense ℝ → Except Err (Dense ℝ)
  | .dense d, B => do
    assertM (decide (d.rows = B.rows))
    assertM (decide (d.cols = B.cols))
    .ok ⟨B.rows, B.cols, fun i j => d.val (0 + i) (0 + j)⟩
  | .lowRank l, B => F.fillDense l B
  | .hier br bc blk, B => do
    let BH ← Mat.splitLikeH (.dense B) br bc blk
    match BH with
    | .hier _ _ b =>
      let g ← collect2 br bc (fun i j => (b i j).asDense >>= fillDenseFrom (blk i j))
      .ok ⟨B.rows, B.cols,
        Mat.joinVal br bc (fun i => (blk i 0).nRows) (fun j => (blk 0 j).nCols) g⟩
    | _ => .error .abort
  | .empty m n, B => do
    assertM (decide (m = B.rows))
    assertM (decide (n = B.cols))
    .ok (B.fill 0)

/-- `Dense(const Matrix&)`, dense.cpp:56-62. -/
def toDense (A : Mat ℝ) : Except Err (Dense ℝ) :=
  F.fillDenseFrom A (Dense.zero A.nRows A.nCols)

/-- `norm_omm`, norm.cpp:20-49. -/
def norm : Mat ℝ → Except Err ℝ
  | .dense d => .ok (F.normDense d)
  | .lowRank l => do
    let d ← F.toDense (.lowRank l)
    .ok (F.normDense d)
  | .hier br bc blk => do
    let g ← collect2 br bc (fun i j => norm (blk i j))
    .ok (loop2 br bc (fun s i j => F.add s (g i j)) 0)
  | .empty _ _ => .error .abort

/-- `subtraction_omm(Dense, Dense)`, subtraction.cpp:26-40. -/
def subtract (A B : Dense ℝ) : Except Err (Dense ℝ) := do
  assertM (decide (A.rows = B.rows))
  assertM (decide (A.cols = B.cols))
  .ok ⟨A.rows, A.cols, fun i j => F.sub (A.val i j) (B.val i j)⟩

/-- `collect_diff_norm_omm(Dense, Dense)`, l2_error.cpp:43-49. -/
def diffNormDense (a b : Dense ℝ) : Except Err (ℝ × ℝ) := do
  let d ← F.subtract a b
  .ok (F.normDense d, F.normDense a)

/-- `collect_diff_norm_omm`, l2_error.cpp:26-108, with a budget for the recursion
depth. -/
def collectDiffNorm : Nat → Mat ℝ → Mat ℝ → Except Err (ℝ × ℝ)
  | 0, _, _ => .error .fuel
  | fuel + 1, A, B =>
    match A, B with
    | .dense a, .dense b => F.diffNormDense a b
    | .dense a, .lowRank b => do F.diffNormDense a (← F.toDense (.lowRank b))
    | .lowRank a, .dense b => do F.diffNormDense (← F.toDense (.lowRank a)) b
    | .lowRank a, .lowRank b => do
      let a' ← F.toDense (.lowRank a)
      let b' ← F.toDense (.lowRank b)
      F.diffNormDense a' b'
    | .hier br bc blk, .hier br' bc' blk' =>
      if br = br' ∧ bc = bc' then do
        let g ← collect2 br bc (fun i j => collectDiffNorm fuel (blk i j) (blk' i j))
        .ok (loop2 br bc (fun s i j => F.add s (g i j).1) 0,
             loop2 br bc (fun s i j => F.add s (g i j).2) 0)
      else do
        let a' ← F.toDense (.hier br bc blk)
        let b' ← F.toDense (.hier br' bc' blk')
        F.diffNormDense a' b'
    | .hier br bc blk, B => do
      let BH ← B.split br bc
      collectDiffNorm fuel (.hier br bc blk) BH
    | A, .hier br bc blk => do
      let AH ← A.split br bc
      collectDiffNorm fuel AH (.hier br bc blk)
    | _, _ => .error .abort

/-- `l2_error`, l2_error.cpp:35-41: the final square root, division and addition
of `machEps` (`std::numeric_limits<double>::epsilon()`) round as well. -/
def l2Error (machEps : ℝ) (fuel : Nat) (A B : Mat ℝ) : Except Err ℝ := do
  assertM (decide (A.nRows = B.nRows))
  assertM (decide (A.nCols = B.nCols))
  let p ← F.collectDiffNorm fuel A B
  .ok (F.sqrt (F.div p.1 (F.add p.2 machEps)))

end FlArith
end Verif
