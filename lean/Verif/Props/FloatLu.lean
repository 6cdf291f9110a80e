import Verif.Props.FloatTri
import Verif.Lemmas.FloatLuTotal

/-
C77: LU factorization and solution of linear systems in floating-point arithmetic.
-/

namespace Verif
open Finset

variable {F : FlLapack} {u : ℝ}

/-- C77: the factors `getrf` computes in floating-point arithmetic are triangular, the lower
one with ones on its diagonal, and their product differs from the matrix by no more than
`3 n` rounding errors, relative to the absolute values of the factors and the matrix; `n` is
the order of the matrix. -/
theorem C77_factor (hF : F.Sound u) (fuel : Nat) {A L U : Mat ℝ} (hA : A.WF) (hd : A.DenseLeaves)
    (hL : A.LuFits) (fA : A.Filled) (h : F.getrf fuel A = .ok (L, U, false)) :
    L.nRows = A.nRows ∧ L.nCols = A.nRows ∧ U.nRows = A.nRows ∧ U.nCols = A.nRows ∧
    (∀ i < A.nRows, L.entry i i = 1) ∧
    (∀ i < A.nRows, ∀ j < A.nRows, i < j → L.entry i j = 0) ∧
    (∀ i < A.nRows, ∀ j < A.nRows, j < i → U.entry i j = 0) ∧
    ∀ i < A.nRows, ∀ j < A.nRows,
      |∑ l ∈ range A.nRows, L.entry i l * U.entry l j - A.entry i j| ≤
        ((1 + u) ^ (3 * A.nRows) - 1) *
        (∑ l ∈ range A.nRows, |L.entry i l| * |U.entry l j| + |A.entry i j|) := by
  have R := Mat.getrf_fl hF fuel hA hd hL fA h
  have P := R.pos
  have e := hL.diagSquare.dims hA
  refine ⟨P.lrows, P.lcols.trans e.symm, P.urows, P.ucols.trans e.symm, fun i hi => ?_,
    fun i hi j hj hij => ?_, fun i hi j hj hij => ?_, fun i hi j hj => ?_⟩
  · rw [P.low i hi i (by omega)]
    simp [Mat.triEntry]
  · rw [P.low i hi j (by omega)]
    simp only [Mat.triEntry]
    rw [if_neg (by omega), if_neg (by omega)]
  · rw [P.up i hi j (by omega)]
    simp only [Mat.triEntry]
    rw [if_neg (by omega), if_neg (by omega)]
  · have E := R.ent rfl i hi j (by omega)
    rw [Mat.prodEntry_ff, Mat.prodEntry_ff, Mat.nCols_abs, P.lcols, ← e,
      Mat.abs_entry hA hd hi (by omega), mul_comm A.nRows 3] at E
    have c : ∑ l ∈ range A.nRows, L.abs.entry i l * U.abs.entry l j =
        ∑ l ∈ range A.nRows, |L.entry i l| * |U.entry l j| := by
      refine Finset.sum_congr rfl fun l hl => ?_
      have hl := mem_range.1 hl
      rw [Mat.abs_entry_plain P.lwf R.lplain (by rw [P.lrows]; exact hi) (by rw [P.lcols, ← e]; exact hl),
        Mat.abs_entry_plain P.uwf R.uplain (by rw [P.urows]; exact hl) (by rw [P.ucols, ← e]; exact hj)]
    rw [← c]
    exact E

/-- C77, backward error of the factorization: the factors are the exact factors of a matrix
that differs from `A` by a small multiple of the product of their absolute values. -/
theorem C77_backward (hF : F.Sound u) (fuel : Nat) {A L U : Mat ℝ} (hA : A.WF) (hd : A.DenseLeaves)
    (hL : A.LuFits) (fA : A.Filled) (hu : (1 + u) ^ (3 * A.nRows) < 2)
    (h : F.getrf fuel A = .ok (L, U, false)) :
    ∀ i < A.nRows, ∀ j < A.nRows,
      |∑ l ∈ range A.nRows, L.entry i l * U.entry l j - A.entry i j| ≤
        2 * ((1 + u) ^ (3 * A.nRows) - 1) / (2 - (1 + u) ^ (3 * A.nRows)) *
        ∑ l ∈ range A.nRows, |L.entry i l| * |U.entry l j| := by
  obtain ⟨-, -, -, -, -, -, -, E⟩ := C77_factor hF fuel hA hd hL fA h
  intro i hi j hj
  have R := E i hi j hj
  have g0 : (1 : ℝ) ≤ (1 + u) ^ (3 * A.nRows) := one_le_pow₀ (by linarith [hF.u0])
  have s : |∑ l ∈ range A.nRows, L.entry i l * U.entry l j| ≤
      ∑ l ∈ range A.nRows, |L.entry i l| * |U.entry l j| :=
    (Finset.abs_sum_le_sum_abs _ _).trans (le_of_eq (Finset.sum_congr rfl fun l _ => abs_mul _ _))
  have t := abs_sub_abs_le_abs_sub (A.entry i j) (∑ l ∈ range A.nRows, L.entry i l * U.entry l j)
  rw [abs_sub_comm] at t
  rw [div_mul_eq_mul_div, le_div_iff₀ (by linarith)]
  nlinarith

/-- C77, solution of linear systems: factorization and two triangular solves in
floating-point arithmetic give, for every right-hand side, the exact solution of a system
whose matrix differs from `A` by a small multiple of the product of the absolute values of
the computed factors. -/
theorem C77_solve (hF : F.Sound u) (fuel : Nat) {A L U B Y X : Mat ℝ} (hA : A.WF) (hd : A.DenseLeaves)
    (hL : A.LuFits) (fA : A.Filled) (hB : B.WF) (dB : B.DenseLeaves) (fB : B.Filled)
    (hT : Mat.TriFits .left A B) (hn : A.nRows = B.nRows) (hu : (1 + u) ^ (3 * A.nRows) < 2)
    (h1 : F.getrf fuel A = .ok (L, U, false)) (h2 : F.trsm fuel L B .lower .left = .ok Y)
    (h3 : F.trsm fuel U Y .upper .left = .ok X) :
    B.SameShape X ∧ ∀ j < B.nCols, ∃ E : Nat → Nat → ℝ,
      (∀ i < A.nRows, ∀ k < A.nRows, |E i k| ≤
        (3 * (2 * ((1 + u) ^ (3 * A.nRows) - 1) / (2 - (1 + u) ^ (3 * A.nRows))) +
          (2 * ((1 + u) ^ (3 * A.nRows) - 1) / (2 - (1 + u) ^ (3 * A.nRows))) ^ 2) *
        ∑ l ∈ range A.nRows, |L.entry i l| * |U.entry l k|) ∧
      ∀ i < A.nRows, ∑ k ∈ range A.nRows, (A.entry i k + E i k) * X.entry k j = B.entry i j := by
  have R := Mat.getrf_fl hF fuel hA hd hL fA h1
  have P := R.pos
  have e := hL.diagSquare.dims hA
  have lD := P.ld.diagSquare hL.diagSquare
  have uD := P.ud.diagSquare hL.diagSquare
  have lT := P.ld.triFits hT
  obtain ⟨wY, sY, -⟩ := C76_solve hF fuel P.lwf hB lD lT (P.lrows.trans hn) R.lfill fB
    (Mat.SolveTarget.leaves dB) h2
  have dY := sY.dims hB
  have uT := P.ud.triFits (hT.shape sY)
  have lY := dB.shape sY
  have fY := fB.shape sY
  have unY : U.nRows = Y.nRows := P.urows.trans (hn.trans dY.1.symm)
  obtain ⟨wX, sX, -⟩ := C76_solve hF fuel P.uwf wY uD uT unY R.ufill fY (Mat.SolveTarget.leaves lY) h3
  refine ⟨sY.trans sX, fun j hj => ?_⟩
  obtain ⟨E1, b1, q1⟩ := C76_backward_left hF fuel P.lwf hB lD lT (P.lrows.trans hn) R.lfill fB R.lplain dB
    (by rw [P.lrows]; exact hu) h2 j hj
  obtain ⟨E2, b2, q2⟩ := C76_backward_left hF fuel P.uwf wY uD uT unY R.ufill fY R.uplain lY
    (by rw [P.urows]; exact hu) h3 j (by rw [dY.2]; exact hj)
  have b3 := C77_backward hF fuel hA hd hL fA hu h1
  rw [P.lrows] at b1 q1
  rw [P.urows] at b2 q2
  have g0 : (1 : ℝ) ≤ (1 + u) ^ (3 * A.nRows) := one_le_pow₀ (by linarith [hF.u0])
  have d0 : 0 ≤ 2 * ((1 + u) ^ (3 * A.nRows) - 1) / (2 - (1 + u) ^ (3 * A.nRows)) :=
    div_nonneg (by linarith) (by linarith)
  generalize 2 * ((1 + u) ^ (3 * A.nRows) - 1) / (2 - (1 + u) ^ (3 * A.nRows)) = δ at *
  have tL : ∀ i < A.nRows, ∀ l < A.nRows, L.triEntry .lower (decide (Uplo.lower = .lower)) i l =
      L.entry i l := fun i hi l hl => (P.low i hi l (by omega)).symm
  have tU : ∀ i < A.nRows, ∀ l < A.nRows, U.triEntry .upper (decide (Uplo.upper = .lower)) i l =
      U.entry i l := fun i hi l hl => (P.up i hi l (by omega)).symm
  refine ⟨fun i k => ∑ l ∈ range A.nRows, (L.entry i l + E1 i l) * (U.entry l k + E2 l k) - A.entry i k,
    fun i hi k hk => ?_, fun i hi => ?_⟩
  · have s : ∑ l ∈ range A.nRows, (L.entry i l + E1 i l) * (U.entry l k + E2 l k) - A.entry i k =
        (∑ l ∈ range A.nRows, L.entry i l * U.entry l k - A.entry i k) +
        ∑ l ∈ range A.nRows, (E1 i l * U.entry l k + L.entry i l * E2 l k + E1 i l * E2 l k) := by
      rw [sub_add_eq_add_sub, ← Finset.sum_add_distrib]
      congr 1
      exact Finset.sum_congr rfl fun l _ => by ring
    have t : |∑ l ∈ range A.nRows, (E1 i l * U.entry l k + L.entry i l * E2 l k + E1 i l * E2 l k)| ≤
        (2 * δ + δ ^ 2) * ∑ l ∈ range A.nRows, |L.entry i l| * |U.entry l k| := by
      rw [Finset.mul_sum]
      refine (Finset.abs_sum_le_sum_abs _ _).trans (Finset.sum_le_sum fun l hl => ?_)
      have hl := mem_range.1 hl
      have c1 := b1 i l
      have c2 := b2 l k
      rw [tL i hi l hl] at c1
      rw [tU l hl k hk] at c2
      have p1 := mul_le_mul c1 (le_refl |U.entry l k|) (abs_nonneg _) (by positivity)
      have p2 := mul_le_mul (le_refl |L.entry i l|) c2 (abs_nonneg _) (by positivity)
      have p3 := mul_le_mul c1 c2 (abs_nonneg _) (by positivity)
      refine (abs_add_le _ _).trans ((add_le_add (abs_add_le _ _) le_rfl).trans ?_)
      rw [abs_mul, abs_mul, abs_mul]
      nlinarith
    show |∑ l ∈ range A.nRows, (L.entry i l + E1 i l) * (U.entry l k + E2 l k) - A.entry i k| ≤ _
    rw [s]
    refine (abs_add_le _ _).trans ((add_le_add (b3 i hi k hk) t).trans (le_of_eq ?_))
    ring
  · have r : ∀ k, A.entry i k + (∑ l ∈ range A.nRows, (L.entry i l + E1 i l) * (U.entry l k + E2 l k) -
        A.entry i k) = ∑ l ∈ range A.nRows, (L.entry i l + E1 i l) * (U.entry l k + E2 l k) :=
      fun k => by ring
    have q := q1 i (by omega)
    rw [Finset.sum_congr rfl fun l hl => by rw [tL i hi l (mem_range.1 hl)]] at q
    simp only [r]
    rw [← q]
    have y : ∀ l < A.nRows, Y.entry l j = ∑ k ∈ range A.nRows, (U.entry l k + E2 l k) * X.entry k j := by
      intro l hl
      rw [← q2 l (by rw [dY.1]; omega)]
      refine Finset.sum_congr rfl fun k hk => ?_
      rw [tU l hl k (mem_range.1 hk)]
    simp only [Finset.sum_mul]
    rw [Finset.sum_comm]
    refine Finset.sum_congr rfl fun l hl => ?_
    have hl := mem_range.1 hl
    rw [y l hl, Finset.mul_sum]
    exact Finset.sum_congr rfl fun k _ => by ring

/-- C77: for matrices subdivided regularly, the factorization in floating-point arithmetic
returns factors as in `C77_factor` unless rows would have to be interchanged, or ends with
a division by a pivot that is zero; nothing else can happen, whatever the entries and however
operations are rounded. -/
theorem C77_returns (hF : F.Sound u) {b : Nat} (hb : 2 ≤ b) {A : Mat ℝ} (hA : A.Regular b) (hd : A.DenseLeaves)
    (hS : A.LuSolvable b) (fA : A.Filled) {fuel : Nat} (hfuel : 6 * A.depth + 2 ≤ fuel) :
    (∃ L U s, F.getrf fuel A = .ok (L, U, s) ∧
      L.nRows = A.nRows ∧ L.nCols = A.nRows ∧ U.nRows = A.nRows ∧ U.nCols = A.nRows ∧
      (s = false → ∀ i < A.nRows, ∀ j < A.nRows,
        |∑ l ∈ range A.nRows, L.entry i l * U.entry l j - A.entry i j| ≤
          ((1 + u) ^ (3 * A.nRows) - 1) *
          (∑ l ∈ range A.nRows, |L.entry i l| * |U.entry l j| + |A.entry i j|))) ∨
    F.getrf fuel A = .error .ub := by
  have e := hS.luFits.diagSquare.dims hA.wf
  refine (Mat.fl_getrf_or (F := F) hb hA hd hS hfuel).imp ?_ id
  rintro ⟨⟨L, U, s⟩, h, P⟩
  refine ⟨L, U, s, h, P.lrows, P.lcols.trans e.symm, P.urows, P.ucols.trans e.symm, ?_⟩
  rintro rfl
  exact (C77_factor hF fuel hA.wf hd hS.luFits fA h).2.2.2.2.2.2.2

/-- C77, solution of linear systems with regularly subdivided matrices: once the factorization
has returned, the first solve returns, and the second unless a diagonal entry of the upper
factor is zero; without interchanges the result is as in `C77_solve`. -/
theorem C77_solve_returns (hF : F.Sound u) {b : Nat} (hb : 2 ≤ b) {A B : Mat ℝ} (hA : A.Regular b)
    (hd : A.DenseLeaves) (hS : A.LuSolvable b) (fA : A.Filled) (hB : B.WF) (hE : B.Even) (dB : B.DenseLeaves)
    (fB : B.Filled) (hSB : Mat.Solvable b .upper .left A B) (hn : A.nRows = B.nRows)
    (hu : (1 + u) ^ (3 * A.nRows) < 2) {fuel : Nat} (hfuel : 6 * max A.depth B.depth + 2 ≤ fuel) :
    F.getrf fuel A = .error .ub ∨ ∃ L U s Y, F.getrf fuel A = .ok (L, U, s) ∧
      F.trsm fuel L B .lower .left = .ok Y ∧
      ((∃ i < A.nRows, U.entry i i = 0) ∨ ∃ X, F.trsm fuel U Y .upper .left = .ok X ∧ B.SameShape X ∧
        (s = false → ∀ j < B.nCols, ∃ E : Nat → Nat → ℝ,
          (∀ i < A.nRows, ∀ k < A.nRows, |E i k| ≤
            (3 * (2 * ((1 + u) ^ (3 * A.nRows) - 1) / (2 - (1 + u) ^ (3 * A.nRows))) +
              (2 * ((1 + u) ^ (3 * A.nRows) - 1) / (2 - (1 + u) ^ (3 * A.nRows))) ^ 2) *
            ∑ l ∈ range A.nRows, |L.entry i l| * |U.entry l k|) ∧
          ∀ i < A.nRows, ∑ k ∈ range A.nRows, (A.entry i k + E i k) * X.entry k j = B.entry i j)) := by
  have hG : Mat.GemmStep (fun _ => False) b (max A.depth B.depth) (F.gemm fuel) :=
    Mat.fl_gemmStep F.toFlBlas hb (by omega)
  rcases Mat.fl_getrf_or (F := F) hb hA hd hS (fuel := fuel) (by omega) with ⟨⟨L, U, s⟩, h, P⟩ | h
  swap
  · exact Or.inl h
  have Pl : L.depth ≤ A.depth := P.ldep
  have Pu : U.depth ≤ A.depth := P.udep
  obtain ⟨Y, hY, sY, tY⟩ := Mat.fl_trsmWith_total (F := F) hG fuel L B P.low (fun h => (nomatch h))
    (P.ldep.trans (le_max_left _ _)) ⟨hB, dB.noEmpty, dB.square, hE, dB.all _⟩ (le_max_right _ _)
    (P.ld.solvable hSB.lower) (side := .left) (P.lrows.trans hn) (by omega)
  refine Or.inr ⟨L, U, s, Y, h, hY, ?_⟩
  by_cases hz : ∃ i < A.nRows, U.entry i i = 0
  · exact Or.inl hz
  obtain ⟨X, hX, sX, -⟩ := Mat.fl_trsmWith_total (F := F) hG fuel U Y P.up
    (fun _ i hi h0 => hz ⟨i, by rw [← P.urows]; exact hi, h0⟩)
    (P.udep.trans (le_max_left _ _)) tY (by rw [sY.depth]; exact le_max_right _ _)
    ((P.ud.solvable hSB).shape sY tY.wf) (side := .left)
    (P.urows.trans (hn.trans (sY.dims hB).1.symm)) (by omega)
  refine Or.inr ⟨X, hX, sY.trans sX, ?_⟩
  rintro rfl
  exact (C77_solve hF fuel hA.wf hd hS.luFits fA hB dB fB hSB.triFits hn hu h hY hX).2

/-- A number as a matrix. -/
def oneR (x : ℝ) : Dense ℝ := ⟨1, 1, fun _ _ => x⟩

/-- A matrix split into four numbers. -/
def fourR : Mat ℝ := .hier 2 2 (fun i j => .dense (oneR (if i = j then 2 else 1)))

theorem trsm_number (fl : ℝ → ℝ) (fuel : Nat) {a : Dense ℝ} (hr : a.rows = 1) (hc : a.cols = 1)
    (hz : a.val 0 0 ≠ 0) (b : Dense ℝ) (h0 : b.rows = 1) (h1 : b.cols = 1) (uplo : Uplo) (side : Side) :
    ∃ x : Dense ℝ, (FlLapack.ofRounding fl).trsm (fuel + 1) (.dense a) (.dense b) uplo side = .ok (.dense x) ∧
      x.rows = 1 ∧ x.cols = 1 ∧
      x.val 0 0 = fl (b.val 0 0 / if uplo = .lower then 1 else a.val 0 0) := by
  refine ⟨⟨b.rows, b.cols, (FlLapack.ofRounding fl).dtrsm uplo side (a.tri uplo (decide (uplo = .lower))) b⟩,
    ?_, h0, h1, ?_⟩
  · show (do let d ← FlLapack.trsmDense _ uplo side a b; Except.ok (Mat.dense d)) = _
    unfold FlLapack.trsmDense
    have n1 : side.pick b.rows b.cols = 1 := by cases side; exacts [h0, h1]
    simp only [n1]
    rw [if_neg (by omega), if_pos]
    · rfl
    · refine ⟨by omega, by omega, ?_⟩
      cases uplo <;> simp [Dense.tri, hz]
  · cases side <;> cases uplo <;> simp [FlLapack.ofRounding, h0, h1, substFl, subFl, Dense.solveOrder, Dense.tri,
      Mat.backwards, Side.pick]

theorem getrf_number (fl : ℝ → ℝ) (x : Dense ℝ) (hr : x.rows = 1) (hc : x.cols = 1) (hz : x.val 0 0 ≠ 0) :
    ∃ l r : Dense ℝ, Mat.getrfDense (FlLapack.ofRounding fl).dgetrf x = .ok (.dense l, .dense r, false) ∧
      l.rows = 1 ∧ l.cols = 1 ∧ r.rows = 1 ∧ r.cols = 1 ∧ l.val 0 0 = 1 ∧ r.val 0 0 = x.val 0 0 := by
  have hs : elimSwaps fl 1 x.val = false := by
    unfold elimSwaps
    refine decide_eq_false ?_
    rintro ⟨k, hk, h⟩
    obtain rfl : k = 0 := by omega
    rcases h with h | ⟨i, hi, hi', -⟩
    · exact hz (by simpa [subFl] using h)
    · omega
  refine ⟨⟨x.rows, x.cols, fun i j => if j < i then elimFl fl x.val 1 i j else if i = j then 1 else 0⟩,
    ⟨x.rows, x.cols, fun i j => if j < i then 0 else elimFl fl x.val 1 i j⟩, ?_, hr, hc, hr, hc, ?_, ?_⟩
  · simp only [Mat.getrfDense, assertM, hr, hc, le_refl, decide_true, if_true, except_bind_ok,
      FlLapack.ofRounding, hs]
  · simp
  · simp [elimFl, subFl]

theorem four_last {g : GemmT ℝ} {f : Mat ℝ → Except Err (Mat ℝ × Mat ℝ × Bool)}
    {su sl : Mat ℝ → Mat ℝ → Except Err (Mat ℝ)} {st : Mat.LuState ℝ} {l r : Mat ℝ} {i : Bool}
    (h : f (st.2.1 1 1) = .ok (l, r, i)) : ∃ st', Mat.getrfStep g f su sl 2 2 1 st = .ok st' ∧
      st'.1 1 1 = l ∧ st'.2.1 1 1 = r ∧ st'.2.2 = (st.2.2 || i) ∧
      ∀ a b, a < 1 ∨ b < 1 → st'.1 a b = st.1 a b ∧ st'.2.1 a b = st.2.1 a b := by
  simp only [Mat.getrfStep, Mat.blockAt, assertM, decide_true, if_true, except_bind_ok,
    show (1 < 2) = True by simp, h, show 2 - (1 + 1) = 0 from rfl, collect, collect2]
  refine ⟨_, rfl, ?_, ?_, rfl, fun a b hab => ⟨?_, ?_⟩⟩
  · simp
  · simp
  · simp only
    rw [if_neg (by omega), if_neg (by omega), if_neg (by omega)]
  · simp only
    rw [if_neg (by omega), if_neg (by omega), if_neg (by omega), if_neg (by omega)]

theorem four_getrf' {fl : ℝ → ℝ} (hu : u ≤ 1 / 1000) (hfl : ∀ x, |fl x - x| ≤ u * |x|) {A : Nat → Nat → Mat ℝ}
    {n00 n01 n10 n11 : Dense ℝ} (A00 : A 0 0 = .dense n00) (A01 : A 0 1 = .dense n01) (A10 : A 1 0 = .dense n10)
    (A11 : A 1 1 = .dense n11) (hn : ∀ d ∈ [n00, n01, n10, n11], d.rows = 1 ∧ d.cols = 1)
    (v00 : n00.val 0 0 = 2) (v01 : n01.val 0 0 = 1) (v10 : n10.val 0 0 = 1) (v11 : n11.val 0 0 = 2) (fuel : Nat) :
    ∃ (lb ub : Nat → Nat → Mat ℝ) (l0 l1 p q r0 r1 : Dense ℝ),
      (FlLapack.ofRounding fl).getrf (fuel + 8) (.hier 2 2 A) = .ok (.hier 2 2 lb, .hier 2 2 ub, false) ∧
      (lb 0 0 = .dense l0 ∧ lb 0 1 = .empty 1 1 ∧ lb 1 0 = .dense p ∧ lb 1 1 = .dense l1) ∧
      (ub 0 0 = .dense r0 ∧ ub 0 1 = .dense q ∧ ub 1 0 = .empty 1 1 ∧ ub 1 1 = .dense r1) ∧
      (∀ d ∈ [l0, l1, p, q, r0, r1], d.rows = 1 ∧ d.cols = 1) ∧ r0.val 0 0 ≠ 0 ∧ r1.val 0 0 ≠ 0 := by
  set F := FlLapack.ofRounding fl with hFd
  obtain ⟨l0, r0, g0, a1, a2, a3, a4, a5, a6⟩ := getrf_number fl n00 (hn n00 (by simp)).1 (hn n00 (by simp)).2 (by rw [v00]; norm_num)
  obtain ⟨p, hp, p0, p1, p2⟩ := trsm_number fl (fuel + 7) a3 a4 (by rw [a6, v00]; norm_num) n10 (hn n10 (by simp)).1 (hn n10 (by simp)).2
    .upper .right
  obtain ⟨q, hq, q0, q1, q2⟩ := trsm_number fl (fuel + 7) a1 a2 (by rw [a5]; simp) n01 (hn n01 (by simp)).1 (hn n01 (by simp)).2
    .lower .left
  obtain ⟨w, hw, w0, w1, w2⟩ : ∃ w : Dense ℝ,
      F.gemm (fuel + 8) (.dense p) (.dense q) (.dense n11) (-1) 1 false false = .ok (.dense w) ∧
      w.rows = 1 ∧ w.cols = 1 ∧ w.val 0 0 = fl (fl (1 * 2) + fl (fl (-1 * q.val 0 0) * p.val 0 0)) := by
    refine ⟨⟨1, 1, F.dgemm 1 1 1 (-1) (p.opVal false) (q.opVal false) 1 n11.val⟩, ?_, rfl, rfl, ?_⟩
    · simp [FlBlas.gemm, FlBlas.gemmBoth, FlBlas.gemmToDense, FlBlas.gemmDense, Mat.opRows, Mat.opCols,
        Mat.nRows, Mat.nCols, assertM, p0, p1, q0, q1, (hn n11 (by simp)).1, (hn n11 (by simp)).2, except_bind_ok]
    · simp [hFd, FlLapack.ofRounding, FlBlas.ofRounding, Dense.opVal, v11]
  have wz : w.val 0 0 ≠ 0 := by
    have B : ∀ x, |fl x| ≤ 2 * |x| ∧ |fl x - x| ≤ 1 / 1000 * |x| := fun x => by
      have h := hfl x
      have h' : |fl x - x| ≤ 1 / 1000 * |x| := h.trans (mul_le_mul_of_nonneg_right hu (abs_nonneg x))
      have := abs_sub_abs_le_abs_sub (fl x) x
      exact ⟨by linarith [abs_nonneg x], h'⟩
    have c1 := (B (1 / 2)).2
    have c2 := (B 1).2
    have c3 := (B (1 * 2)).2
    rw [a6, v00, v10] at p2
    simp only [reduceCtorEq, if_false] at p2
    rw [v01] at q2
    simp only [if_true, div_one] at q2
    have c4 := (B (-1 * q.val 0 0)).2
    have c5 := (B (fl (-1 * q.val 0 0) * p.val 0 0)).2
    have c6 := (B (fl (1 * 2) + fl (fl (-1 * q.val 0 0) * p.val 0 0))).2
    rw [← w2] at c6
    rw [← p2] at c1
    rw [← q2] at c2
    generalize fl (1 * 2) = y1 at *
    generalize fl (fl (-1 * q.val 0 0) * p.val 0 0) = y2 at *
    generalize fl (-1 * q.val 0 0) = y3 at *
    generalize q.val 0 0 = y4 at *
    generalize p.val 0 0 = y5 at *
    intro h0
    rw [h0] at c6
    norm_num at c1 c2 c3
    rw [abs_le] at c1 c2 c3
    have k4 : |y4| ≤ 11 / 10 := abs_le.2 ⟨by linarith, by linarith⟩
    have k5 : |y5| ≤ 6 / 10 := abs_le.2 ⟨by linarith, by linarith⟩
    have k3 : |y3| ≤ 12 / 10 := by
      have t := abs_sub_abs_le_abs_sub y3 (-1 * y4)
      have e : |(-1 : ℝ) * y4| = |y4| := by rw [neg_one_mul, abs_neg]
      rw [e] at t c4
      linarith
    have k2 : |y2| ≤ 1 := by
      have t := abs_sub_abs_le_abs_sub y2 (y3 * y5)
      have e : |y3 * y5| ≤ 12 / 10 * (6 / 10) := by
        rw [abs_mul]
        exact mul_le_mul k3 k5 (abs_nonneg _) (by norm_num)
      linarith
    rw [abs_le] at k2
    have k6 : 0 < y1 + y2 := by linarith
    rw [zero_sub, abs_neg, abs_of_pos k6] at c6
    linarith
  obtain ⟨l1, r1, g1, b1, b2, b3, b4, b5, b6⟩ := getrf_number fl w w0 w1 wz
  obtain ⟨lc, hlc⟩ := collect_exists (n := 2 - (0 + 1))
    (f := fun a => F.trsm (fuel + 8) (.dense r0) (A (0 + 1 + a) 0) .upper .right)
    (fun a ha => by
      obtain rfl : a = 0 := by omega
      rw [show 0 + 1 + 0 = 1 from rfl, A10]; exact ⟨_, hp⟩)
  obtain ⟨ur, hur⟩ := collect_exists (n := 2 - (0 + 1))
    (f := fun b => F.trsm (fuel + 8) (.dense l0) (A 0 (0 + 1 + b)) .lower .left)
    (fun a ha => by
      obtain rfl : a = 0 := by omega
      rw [show 0 + 1 + 0 = 1 from rfl, A01]; exact ⟨_, hq⟩)
  have lc0 : lc 0 = .dense p := by
    have := collect_ok hlc 0 (by omega)
    rw [show 0 + 1 + 0 = 1 from rfl, A10] at this
    exact Except.ok.inj (this.symm.trans hp)
  have ur0 : ur 0 = .dense q := by
    have := collect_ok hur 0 (by omega)
    rw [show 0 + 1 + 0 = 1 from rfl, A01] at this
    exact Except.ok.inj (this.symm.trans hq)
  obtain ⟨up, hup⟩ := collect2_exists (m := 2 - (0 + 1)) (n := 2 - (0 + 1))
    (f := fun a b => F.gemm (fuel + 8) (lc a) (ur b) (A (0 + 1 + a) (0 + 1 + b)) (-1) 1
      false false)
    (fun a ha b hb => by
      obtain rfl : a = 0 := by omega
      obtain rfl : b = 0 := by omega
      rw [lc0, ur0, show 0 + 1 + 0 = 1 from rfl, A11]
      exact ⟨_, hw⟩)
  have up0 : up 0 0 = .dense w := by
    have := collect2_ok hup 0 (by omega) 0 (by omega)
    rw [lc0, ur0, show 0 + 1 + 0 = 1 from rfl, A11] at this
    exact Except.ok.inj (this.symm.trans hw)
  have s0 : Mat.getrfStep (F.gemm (fuel + 8)) (Mat.getrfWith F.dgetrf (F.gemm (fuel + 8)) (fun X B => F.trsm (fuel + 8) X B .upper .right)
      (fun X B => F.trsm (fuel + 8) X B .lower .left) (fuel + 7)) (fun X B => F.trsm (fuel + 8) X B .upper .right)
      (fun X B => F.trsm (fuel + 8) X B .lower .left) 2 2 0 ((fun _ _ => .empty 0 0,
        A, false) : Mat.LuState ℝ) = .ok
      (fun a b =>
        if a = 0 ∧ b = 0 then .dense l0
        else if b = 0 ∧ 0 < a then lc (a - (0 + 1))
        else if a = 0 ∧ 0 < b then .empty (A a b).nRows (A a b).nCols
        else .empty 0 0,
      fun a b =>
        if a = 0 ∧ b = 0 then .dense r0
        else if b = 0 ∧ 0 < a then .empty (A a b).nRows (A a b).nCols
        else if a = 0 ∧ 0 < b then ur (b - (0 + 1))
        else if 0 < a ∧ 0 < b then up (a - (0 + 1)) (b - (0 + 1))
        else A a b,
      false || false) := by
    have g : Mat.getrfWith F.dgetrf (F.gemm (fuel + 8)) (fun X B => F.trsm (fuel + 8) X B .upper .right)
      (fun X B => F.trsm (fuel + 8) X B .lower .left) (fuel + 7) (A 0 0) = .ok (.dense l0, .dense r0, false) := by
      rw [A00]
      exact g0
    simp only [Mat.getrfStep, Mat.blockAt, assertM, decide_true, if_true, except_bind_ok,
      show (0 < 2) = True by simp, g, hlc, hur, hup]
  obtain ⟨st, s1, t1, t2, t3, t4⟩ := four_last (g := F.gemm (fuel + 8))
    (f := Mat.getrfWith F.dgetrf (F.gemm (fuel + 8)) (fun X B => F.trsm (fuel + 8) X B .upper .right)
      (fun X B => F.trsm (fuel + 8) X B .lower .left) (fuel + 7)) (su := fun X B => F.trsm (fuel + 8) X B .upper .right)
    (sl := fun X B => F.trsm (fuel + 8) X B .lower .left) (l := .dense l1) (r := .dense r1) (i := false)
    (st := (fun a b =>
        if a = 0 ∧ b = 0 then .dense l0
        else if b = 0 ∧ 0 < a then lc (a - (0 + 1))
        else if a = 0 ∧ 0 < b then .empty (A a b).nRows (A a b).nCols
        else .empty 0 0,
      fun a b =>
        if a = 0 ∧ b = 0 then .dense r0
        else if b = 0 ∧ 0 < a then .empty (A a b).nRows (A a b).nCols
        else if a = 0 ∧ 0 < b then ur (b - (0 + 1))
        else if 0 < a ∧ 0 < b then up (a - (0 + 1)) (b - (0 + 1))
        else A a b,
      false || false)) (by
        show Mat.getrfWith _ _ _ _ _ (up 0 0) = _
        rw [up0]
        exact g1)
  refine ⟨st.1, st.2.1, l0, l1, p, q, r0, r1, ?_, ⟨?_, ?_, ?_, t1⟩, ⟨?_, ?_, ?_, t2⟩, ?_, ?_, ?_⟩
  · show (loop 2 (Mat.getrfStep (F.gemm (fuel + 8))
        (Mat.getrfWith F.dgetrf (F.gemm (fuel + 8)) (fun X B => F.trsm (fuel + 8) X B .upper .right)
          (fun X B => F.trsm (fuel + 8) X B .lower .left) (fuel + 7)) (fun X B => F.trsm (fuel + 8) X B .upper .right)
        (fun X B => F.trsm (fuel + 8) X B .lower .left) 2 2)
      (fun _ _ => .empty 0 0, A, false) >>= _) = _
    simp only [loop, except_bind_ok]
    rw [s0, except_bind_ok, s1, except_bind_ok, t3]
    rfl
  · exact (t4 0 0 (Or.inl one_pos)).1
  · rw [(t4 0 1 (Or.inl one_pos)).1]
    show Mat.empty (A 0 1).nRows (A 0 1).nCols = _
    rw [A01]
    simp [Mat.nRows, Mat.nCols, (hn n01 (by simp)).1, (hn n01 (by simp)).2]
  · rw [(t4 1 0 (Or.inr one_pos)).1]
    exact lc0
  · exact (t4 0 0 (Or.inl one_pos)).2
  · rw [(t4 0 1 (Or.inl one_pos)).2]
    exact ur0
  · rw [(t4 1 0 (Or.inr one_pos)).2]
    show Mat.empty (A 1 0).nRows (A 1 0).nCols = _
    rw [A10]
    simp [Mat.nRows, Mat.nCols, (hn n10 (by simp)).1, (hn n10 (by simp)).2]
  · simp [*]
  · rw [a6, v00]
    norm_num
  · rw [b6]
    exact wz

theorem four_getrf {fl : ℝ → ℝ} (hu : u ≤ 1 / 1000) (hfl : ∀ x, |fl x - x| ≤ u * |x|) :
    ∃ (lb ub : Nat → Nat → Mat ℝ) (l0 l1 p q r0 r1 : Dense ℝ),
      (FlLapack.ofRounding fl).getrf 8 fourR = .ok (.hier 2 2 lb, .hier 2 2 ub, false) ∧
      (lb 0 0 = .dense l0 ∧ lb 0 1 = .empty 1 1 ∧ lb 1 0 = .dense p ∧ lb 1 1 = .dense l1) ∧
      (ub 0 0 = .dense r0 ∧ ub 0 1 = .dense q ∧ ub 1 0 = .empty 1 1 ∧ ub 1 1 = .dense r1) ∧
      (∀ d ∈ [l0, l1, p, q, r0, r1], d.rows = 1 ∧ d.cols = 1) ∧ r0.val 0 0 ≠ 0 ∧ r1.val 0 0 ≠ 0 :=
  four_getrf' hu hfl (A := fun i j => .dense (oneR (if i = j then 2 else 1))) rfl rfl rfl rfl (by simp [oneR])
    (by simp [oneR]) (by simp [oneR]) (by simp [oneR]) (by simp [oneR]) 0

theorem two_cases {i : Nat} (h : i < 2) : i = 0 ∨ i = 1 := by omega

/-- Blocks of one number each, on the diagonal and in the triangle dense. -/
theorem four_triRegular {blk : Nat → Nat → Mat ℝ} {uplo : Uplo}
    (h1 : ∀ i < 2, ∀ j < 2, (∃ d : Dense ℝ, d.rows = 1 ∧ d.cols = 1 ∧ blk i j = .dense d) ∨
      i ≠ j ∧ ¬Mat.InTri uplo i j ∧ blk i j = .empty 1 1) :
    (Mat.hier 2 2 blk).TriRegular 2 uplo ∧ (Mat.hier 2 2 blk).depth = 1 ∧
      (Mat.hier 2 2 blk).Filled := by
  have e : ∀ i < 2, ∀ j < 2, (blk i j).WF ∧ (blk i j).Even ∧ (blk i j).depth = 0 ∧
      (blk i j).nRows = 1 ∧ (blk i j).nCols = 1 := by
    intro i hi j hj
    rcases h1 i hi j hj with ⟨d, d1, d2, e⟩ | ⟨-, -, e⟩ <;> rw [e]
    · exact ⟨trivial, trivial, rfl, d1, d2⟩
    · exact ⟨trivial, trivial, rfl, rfl, rfl⟩
  have r : ∑ i ∈ range 2, (blk i 0).nRows = 2 := by
    simp [Finset.sum_range_succ, (e 0 (by omega) 0 (by omega)).2.2.2.1,
      (e 1 (by omega) 0 (by omega)).2.2.2.1]
  have c : ∑ i ∈ range 2, (blk 0 i).nCols = 2 := by
    simp [Finset.sum_range_succ, (e 0 (by omega) 0 (by omega)).2.2.2.2,
      (e 0 (by omega) 1 (by omega)).2.2.2.2]
  refine ⟨⟨⟨by omega, by omega, fun i hi j hj => ?_⟩, fun i hi j hj => ?_, rfl, rfl, fun i hi => ?_,
    fun i hi j hj hij => ?_⟩, ?_, fun i hi j hj => ?_, fun i hi j hj => ?_⟩
  · have a := e i hi j hj
    exact ⟨a.1, a.2.2.2.1.trans (e i hi 0 (by omega)).2.2.2.1.symm,
      a.2.2.2.2.trans (e 0 (by omega) j hj).2.2.2.2.symm⟩
  · have a := e i hi j hj
    rw [r, c, a.2.2.2.1, a.2.2.2.2]
    refine ⟨a.2.1, ?_, ?_⟩
    · rcases two_cases hi with rfl | rfl <;> decide
    · rcases two_cases hj with rfl | rfl <;> decide
  · rcases h1 i hi i hi with ⟨d, d1, d2, e⟩ | ⟨h, -⟩
    · rw [e]
      exact d1.trans d2.symm
    · exact absurd rfl h
  · rcases h1 i hi j hj with ⟨d, d1, d2, e⟩ | ⟨-, h, -⟩
    · rw [e]
      trivial
    · exact absurd hij h
  · have z : (range 2).sup (fun i => (range 2).sup (fun j => (blk i j).depth)) = 0 := by
      rw [Finset.sup_congr rfl fun i hi => Finset.sup_congr rfl fun j hj =>
        (e i (Finset.mem_range.1 hi) j (Finset.mem_range.1 hj)).2.2.1]
      rfl
    simp only [Mat.depth, z]
  · rcases h1 i hi j hj with ⟨d, d1, d2, e⟩ | ⟨-, -, e⟩ <;> rw [e]
    · exact lt_of_lt_of_eq one_pos d2.symm
    · exact one_pos
  · rcases h1 i hi j hj with ⟨d, d1, d2, e⟩ | ⟨-, -, e⟩ <;> rw [e]
    · exact lt_of_lt_of_eq one_pos d1.symm
    · exact one_pos

/-- Four blocks of one number each: factorization and both solves return, and no row is
interchanged. -/
theorem four_solve' {A : Nat → Nat → Mat ℝ}
    {n00 n01 n10 n11 : Dense ℝ} (A00 : A 0 0 = .dense n00) (A01 : A 0 1 = .dense n01) (A10 : A 1 0 = .dense n10)
    (A11 : A 1 1 = .dense n11) (hn : ∀ d ∈ [n00, n01, n10, n11], d.rows = 1 ∧ d.cols = 1)
    (v00 : n00.val 0 0 = 2) (v01 : n01.val 0 0 = 1) (v10 : n10.val 0 0 = 1) (v11 : n11.val 0 0 = 2) (fuel : Nat)
    (b : Dense ℝ) (hr : b.rows = 2) : ∃ (L U : Mat ℝ) (y x : Dense ℝ),
    (FlLapack.ofRounding nearest53).getrf (fuel + 8) (.hier 2 2 A) = .ok (L, U, false) ∧
    (FlLapack.ofRounding nearest53).trsm (fuel + 8) L (.dense b) .lower .left = .ok (.dense y) ∧
    (FlLapack.ofRounding nearest53).trsm (fuel + 8) U (.dense y) .upper .left = .ok (.dense x) ∧
    x.rows = 2 ∧ x.cols = b.cols := by
  have hF := C76_rounding (by positivity) nearest53_error
  obtain ⟨lb, ub, l0, l1, p, q, r0, r1, g, ⟨a1, a2, a3, a4⟩, ⟨b1, b2, b3, b4⟩, dm, n0, n1⟩ :=
    four_getrf' (by norm_num) nearest53_error A00 A01 A10 A11 hn v00 v01 v10 v11 fuel
  have hd : ∀ d ∈ [l0, l1, p, q, r0, r1], d.rows = 1 ∧ d.cols = 1 := dm
  obtain ⟨lT, ld, lf⟩ := four_triRegular (blk := lb) (uplo := .lower) (by
    intro i hi j hj
    rcases two_cases hi with rfl | rfl <;> rcases two_cases hj with rfl | rfl
    · exact Or.inl ⟨l0, (hd l0 (by simp)).1, (hd l0 (by simp)).2, a1⟩
    · exact Or.inr ⟨by omega, (fun h => by cases h), a2⟩
    · exact Or.inl ⟨p, (hd p (by simp)).1, (hd p (by simp)).2, a3⟩
    · exact Or.inl ⟨l1, (hd l1 (by simp)).1, (hd l1 (by simp)).2, a4⟩)
  obtain ⟨uT, ud, uf⟩ := four_triRegular (blk := ub) (uplo := .upper) (by
    intro i hi j hj
    rcases two_cases hi with rfl | rfl <;> rcases two_cases hj with rfl | rfl
    · exact Or.inl ⟨r0, (hd r0 (by simp)).1, (hd r0 (by simp)).2, b1⟩
    · exact Or.inl ⟨q, (hd q (by simp)).1, (hd q (by simp)).2, b2⟩
    · exact Or.inr ⟨by omega, (fun h => by cases h), b3⟩
    · exact Or.inl ⟨r1, (hd r1 (by simp)).1, (hd r1 (by simp)).2, b4⟩)
  have lr : (Mat.hier 2 2 lb).nRows = 2 := by
    simp only [Mat.nRows, Finset.sum_range_succ, Finset.sum_range_zero, a1, a3]
    simp [(hd l0 (by simp)).1, (hd p (by simp)).1]
  have ur : (Mat.hier 2 2 ub).nRows = 2 := by
    simp only [Mat.nRows, Finset.sum_range_succ, Finset.sum_range_zero, b1, b3]
    simp [(hd r0 (by simp)).1]
  obtain ⟨Y, hY⟩ := Mat.fl_trsm_total (F := FlLapack.ofRounding nearest53) (by omega : 2 ≤ 2) lT
    (fun h => by cases h) (B := .dense b) trivial trivial trivial (side := .left)
    (by rintro ⟨-, h⟩; cases h) (lr.trans hr.symm) (fuel := fuel + 8)
    (by rw [ld]; show 6 * max 1 0 + 2 ≤ fuel + 8; have : max 1 0 = 1 := rfl; omega)
  obtain ⟨y, rfl, y1, y2, -⟩ := C76_solve_dense hF (fuel + 8) lT.wf lT.sub.diagSquare (side := .left)
    (lr.trans hr.symm) lf hY
  have z : (Mat.hier 2 2 ub).DiagNonzero .upper := by
    intro _ i hi
    have s0 : (ub 0 0).nRows = 1 ∧ (ub 0 0).nCols = 1 := by rw [b1]; exact hd r0 (by simp)
    have s1 : (ub 1 0).nRows = 1 ∧ (ub 0 1).nCols = 1 := by
      rw [b2, b3]; exact ⟨rfl, (hd q (by simp)).2⟩
    rcases two_cases (lt_of_lt_of_eq hi ur) with rfl | rfl
    · have := Mat.entry_block (blk := ub) (br := 2) (bc := 2) (a := 0) (b := 0) (r := 0) (s := 0)
        (by omega) (by omega) (by omega) (by omega)
      simp only [psum, zero_add, Finset.sum_range_zero] at this
      rw [this, b1]
      exact n0
    · have := Mat.entry_block (blk := ub) (br := 2) (bc := 2) (a := 1) (b := 1) (r := 0) (s := 0)
        (by omega) (by omega) (by omega) (by omega)
      simp only [psum, Finset.sum_range_one, s0.1, s0.2, add_zero] at this
      rw [this, b4]
      exact n1
  obtain ⟨X, hX⟩ := Mat.fl_trsm_total (F := FlLapack.ofRounding nearest53) (by omega : 2 ≤ 2) uT z
    (B := .dense y) trivial trivial trivial (side := .left)
    (by rintro ⟨h, -⟩; cases h) (ur.trans (y1.trans hr).symm) (fuel := fuel + 8)
    (by rw [ud]; show 6 * max 1 0 + 2 ≤ fuel + 8; have : max 1 0 = 1 := rfl; omega)
  obtain ⟨x, rfl, x1, x2, -⟩ := C76_solve_dense hF (fuel + 8) uT.wf uT.sub.diagSquare (side := .left)
    (ur.trans (y1.trans hr).symm) uf hX
  exact ⟨_, _, y, x, g, hY, hX, x1.trans (y1.trans hr), x2.trans y2⟩

/-- Double precision: the matrix `[2 1; 1 2]` in four blocks is factored, both
triangular systems are solved for every dense right-hand side, and the result
solves a system with a nearby matrix. -/
example (b : Dense ℝ) (hr : b.rows = 2) : ∃ (L U : Mat ℝ) (y x : Dense ℝ),
    (FlLapack.ofRounding nearest53).getrf 8 fourR = .ok (L, U, false) ∧
    (FlLapack.ofRounding nearest53).trsm 8 L (.dense b) .lower .left = .ok (.dense y) ∧
    (FlLapack.ofRounding nearest53).trsm 8 U (.dense y) .upper .left = .ok (.dense x) ∧
    ∀ j < b.cols, ∃ E : Nat → Nat → ℝ,
      (∀ i < 2, ∀ k < 2, |E i k| ≤
        (3 * (2 * ((1 + (2 : ℝ) ^ (-53 : ℤ)) ^ 6 - 1) / (2 - (1 + (2 : ℝ) ^ (-53 : ℤ)) ^ 6)) +
          (2 * ((1 + (2 : ℝ) ^ (-53 : ℤ)) ^ 6 - 1) / (2 - (1 + (2 : ℝ) ^ (-53 : ℤ)) ^ 6)) ^ 2) *
        ∑ l ∈ range 2, |L.entry i l| * |U.entry l k|) ∧
      ∀ i < 2, ∑ k ∈ range 2, ((if i = k then 2 else 1) + E i k) * x.val k j = b.val i j := by
  have hF := C76_rounding (by positivity) nearest53_error
  obtain ⟨L, U, y, x, g, hY, hX, -⟩ := four_solve' (A := fun i j => .dense (oneR (if i = j then 2 else 1))) rfl rfl rfl rfl
    (by simp [oneR]) (by simp [oneR]) (by simp [oneR]) (by simp [oneR]) (by simp [oneR]) 0 b hr
  have A1 : fourR.WF := ⟨by omega, by omega, fun i _ j _ => ⟨trivial, rfl, rfl⟩⟩
  have A2 : fourR.DenseLeaves := fun i _ j _ => trivial
  have A3 : fourR.LuFits := ⟨rfl, fun i _ => rfl, fun i _ k _ _ => ⟨trivial, trivial⟩⟩
  have A4 : fourR.Filled := ⟨fun i _ j _ => one_pos, fun i _ j _ => one_pos⟩
  have nA : fourR.nRows = 2 := rfl
  refine ⟨_, _, y, x, g, hY, hX, fun j hj => ?_⟩
  obtain ⟨E, e1, e2⟩ := (C77_solve hF 8 A1 A2 A3 A4 (B := .dense b) trivial trivial
    ⟨(Nat.zero_le j).trans_lt hj, lt_of_lt_of_eq two_pos hr.symm⟩
    (Mat.TriFits_dense _ _ _) hr.symm (by rw [nA]; norm_num) g hY hX).2 j hj
  refine ⟨E, e1, fun i hi => ?_⟩
  refine Eq.trans ?_ (e2 i hi)
  refine Finset.sum_congr rfl fun k hk => ?_
  have e : fourR.entry i k = if i = k then 2 else 1 := by
    rcases two_cases hi with rfl | rfl <;> rcases two_cases (Finset.mem_range.1 hk) with rfl | rfl <;> rfl
  rw [e]
  rfl

/-- Four numbers, each a block. -/
theorem four_regular (x : Nat → Nat → ℝ) :
    (Mat.hier 2 2 (fun i j => .dense (oneR (x i j)))).Regular 2 ∧
    (Mat.hier 2 2 (fun i j => .dense (oneR (x i j)))).LuSolvable 2 := by
  refine ⟨⟨⟨by omega, by omega, fun i _ j _ => ⟨trivial, rfl, rfl⟩⟩, fun i hi j hj => ?_, rfl, rfl,
    fun i _ j _ => trivial⟩, rfl, fun i _ => rfl, fun i _ k _ _ => ⟨trivial, trivial⟩⟩
  refine ⟨trivial, ?_, ?_⟩ <;> (rcases two_cases hi with rfl | rfl <;> rcases two_cases hj with rfl | rfl <;> simp [Mat.nRows, Mat.nCols, oneR, IndexRange.splitChild])

/-- Systems with four blocks, whatever the numbers. -/
example (x : Nat → Nat → ℝ) (b : Dense ℝ) (hr : b.rows = 2) (hc : 0 < b.cols) :
    (FlLapack.ofRounding nearest53).getrf 8 (.hier 2 2 (fun i j => .dense (oneR (x i j)))) = .error .ub ∨
    ∃ L U s Y, (FlLapack.ofRounding nearest53).getrf 8 (.hier 2 2 (fun i j => .dense (oneR (x i j)))) =
        .ok (L, U, s) ∧
      (FlLapack.ofRounding nearest53).trsm 8 L (.dense b) .lower .left = .ok Y ∧
      ((∃ i < 2, U.entry i i = 0) ∨
        ∃ X, (FlLapack.ofRounding nearest53).trsm 8 U Y .upper .left = .ok X) := by
  obtain ⟨h1, h2⟩ := four_regular x
  rcases C77_solve_returns (C76_rounding (by positivity) nearest53_error) (by omega : 2 ≤ 2) h1
    (fun i _ j _ => trivial) h2 ⟨fun i _ j _ => one_pos, fun i _ j _ => one_pos⟩ (B := .dense b) trivial trivial
    trivial ⟨hc, lt_of_lt_of_eq two_pos hr.symm⟩ (by rintro ⟨h, -⟩; cases h) hr.symm
    (by show (1 + (2 : ℝ) ^ (-53 : ℤ)) ^ (3 * 2) < 2; norm_num) (fuel := 8) (by show 6 * max 1 0 + 2 ≤ 8; decide)
    with h | ⟨L, U, s, Y, a1, a2, a3 | ⟨X, a4, -⟩⟩
  · exact Or.inl h
  · exact Or.inr ⟨L, U, s, Y, a1, a2, Or.inl a3⟩
  · exact Or.inr ⟨L, U, s, Y, a1, a2, Or.inr ⟨X, a4⟩⟩

/-- With a zero in the upper left corner the factorization ends with the division by it. -/
example (x : Nat → Nat → ℝ) (h0 : x 0 0 = 0) (fl : ℝ → ℝ) :
    (FlLapack.ofRounding fl).getrf 8 (.hier 2 2 (fun i j => .dense (oneR (x i j)))) = .error .ub := by
  have k : (FlLapack.ofRounding fl).trsmDense .upper .right
      ⟨1, 1, fun i j => if j < i then 0 else ((FlLapack.ofRounding fl).dgetrf (oneR (x 0 0))).1.val i j⟩
      (oneR (x 1 0)) = .error .ub := by
    unfold FlLapack.trsmDense
    simp [oneR, Side.pick, Dense.tri, FlLapack.ofRounding, elimFl, subFl, h0]
  show (loop 2 _ _ >>= _) = _
  simp only [loop, except_bind_ok, Mat.getrfStep, Mat.blockAt, assertM, show (0 < 2) = True by simp, decide_true,
    if_true]
  simp [Mat.getrfWith, Mat.getrfDense, assertM, oneR, except_bind_ok, collect, FlLapack.trsm, FlLapack.trsmWith, FlLapack.trsmOmm]
  simp [oneR] at k
  rw [k]
  rfl

end Verif
