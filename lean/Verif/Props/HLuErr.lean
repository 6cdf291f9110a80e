import Verif.Lemmas.ErrPivot
import Verif.Props.ErrLu
import Verif.Props.HLu
import Mathlib.Algebra.Order.Chebyshev
import Mathlib.Algebra.Order.BigOperators.Ring.Finset

/-
C71: forward error of solving with a truncated LU factorization, and of the H-LU program
(examples/h_lu.cpp).
-/

namespace Verif
open Finset

section
variable {R : Type} [Field R] [LinearOrder R] [IsStrictOrderedRing R]

/-! ### well conditioned systems -/

/-- A matrix whose columns are diagonally dominant by `γ` does not shrink a vector by
more than the factor `γ`. -/
theorem dominant_bound {n : Nat} {γ : R} {a : Nat → Nat → R}
    (hd : ∀ j < n, ∑ i ∈ (range n).erase j, |a i j| + γ ≤ |a j j|) (z : Nat → R) :
    γ * ∑ j ∈ range n, |z j| ≤ ∑ i ∈ range n, |∑ l ∈ range n, a i l * z l| := by
  have h1 : ∀ i ∈ range n, |a i i| * |z i| - ∑ l ∈ (range n).erase i, |a i l| * |z l| ≤
      |∑ l ∈ range n, a i l * z l| := by
    intro i hi
    rw [← Finset.add_sum_erase _ _ hi, ← abs_mul]
    have h2 : |∑ l ∈ (range n).erase i, a i l * z l| ≤ ∑ l ∈ (range n).erase i, |a i l| * |z l| :=
      (Finset.abs_sum_le_sum_abs _ _).trans (le_of_eq (Finset.sum_congr rfl (fun l _ => abs_mul _ _)))
    have h3 := abs_sub_abs_le_abs_sub (a i i * z i) (-∑ l ∈ (range n).erase i, a i l * z l)
    rw [abs_neg, sub_neg_eq_add] at h3
    linarith
  have h2 := Finset.sum_le_sum h1
  have h3 : ∑ i ∈ range n, ∑ l ∈ (range n).erase i, |a i l| * |z l| =
      ∑ l ∈ range n, (∑ i ∈ (range n).erase l, |a i l|) * |z l| := by
    simp only [Finset.sum_mul]
    rw [Finset.sum_comm' (t' := range n) (s' := fun l => (range n).erase l)]
    intro x y
    simp only [mem_erase, mem_range]
    constructor
    · rintro ⟨h1, h2, h3⟩; exact ⟨⟨fun h => h2 h.symm, h1⟩, h3⟩
    · rintro ⟨⟨h1, h2⟩, h3⟩; exact ⟨h2, fun h => h1 h.symm, h3⟩
  rw [Finset.sum_sub_distrib, h3, ← Finset.sum_sub_distrib] at h2
  refine le_trans ?_ h2
  rw [Finset.mul_sum]
  refine Finset.sum_le_sum (fun l hl => ?_)
  rw [← sub_mul]
  exact mul_le_mul_of_nonneg_right (by have := hd l (mem_range.1 hl); linarith) (abs_nonneg _)

/-- Forward error from the residual. -/
theorem forward_error {n : Nat} {γ ε : R} (hε : 0 ≤ ε) {a : Nat → Nat → R}
    (hd : ∀ j < n, ∑ i ∈ (range n).erase j, |a i j| + γ ≤ |a j j|) {x z b : Nat → R}
    (hx : ∀ i < n, |∑ l ∈ range n, a i l * x l - b i| ≤ ε * ∑ l ∈ range n, |x l|)
    (hz : ∀ i < n, ∑ l ∈ range n, a i l * z l = b i) :
    (γ - n * ε) * ∑ i ∈ range n, |x i - z i| ≤ n * ε * ∑ i ∈ range n, |z i| := by
  have h1 := dominant_bound hd (fun i => x i - z i)
  have h2 : ∑ i ∈ range n, |∑ l ∈ range n, a i l * (x l - z l)| ≤ ∑ i ∈ range n, (ε * ∑ l ∈ range n, |x l|) := by
    refine Finset.sum_le_sum (fun i hi => ?_)
    have := hx i (mem_range.1 hi)
    simp only [mul_sub, Finset.sum_sub_distrib]
    rw [hz i (mem_range.1 hi)]
    exact this
  rw [Finset.sum_const, card_range, nsmul_eq_mul] at h2
  have h3 : ∑ l ∈ range n, |x l| ≤ ∑ l ∈ range n, |x l - z l| + ∑ l ∈ range n, |z l| := by
    rw [← Finset.sum_add_distrib]
    refine Finset.sum_le_sum (fun l _ => ?_)
    have := abs_add_le (x l - z l) (z l)
    rwa [sub_add_cancel] at this
  have h4 := mul_le_mul_of_nonneg_left h3 (mul_nonneg (Nat.cast_nonneg n (α := R)) hε)
  linarith

end

section
variable {K : Type} [Field K] [LinearOrder K] [IsStrictOrderedRing K]

/-- C71, factorizations.  If the columns of `A` are diagonally dominant by more than
`2 n² τ` and no low-rank operation of `getrf(A)` changes an entry by more than `τ`, the
factorization makes no row interchange, and every entry of `L * U` is within `2 n τ` of
the entry of `A`. -/
theorem C71_getrf {lu : Dense K → Dense K × Bool} (hlu : LuContract lu) (hnp : LuNoPivot lu) {o : LrOps K}
    (hf : o.Fits False) {τ : K} (hτ : 0 ≤ τ) (fuel : Nat) {A L U : Mat K} {flag : Bool} (hA : A.WF)
    (hs : A.Square) (hF : A.LuFits) (hAf : A.Filled)
    (hgap : ∀ j < A.nCols, ∑ i ∈ (range A.nRows).erase j, |A.entry i j| + 2 * (A.nRows : K) * A.nRows * τ <
      |A.entry j j|)
    (h : Mat.getrf lu (o.checked τ) fuel A = .ok (L, U, flag)) :
    flag = false ∧ Mat.getrf lu o fuel A = .ok (L, U, false) ∧
    ∀ i < A.nRows, ∀ j < A.nCols,
      |∑ l ∈ range A.nCols, L.entry i l * U.entry l j - A.entry i j| ≤ 2 * (A.nRows : K) * τ := by
  have e := hF.diagSquare.dims hA
  have hfl := Mat.getrf_pert hlu hnp (LrOps.checked_fits hf τ) hτ (o.checked_within τ) fuel hA hs hF hAf
    (fun j _ hj => by
      have := hgap j (by rw [← e]; exact hj)
      rwa [Nat.Ico_zero_eq_range]) h
  subst hfl
  exact ⟨rfl, C70_getrf hlu hf hτ fuel hA hs hF hAf h⟩

/-- C71, solving.  If moreover the columns of `A` are diagonally dominant by `γ`, the
distance of the computed solution from the exact one is, summed over the entries of a
column, at most `2 n² τ / (γ - 2 n² τ)` times the sum of the moduli of the exact one. -/
theorem C71_solve {lu : Dense K → Dense K × Bool} (hlu : LuContract lu) (hnp : LuNoPivot lu)
    {o : LrOps K} (hf : o.Fits False) {τ γ : K} (hτ : 0 ≤ τ) (fuel : Nat) {A B L U Y X : Mat K} {flag : Bool}
    (hA : A.WF) (hs : A.Square) (hF : A.LuFits) (hAf : A.Filled) (hB : B.WF) (hBs : B.Square) (hBd : B.AllDense)
    (hT : Mat.TriFits .left A B) (hn : A.nRows = B.nRows)
    (hγ : 2 * (A.nRows : K) * A.nRows * τ < γ)
    (hgap : ∀ j < A.nCols, ∑ i ∈ (range A.nRows).erase j, |A.entry i j| + γ ≤ |A.entry j j|)
    (h1 : Mat.getrf lu (o.checked τ) fuel A = .ok (L, U, flag))
    (h2 : Mat.trsm o fuel L B .lower .left = .ok Y)
    (h3 : Mat.trsm o fuel U Y .upper .left = .ok X)
    {Z : Nat → Nat → K}
    (hZ : ∀ i < A.nRows, ∀ j < B.nCols, ∑ l ∈ range A.nCols, A.entry i l * Z l j = B.entry i j) :
    flag = false ∧ X.nRows = A.nCols ∧ X.nCols = B.nCols ∧
    ∀ j < B.nCols, (γ - 2 * (A.nRows : K) * A.nRows * τ) * ∑ i ∈ range A.nCols, |X.entry i j - Z i j| ≤
      2 * (A.nRows : K) * A.nRows * τ * ∑ i ∈ range A.nCols, |Z i j| := by
  have e := hF.diagSquare.dims hA
  obtain ⟨rfl, -⟩ := C71_getrf hlu hnp hf hτ fuel hA hs hF hAf
    (fun j hj => lt_of_lt_of_le ((add_lt_add_iff_left _).2 hγ) (hgap j hj)) h1
  obtain ⟨x0, x1, -, hr⟩ := C70_solve hlu hf hτ fuel hA hs hF hAf hB hBs hBd hT hn h1 h2 h3
  refine ⟨rfl, x0, x1, fun j hj => ?_⟩
  have h := forward_error (n := A.nCols) (γ := γ) (ε := 2 * (A.nRows : K) * τ) (a := A.entry)
    (x := fun i => X.entry i j) (z := fun i => Z i j) (b := fun i => B.entry i j)
    (mul_nonneg (mul_nonneg (by norm_num) (Nat.cast_nonneg _)) hτ)
    (by rw [← e] at hgap ⊢; exact hgap)
    (fun i hi => hr i (by rw [← hn, e]; exact hi) j hj) (fun i hi => hZ i (by rw [e]; exact hi) j hj)
  rw [show (A.nCols : K) * (2 * (A.nRows : K) * τ) = 2 * (A.nRows : K) * A.nRows * τ by rw [← e]; ring] at h
  exact h

end

/-! ### the program -/

namespace Mat
variable {R : Type}

theorem Subdiv.triFits {b : Nat} {side : Side} {A B : Mat R} (hA : A.Subdiv b) (hB : B.Subdiv b) :
    TriFits side A B := by
  induction A generalizing B with
  | dense a => cases B <;> trivial
  | lowRank a => cases B <;> trivial
  | empty => cases B <;> trivial
  | hier p q A ih =>
    cases B <;> try trivial
    rename_i r s B
    obtain ⟨rfl, rfl, hA⟩ := hA
    obtain ⟨rfl, rfl, hB⟩ := hB
    refine ⟨by cases side <;> rfl, fun i hi j hj => ?_⟩
    cases side
    · exact ih i i (hA i hi i hi) (hB i hi j hj)
    · exact ih j j (hA j hj j hj) (hB i hi j hj)

/-- What the factorization has an implementation for has the structure its theorems
speak about. -/
theorem Regular.luFits [CommRing R] {b : Nat} {A : Mat R} (h : A.Regular b) (e : A.nRows = A.nCols)
    (hk : A.LuKinds) : A.LuFits := by
  induction A with
  | dense a => exact e
  | lowRank a => exact hk.elim
  | empty => exact hk.elim
  | hier p q A ih =>
    obtain ⟨wf, ev, sb⟩ := h
    have sb' := sb
    obtain ⟨rfl, rfl, sb⟩ := sb
    have wf' := wf
    simp only [WF] at wf'
    simp only [Even] at ev
    refine ⟨rfl, fun i hi => ?_, fun i hi k hk' hik => ⟨(sb i hi i hi).triFits (sb k hk' i hi),
      (sb i hi i hi).triFits (sb i hi k hk')⟩⟩
    refine ih i i ⟨(wf'.2.2 i hi i hi).1, (ev i hi i hi).1, sb i hi i hi⟩ ?_ (hk.2 i hi).1
    have h1 := (ev i hi i hi).2.1
    have h2 := (ev i hi i hi).2.2
    have e' : ∑ i ∈ range q, (A i 0).nRows = ∑ j ∈ range q, (A 0 j).nCols := e
    rw [e'] at h1
    have := h1.trans h2.symm
    exact_mod_cast this

end Mat

/-! ### no empty blocks -/

namespace ClusterTree
variable {R : Type} {K : Type} [Field K] [LinearOrder K]

/-- If no child of a node with the property `P` is empty, and the children that are
subdivided again have the property, no block is empty. -/
theorem built_filled {a : Admis K} {fill : FillFn R} {compress : Dense R → Except Err (LowRank R)}
    (hcomp : ∀ d l, compress d = .ok l → l.WF ∧ l.dim0 = d.rows ∧ l.dim1 = d.cols)
    (hfill : ∀ rows cols d, fill rows cols = .ok d → (d.rows : Int) = rows.n ∧ (d.cols : Int) = cols.n)
    {P : NodeInfo → Prop}
    (hP : ∀ t, P t → ∀ i < t.br, ∀ j < t.bc, 0 < (childInfo t i j).rows.n ∧ 0 < (childInfo t i j).cols.n ∧
      (isAdmissible a (childInfo t i j) = .ok false → isLeaf (childInfo t i j) = false → P (childInfo t i j)))
    {f : Nat} {isRoot : Bool} {t : NodeInfo} {ch : Nat → Nat → ClusterTree} {M : Mat R}
    (h : build f isRoot t = .ok (.node t ch)) (hM : toMat a fill compress (.node t ch) = .ok M) (ht : P t) :
    M.Filled := by
  induction f generalizing isRoot t ch M with
  | zero => simp [build] at h
  | succ f ih =>
    obtain ⟨f', A, hf, rfl, hA⟩ := toMat_level h hM
    obtain rfl : f = f' := by omega
    have key : ∀ i < t.br, ∀ j < t.bc, (A i j).Filled := by
      intro i hi j hj
      obtain ⟨hbu, hcb⟩ := hA i hi j hj
      obtain ⟨p1, p2, p3⟩ := hP t ht i hi j hj
      rcases childBlock_cases hbu hcb with ⟨d, l, -, hd, hl, e⟩ | ⟨d, -, -, hd, e⟩ | ⟨ch', e1, e2, e, hM'⟩
      · rw [e]
        have e3 := hcomp d l hl
        have e4 := hfill _ _ _ hd
        exact ⟨show 0 < l.dim1 by omega, show 0 < l.dim0 by omega⟩
      · rw [e]
        have e4 := hfill _ _ _ hd
        exact ⟨show 0 < d.cols by omega, show 0 < d.rows by omega⟩
      · rw [e] at hbu
        exact ih hbu hM' (p3 e1 e2)
    exact ⟨fun i hi j hj => (key i hi j hj).1, fun i hi j hj => (key i hi j hj).2⟩

end ClusterTree

/-- C71: matrices constructed for sizes that divide evenly down to the leaves, or with
the weakest admissibility condition and two blocks per direction, have no empty block. -/
theorem C71_filled {R K : Type} [Field K] [LinearOrder K] [CommRing R] {k : KernelFn R} {f : Int → Int → R}
    (hk : ComputesEntries k f)
    {compress : Dense R → Except Err (LowRank R)} (hc : FittingCompressor compress)
    {fuel N b : Nat} {nleaf : Int} {a : Admis K} (hb : 2 ≤ b)
    (hN : (∃ n0 L : Nat, 1 ≤ n0 ∧ N = n0 * b ^ L ∧ (n0 : Int) ≤ nleaf ∧ 1 ≤ L) ∨
      (b = 2 ∧ a = .position 0 ∧ 2 ≤ nleaf ∧ 2 ≤ N))
    {M : Mat R} (hM : hierOfKernel fuel k compress N N nleaf a b b 0 0 = .ok M) : M.Filled := by
  rw [hierOfKernel, except_bind_eq_ok] at hM
  obtain ⟨tr, htr, hM⟩ := hM
  obtain ⟨ch, rfl⟩ := build_root_node htr
  rcases hN with ⟨n0, L, h0, rfl, h1, h2⟩ | ⟨rfl, rfl, h1, h2⟩
  · refine ClusterTree.built_filled hc (kernelFill_dims hk) (P := fun t => t.br = b ∧ t.bc = b ∧ t.nleaf = nleaf ∧
      ∃ l : Nat, 1 ≤ l ∧ t.rows.n = n0 * b ^ l ∧ t.cols.n = n0 * b ^ l) ?_ htr hM
      ⟨rfl, rfl, rfl, L, h2, by simp [ClusterTree.rootInfo], by simp [ClusterTree.rootInfo]⟩
    rintro t ⟨t1, t2, t3, l, hl, r, c⟩ i hi j hj
    obtain ⟨m, rfl⟩ : ∃ m, l = m + 1 := ⟨l - 1, by omega⟩
    have hp : (0 : Int) < n0 * b ^ m := by positivity
    have er : (ClusterTree.childInfo t i j).rows.n = n0 * b ^ m := by
      simp only [ClusterTree.childInfo, ClusterTree.partSize_eq, r, t1]
      rw [pow_succ, ← mul_assoc]
      exact ClusterTree.partSize_mul hp.le (by omega)
    have ec : (ClusterTree.childInfo t i j).cols.n = n0 * b ^ m := by
      simp only [ClusterTree.childInfo, ClusterTree.partSize_eq, c, t2]
      rw [pow_succ, ← mul_assoc]
      exact ClusterTree.partSize_mul hp.le (by omega)
    refine ⟨by omega, by omega, fun _ hleaf => ⟨t1, t2, t3, m, ?_, er, ec⟩⟩
    by_contra hm
    obtain rfl : m = 0 := by omega
    have n3 : (ClusterTree.childInfo t i j).nleaf = nleaf := t3
    simp only [ClusterTree.isLeaf, er, ec, n3, Bool.or_eq_false_iff, Bool.and_eq_false_iff,
      decide_eq_false_iff_not] at hleaf
    simp at hleaf
    omega
  · refine ClusterTree.built_filled hc (kernelFill_dims hk) (P := fun t => t.br = 2 ∧ t.bc = 2 ∧ t.nleaf = nleaf ∧
      t.rows.n = t.cols.n ∧ t.absRow = t.absCol ∧ 2 ≤ t.rows.n) ?_ htr hM
      ⟨rfl, rfl, rfl, rfl, rfl, by simp [ClusterTree.rootInfo]; omega⟩
    rintro t ⟨t1, t2, t3, e, ea, h2⟩ i hi j hj
    have n3 : (ClusterTree.childInfo t i j).nleaf = nleaf := t3
    have p2 : ∀ s < 2, partSize t.rows.n 2 s = if s = 0 then (t.rows.n + 1) / 2 else
        t.rows.n - (t.rows.n + 1) / 2 := by
      intro s hs
      simp only [partSize, IndexRange.splitChild]
      rw [show t.rows.n + ((2 : Nat) : Int) - 1 = t.rows.n + 1 by push_cast; ring,
        Int.tdiv_eq_ediv_of_nonneg (by omega)]
      interval_cases s <;> simp
    have er : (ClusterTree.childInfo t i j).rows.n = if i = 0 then (t.rows.n + 1) / 2 else
        t.rows.n - (t.rows.n + 1) / 2 := by
      simp only [ClusterTree.childInfo, ClusterTree.partSize_eq, t1]
      exact p2 i (by omega)
    have ec : (ClusterTree.childInfo t i j).cols.n = if j = 0 then (t.rows.n + 1) / 2 else
        t.rows.n - (t.rows.n + 1) / 2 := by
      simp only [ClusterTree.childInfo, ClusterTree.partSize_eq, t2, ← e]
      exact p2 j (by omega)
    refine ⟨by rw [er]; split <;> omega, by rw [ec]; split <;> omega, fun hadm hleaf => ?_⟩
    have hij : i = j := by
      by_contra hij
      have hd : (0 : Int) < ClusterTree.distToDiag (ClusterTree.childInfo t i j) := by
        simp only [ClusterTree.distToDiag, ClusterTree.childInfo, t1, t2, ea]
        omega
      have hadm := Except.ok.inj hadm
      simp only [ClusterTree.isLeaf, n3, Bool.or_eq_false_iff, Bool.and_eq_false_iff,
        decide_eq_false_iff_not] at hleaf
      simp only [hd, decide_true, Bool.and_true, decide_eq_false_iff_not] at hadm
      rw [er, ec] at hleaf hadm
      split at hleaf <;> split at hleaf <;> simp_all <;> omega
    subst hij
    refine ⟨t1, t2, t3, by rw [er, ec], by simp only [ClusterTree.childInfo, t1, t2, ea], ?_⟩
    simp only [ClusterTree.isLeaf, n3, Bool.or_eq_false_iff, Bool.and_eq_false_iff,
        decide_eq_false_iff_not] at hleaf
    omega

section
variable {R : Type} {K : Type} [Field K] [LinearOrder K]
variable [Field R] [LinearOrder R] [IsStrictOrderedRing R] [Inhabited R]

/-- **C71**.  If the program returns and no low-rank operation changed an entry by more
than `τ`, the constructed matrix has no empty block, and its columns are diagonally
dominant by `γ > 2 N² τ`: no row was interchanged, the computed solution differs from the
vector it started from by at most `2 N² τ / (γ - 2 N² τ)` times the latter in the
1-norm, and the square of the printed relative error is at most
`N (2 N² τ / (γ - 2 N² τ))²`. -/
theorem C71_hlu {k : KernelFn R} {f : Int → Int → R} (hk : ComputesEntries k f)
    {compress : Dense R → Except Err (LowRank R)} (hc : FittingCompressor compress)
    (hcs : ∀ d l, compress d = .ok l → l.Square)
    {lu : Dense R → Dense R × Bool} (hlu : LuContract lu) (hnp : LuNoPivot lu)
    {o : LrOps R} (hf : o.Fits False) {τ γ : R} (hτ : 0 ≤ τ)
    (sz : Nat × Nat × Nat × Nat) {fuel N : Nat} {nleaf : Int} {a : Admis K} {b : Nat} (hb : 1 ≤ b)
    {M : Mat R} (hM : hierOfKernel fuel k compress N N nleaf a b b 0 0 = .ok M) (hMf : M.Filled)
    (hγ : 2 * (N : R) * N * τ < γ)
    (hgap : ∀ j < N, ∑ i ∈ (range N).erase j, |M.entry i j| + γ ≤ |M.entry j j|) (x : Nat → R)
    {r : HLuRun R} (h : hLu fuel k compress lu (o.checked τ) sz N nleaf a b x = .ok r) :
    hLu fuel k compress lu o sz N nleaf a b x = .ok r ∧
    (∃ d : Dense R, r.sol = .dense d ∧ d.rows = N ∧ d.cols = 1 ∧
      (γ - 2 * (N : R) * N * τ) * ∑ i ∈ range N, |d.val i 0 - x i| ≤
        2 * (N : R) * N * τ * ∑ i ∈ range N, |x i|) ∧
    (γ - 2 * (N : R) * N * τ) ^ 2 * r.err.1 ≤ (2 * (N : R) * N * τ) ^ 2 * N * r.err.2 := by
  obtain ⟨wf, m0, m1, -⟩ := C08_kernel_matrix hk hc hb hb hM
  obtain ⟨reg, hMs⟩ : M.Regular b ∧ M.Square := by
    have h := hM
    rw [hierOfKernel, except_bind_eq_ok] at h
    obtain ⟨tr, htr, h⟩ := h
    obtain ⟨ch, rfl⟩ := build_root_node htr
    obtain ⟨r1, r2, -⟩ := ClusterTree.toMat_regular hc (kernelFill_dims hk) hb hcs htr rfl rfl h
    exact ⟨r1, square_of_all r2⟩
  have ck := LrOps.checked_fits hf τ
  have hle := o.checked_leq τ
  simp only [hLu, hM, except_bind_ok, except_bind_eq_ok] at h
  obtain ⟨D, hD, B, hB, cp, hcp, mD, hmD, mA, hmA, ⟨L, U, flag⟩, hfac, Y, hY, X, hX, er, her, h⟩ := h
  cases h
  -- the right-hand side
  obtain ⟨Bw, Bsh, Be⟩ := C21_gemm_untransposed ck fuel wf (B := .dense ⟨N, 1, fun i _ => x i⟩)
    (C := .dense ⟨N, 1, fun _ _ => 0⟩) trivial trivial trivial hB
  obtain ⟨d, rfl⟩ : ∃ d, B = .dense d := by cases B <;> first | exact Bsh.elim | exact ⟨_, rfl⟩
  have d0 : d.rows = N := Bsh.1.symm
  have d1 : d.cols = 1 := Bsh.2.symm
  have de : ∀ i < N, d.val i 0 = ∑ l ∈ range N, M.entry i l * x l := by
    intro i hi
    have := ((Mat.entryIs_iff _ Bw i 0 _).1 (Be i hi 0 Nat.one_pos (Or.inl trivial))).2.2
    simp only [m1] at this
    rw [show d.val i 0 = (Mat.dense d).entry i 0 from rfl, ← this]
    simp [Mat.entry]
  -- factorization and solves
  have hF : M.LuFits := reg.luFits (m0.trans m1.symm) (C46_getrf_nested ck wf hMs hfac)
  have hT : Mat.TriFits .left M (.dense d) := by cases M <;> trivial
  have S := C71_solve hlu hnp hf (γ := γ) hτ fuel wf hMs hF hMf (B := .dense d) trivial trivial
    (fun _ _ _ _ => trivial) hT (by rw [m0]; exact d0.symm) (by rw [m0]; exact hγ)
    (by rw [m0, m1]; exact hgap) hfac (Mat.trsm_leq hle le_rfl _ _ _ _ _ hY)
    (Mat.trsm_leq hle le_rfl _ _ _ _ _ hX) (Z := fun i _ => x i)
    (by
      intro i hi j hj
      have hj' : j < 1 := by rw [← d1]; exact hj
      obtain rfl : j = 0 := by omega
      rw [m1, ← de i (by rw [← m0]; exact hi)]
      rfl)
  obtain ⟨rfl, x0, x1, fe⟩ := S
  have P := Mat.getrf_ok hlu ck fuel wf hMs hF hfac
  have hDs := hF.diagSquare
  obtain ⟨yw, ys, ysh, y0, y1, -⟩ := C29_trsm ck fuel P.lwf (B := .dense d) trivial trivial (P.ld.diagSquare hDs)
    (P.ld.triFits hT) (by rw [P.lrows, m0]; exact d0.symm) hY
  obtain ⟨-, -, xsh, -⟩ := C29_trsm ck fuel P.uwf yw ys (P.ud.diagSquare hDs)
    ((P.ud.triFits hT).shape ysh) (by rw [P.urows, m0, show (Side.pick .left Y.nRows Y.nCols) = Y.nRows from rfl, y0]; exact d0.symm) hX
  obtain ⟨s, rfl⟩ : ∃ s, X = .dense s := by
    cases Y <;> first | exact ysh.elim | (cases X <;> first | exact xsh.elim | exact ⟨_, rfl⟩)
  have s0 : s.rows = N := x0.trans m1
  have s1 : s.cols = 1 := x1.trans d1
  have fe0 := fe 0 (by show 0 < d.cols; omega)
  rw [m0, m1] at fe0
  refine ⟨?_, ⟨s, rfl, s0, s1, fe0⟩, ?_⟩
  · simp only [hLu, hM, except_bind_ok, hD]
    have hB' : Mat.gemm o fuel M _ _ 1 1 false false = _ := (Mat.gemmBoth_leq hle le_rfl).1 _ _ _ _ _ _ _ _ hB
    rw [hB']
    simp only [except_bind_ok, hcp, hmD, hmA]
    rw [Mat.getrf_leq lu hle le_rfl _ _ hfac]
    simp only [except_bind_ok]
    rw [Mat.trsm_leq hle le_rfl _ _ _ _ _ hY]
    simp only [except_bind_ok]
    rw [Mat.trsm_leq hle le_rfl _ _ _ _ _ hX]
    simp only [except_bind_ok, her]
  · simp only [Mat.l2ErrorParts, except_bind_eq_ok] at her
    obtain ⟨-, -, -, -, her⟩ := her
    obtain ⟨-, e1, e2⟩ := Mat.collectDiffNorm_correct fuel (.dense ⟨N, 1, fun i _ => x i⟩) (.dense s) trivial trivial
      er.1 er.2 her
    have q1 : er.1 = ∑ i ∈ range N, (s.val i 0 - x i) ^ 2 := by
      rw [e1, Mat.sumSqDiff]
      refine Finset.sum_congr rfl (fun i _ => ?_)
      show ∑ j ∈ range 1, _ = _
      rw [Finset.sum_range_one]
      show (x i - s.val i 0) * (x i - s.val i 0) = _
      ring
    have q2 : er.2 = ∑ i ∈ range N, x i ^ 2 := by
      rw [e2, Mat.sumSq]
      refine Finset.sum_congr rfl (fun i _ => ?_)
      show ∑ j ∈ range 1, _ = _
      rw [Finset.sum_range_one]
      show x i * x i = _
      ring
    show _ * er.1 ≤ _ * er.2
    have g0 : 0 ≤ γ - 2 * (N : R) * N * τ := by linarith
    have t0 : 0 ≤ 2 * (N : R) * N * τ :=
      mul_nonneg (mul_nonneg (mul_nonneg (by norm_num) (Nat.cast_nonneg _)) (Nat.cast_nonneg _)) hτ
    -- the sum of squares is at most the square of the sum
    have c1 : er.1 ≤ (∑ i ∈ range N, |s.val i 0 - x i|) ^ 2 := by
      rw [q1]
      have := Finset.sum_sq_le_sq_sum_of_nonneg (s := range N) (f := fun i => |s.val i 0 - x i|)
        (fun i _ => abs_nonneg _)
      simpa only [sq_abs] using this
    have c2 : (∑ i ∈ range N, |x i|) ^ 2 ≤ N * er.2 := by
      rw [q2]
      have := sq_sum_le_card_mul_sum_sq (s := range N) (f := fun i => |x i|)
      simpa only [sq_abs, card_range] using this
    have c3 := pow_le_pow_left₀ (mul_nonneg g0 (Finset.sum_nonneg (fun _ _ => abs_nonneg _))) fe0 2
    rw [mul_pow, mul_pow] at c3
    calc _ ≤ (γ - 2 * (N : R) * N * τ) ^ 2 * (∑ i ∈ range N, |s.val i 0 - x i|) ^ 2 :=
          mul_le_mul_of_nonneg_left c1 (sq_nonneg _)
      _ ≤ _ := c3
      _ ≤ (2 * (N : R) * N * τ) ^ 2 * (N * er.2) := mul_le_mul_of_nonneg_left c2 (sq_nonneg _)
      _ = _ := by ring

omit [Inhabited R] in
/-- The entries of a constructed matrix differ from those the kernel computes by no more
than what the compression of a block changes. -/
theorem kernel_matrix_within {k : KernelFn R} {f : Int → Int → R} (hk : ComputesEntries k f)
    {compress : Dense R → Except Err (LowRank R)} (hc : FittingCompressor compress) {δ : R} (hδ : 0 ≤ δ)
    (hcd : ∀ d l, compress d = .ok l → ∀ i < d.rows, ∀ j < d.cols, |l.entry i j - d.val i j| ≤ δ)
    {fuel N b : Nat} {nleaf : Int} {a : Admis K} (hb : 1 ≤ b)
    {M : Mat R} (hM : hierOfKernel fuel k compress N N nleaf a b b 0 0 = .ok M) :
    ∀ i < N, ∀ j < N, |M.entry i j - f i j| ≤ δ := by
  rw [hierOfKernel, except_bind_eq_ok] at hM
  obtain ⟨tr, htr, hM⟩ := hM
  obtain ⟨ch, rfl⟩ := build_root_node htr
  obtain ⟨-, -, h1, h2, -, h3⟩ := ClusterTree.toMat_spec hc (kernelFill_dims hk) htr hb hb hM
  simp only [ClusterTree.rootInfo] at h1 h2 h3
  intro i hi j hj
  obtain ⟨p, s, d, -, gr, gc, gd, ⟨-, g⟩ | ⟨-, -, l, gl, ge⟩⟩ := h3 i (by omega) j (by omega)
  all_goals
    obtain ⟨q1, q2, q3⟩ := kernelFill_ok hk _ _ _ gd
    obtain ⟨r1, r2⟩ := gr
    obtain ⟨c1, c2⟩ := gc
    have e := q3 (0 + i - s.info.rows.start).toNat (by omega) (0 + j - s.info.cols.start).toNat (by omega)
    rw [show s.info.rows.start + ((0 + i - s.info.rows.start).toNat : Int) = i by omega,
      show s.info.cols.start + ((0 + j - s.info.cols.start).toNat : Int) = j by omega] at e
    rw [← e]
  · rw [g, sub_self, abs_zero]
    exact hδ
  · rw [ge]
    exact hcd d l gl _ (by omega) _ (by omega)

/-- **C71** in terms of the kernel.  The sizes divide evenly down to the leaves, or the
weakest admissibility condition is used; compressing a block changes no entry by more
than `δ`, no low-rank operation changes one by more than `τ`, and the columns of the
kernel's matrix are diagonally dominant by `N δ + γ` with `γ > 2 N² τ`. -/
theorem C71_hlu_kernel {k : KernelFn R} {f : Int → Int → R} (hk : ComputesEntries k f)
    {compress : Dense R → Except Err (LowRank R)} (hc : FittingCompressor compress)
    (hcs : ∀ d l, compress d = .ok l → l.Square) {δ : R} (hδ : 0 ≤ δ)
    (hcd : ∀ d l, compress d = .ok l → ∀ i < d.rows, ∀ j < d.cols, |l.entry i j - d.val i j| ≤ δ)
    {lu : Dense R → Dense R × Bool} (hlu : LuContract lu) (hnp : LuNoPivot lu)
    {o : LrOps R} (hf : o.Fits False) {τ γ : R} (hτ : 0 ≤ τ)
    (sz : Nat × Nat × Nat × Nat) {fuel N : Nat} {nleaf : Int} {a : Admis K} {b : Nat} (hb : 2 ≤ b)
    (hN : (∃ n0 L : Nat, 1 ≤ n0 ∧ N = n0 * b ^ L ∧ (n0 : Int) ≤ nleaf ∧ 1 ≤ L) ∨
      (b = 2 ∧ a = .position 0 ∧ 2 ≤ nleaf ∧ 2 ≤ N))
    (hγ : 2 * (N : R) * N * τ < γ)
    (hgap : ∀ j < N, ∑ i ∈ (range N).erase j, |f i j| + N * δ + γ ≤ |f j j|) (x : Nat → R)
    {r : HLuRun R} (h : hLu fuel k compress lu (o.checked τ) sz N nleaf a b x = .ok r) :
    hLu fuel k compress lu o sz N nleaf a b x = .ok r ∧
    (∃ d : Dense R, r.sol = .dense d ∧ d.rows = N ∧ d.cols = 1 ∧
      (γ - 2 * (N : R) * N * τ) * ∑ i ∈ range N, |d.val i 0 - x i| ≤
        2 * (N : R) * N * τ * ∑ i ∈ range N, |x i|) ∧
    (γ - 2 * (N : R) * N * τ) ^ 2 * r.err.1 ≤ (2 * (N : R) * N * τ) ^ 2 * N * r.err.2 := by
  obtain ⟨M, hM⟩ : ∃ M, hierOfKernel fuel k compress N N nleaf a b b 0 0 = .ok M := by
    simp only [hLu, except_bind_eq_ok] at h
    obtain ⟨_, _, M, hM, _⟩ := h
    exact ⟨M, hM⟩
  have hw := kernel_matrix_within hk hc hδ hcd (by omega) hM
  refine C71_hlu hk hc hcs hlu hnp hf hτ sz (by omega) hM (C71_filled hk hc hb hN hM) hγ (fun j hj => ?_) x h
  have h1 : ∑ i ∈ (range N).erase j, |M.entry i j| ≤ ∑ i ∈ (range N).erase j, (|f i j| + δ) := by
    refine Finset.sum_le_sum (fun i hi => ?_)
    have := hw i (mem_range.1 (mem_of_mem_erase hi)) j hj
    have := abs_sub_abs_le_abs_sub (M.entry i j) (f i j)
    linarith
  rw [Finset.sum_add_distrib, Finset.sum_const, card_erase_of_mem (mem_range.2 hj), card_range, nsmul_eq_mul,
    Nat.cast_sub (by omega), Nat.cast_one] at h1
  have h2 := hw j hj j hj
  rw [abs_sub_comm] at h2
  have h3 := abs_sub_abs_le_abs_sub (f j j) (M.entry j j)
  have h4 := hgap j hj
  linarith

/-- **C71** with the low-rank operations of the library, whichever addition is selected. -/
theorem C71_hlu_library {k : KernelFn R} {f : Int → Int → R} (hk : ComputesEntries k f)
    {compress : Dense R → Except Err (LowRank R)} (hc : FittingCompressor compress)
    (hcs : ∀ d l, compress d = .ok l → l.Square) {δ : R} (hδ : 0 ≤ δ)
    (hcd : ∀ d l, compress d = .ok l → ∀ i < d.rows, ∀ j < d.cols, |l.entry i j - d.val i j| ≤ δ)
    {lu : Dense R → Dense R × Bool} (hlu : LuContract lu) (hnp : LuNoPivot lu)
    (W : Lapack R) (mode : LraMode) (lfuel : Nat) {τ γ : R} (hτ : 0 ≤ τ)
    (sz : Nat × Nat × Nat × Nat) {fuel N : Nat} {nleaf : Int} {a : Admis K} {b : Nat} (hb : 2 ≤ b)
    (hN : (∃ n0 L : Nat, 1 ≤ n0 ∧ N = n0 * b ^ L ∧ (n0 : Int) ≤ nleaf ∧ 1 ≤ L) ∨
      (b = 2 ∧ a = .position 0 ∧ 2 ≤ nleaf ∧ 2 ≤ N))
    (hγ : 2 * (N : R) * N * τ < γ)
    (hgap : ∀ j < N, ∑ i ∈ (range N).erase j, |f i j| + N * δ + γ ≤ |f j j|) (x : Nat → R)
    {r : HLuRun R} (h : hLu fuel k compress lu ((W.ops mode lfuel).checked τ) sz N nleaf a b x = .ok r) :
    hLu fuel k compress lu (W.ops mode lfuel) sz N nleaf a b x = .ok r ∧
    (∃ d : Dense R, r.sol = .dense d ∧ d.rows = N ∧ d.cols = 1 ∧
      (γ - 2 * (N : R) * N * τ) * ∑ i ∈ range N, |d.val i 0 - x i| ≤
        2 * (N : R) * N * τ * ∑ i ∈ range N, |x i|) ∧
    (γ - 2 * (N : R) * N * τ) ^ 2 * r.err.1 ≤ (2 * (N : R) * N * τ) ^ 2 * N * r.err.2 :=
  C71_hlu_kernel hk hc hcs hδ hcd hlu hnp (W.ops_fits mode lfuel) hτ sz hb hN hγ hgap x h

end

/-! ### a concrete case -/

/-- Three by three blocks of one entry each, two of them low-rank, large diagonal. -/
def gapA : Mat ℚ := .hier 3 3 (fun i j =>
  if i = j then .dense ⟨1, 1, fun _ _ => 16⟩
  else if i = 0 ∨ j = 0 then .dense ⟨1, 1, fun _ _ => 3⟩
  else .lowRank ⟨1, 1, 1, 0, ⟨1, 1, fun _ _ => 1⟩, ⟨1, 1, fun _ _ => 1⟩, ⟨1, 1, fun _ _ => 1⟩⟩)

theorem gapA_wf : gapA.WF := by
  refine ⟨by omega, by omega, fun i hi j hj => ?_⟩
  interval_cases i <;> interval_cases j <;> first
    | exact ⟨trivial, rfl, rfl⟩
    | exact ⟨⟨rfl, rfl, rfl, rfl, rfl⟩, rfl, rfl⟩

theorem gapA_square : gapA.Square := by
  intro i hi j hj
  interval_cases i <;> interval_cases j <;> trivial

theorem gapA_luFits : gapA.LuFits := by
  refine ⟨rfl, fun i hi => ?_, fun i hi k hk hik => ?_⟩
  · interval_cases i <;> exact rfl
  · interval_cases i <;> interval_cases k <;> exact ⟨trivial, trivial⟩

theorem gapA_filled : gapA.Filled := by
  refine ⟨fun i hi j hj => ?_, fun i hi j hj => ?_⟩ <;>
    interval_cases i <;> interval_cases j <;> exact Nat.one_pos

/-- The right-hand side is `A` times `(1, 2, 3)`.  The factorization rounds, the solution
is not `(1, 2, 3)`, and the bound applies. -/
example : ∃ L U Y X, Mat.getrf doolittle halfOps 9 gapA = .ok (L, U, false) ∧
    Mat.trsm halfOps 9 L (.dense ⟨3, 1, fun i _ => ∑ l ∈ range 3, gapA.entry i l * (l + 1)⟩) .lower .left = .ok Y ∧
    Mat.trsm halfOps 9 U Y .upper .left = .ok X ∧ X.entry 1 0 ≠ 2 ∧
    (39 / 4 - 9) * ∑ i ∈ range 3, |X.entry i 0 - (i + 1)| ≤ 9 * ∑ i ∈ range 3, |((i : ℚ) + 1)| := by
  obtain ⟨⟨X, L, U, Y⟩, h, hne⟩ := okAnd_spec (x := (do
      let r ← Mat.getrf doolittle (halfOps.checked (1/2)) 9 gapA
      let Y ← Mat.trsm halfOps 9 r.1 (.dense ⟨3, 1, fun i _ => ∑ l ∈ range 3, gapA.entry i l * (l + 1)⟩) .lower .left
      let X ← Mat.trsm halfOps 9 r.2.1 Y .upper .left
      Except.ok (X, r.1, r.2.1, Y)))
    (P := fun r => decide (r.1.entry 1 0 ≠ 2)) (by decide +kernel)
  simp only [except_bind_eq_ok] at h
  obtain ⟨⟨L, U, fl⟩, h1, Y, h2, X, h3, h⟩ := h
  cases h
  have e : gapA.nRows = 3 := by decide +kernel
  have e' : gapA.nCols = 3 := by decide +kernel
  have gap : ∀ j < gapA.nCols, ∑ i ∈ (range gapA.nRows).erase j, |gapA.entry i j| + 39 / 4 ≤ |gapA.entry j j| := by
    decide +kernel
  have t : 2 * (gapA.nRows : ℚ) * gapA.nRows * (1 / 2) < 39 / 4 := by rw [e]; norm_num
  obtain ⟨rfl, h4, -⟩ := C71_getrf doolittle_contract doolittle_noPivot halfOps_fits (by norm_num) 9 gapA_wf
    gapA_square gapA_luFits gapA_filled (fun j hj => lt_of_lt_of_le ((add_lt_add_iff_left _).2 t) (gap j hj)) h1
  refine ⟨L, U, Y, X, h4, h2, h3, of_decide_eq_true hne, ?_⟩
  have := (C71_solve doolittle_contract doolittle_noPivot halfOps_fits (by norm_num) 9 gapA_wf gapA_square gapA_luFits
    gapA_filled (B := .dense ⟨3, 1, fun i _ => ∑ l ∈ range 3, gapA.entry i l * (l + 1)⟩) trivial trivial (fun _ _ _ _ => trivial) (Mat.TriFits_dense _ _ _) (by decide +kernel) t gap h1 h2 h3
    (Z := fun l _ => l + 1) (fun i hi j hj => by rw [e']; rfl)).2.2.2 0 Nat.one_pos
  rw [e, e'] at this
  norm_num at this ⊢
  exact this

/-- Large diagonal, all other entries `2/3`. -/
def gapKernel : Int → Int → ℚ := fun i j => if i = j then 100 else 2 / 3

/-- A compression that rounds every entry down to a multiple of `1/2`. -/
def halfCompress (d : Dense ℚ) : Except Err (LowRank ℚ) :=
  keepAll ⟨d.rows, d.cols, fun i j => ((2 * d.val i j).floor : ℚ) / 2⟩

theorem halfCompress_within (d : Dense ℚ) (l : LowRank ℚ) (h : halfCompress d = .ok l) :
    ∀ i < d.rows, ∀ j < d.cols, |l.entry i j - d.val i j| ≤ 1 / 2 := by
  intro i hi j hj
  rw [keepAll_exact _ l h i hi j hj]
  have h1 := Int.floor_le (2 * d.val i j)
  have h2 := Int.lt_floor_add_one (2 * d.val i j)
  show |(((2 * d.val i j).floor : ℤ) : ℚ) / 2 - d.val i j| ≤ 1 / 2
  rw [show (2 * d.val i j).floor = ⌊2 * d.val i j⌋ from rfl, abs_le]
  constructor <;> linarith

/-- Six unknowns, three blocks of size two per direction, all off-diagonal blocks
low-rank.  The blocks are rounded when they are compressed and again by every addition,
and the printed error is not zero. -/
example : ∃ r, hLu 9 (indexKernel gapKernel) halfCompress doolittle halfOps (8, 8, 8, 8) 6 2
      (Admis.position 0 : Admis ℚ) 3 (fun i => i + 1) = .ok r ∧
    r.err.1 ≠ 0 ∧ (4 : ℚ) ^ 2 * r.err.1 ≤ 36 ^ 2 * 6 * r.err.2 := by
  obtain ⟨r, h, hne⟩ := okAnd_spec (x := hLu 9 (indexKernel gapKernel) halfCompress doolittle
      (halfOps.checked (1/2)) (8, 8, 8, 8) 6 2 (Admis.position 0 : Admis ℚ) 3 (fun i => i + 1))
    (P := fun r => decide (r.err.1 ≠ 0)) (by decide +kernel)
  have := C71_hlu_kernel (indexKernel_computes gapKernel) (compress := halfCompress)
    (fun d l h => keepAll_fitting ⟨d.rows, d.cols, fun i j => ((2 * d.val i j).floor : ℚ) / 2⟩ l h)
    (fun d l h => by cases h; rfl) (δ := 1 / 2) (by norm_num) halfCompress_within doolittle_contract doolittle_noPivot
    halfOps_fits (τ := 1 / 2) (γ := 40) (N := 6) (b := 3) (nleaf := 2) (by norm_num) _ (by omega)
    (Or.inl ⟨2, 1, by omega, rfl, by omega, le_rfl⟩) (by norm_num) (by decide +kernel) _ h
  refine ⟨r, this.1, of_decide_eq_true hne, ?_⟩
  have h3 := this.2.2
  norm_num at h3 ⊢
  exact h3

end Verif
