import Verif.Lemmas.QrExplicit

/-!
`trmm` with a block triangle of tiles from the right, as the QR programs use it: only
the upper blocks of the triangle exist.
-/

set_option linter.unusedSectionVars false

namespace Verif
open Finset

namespace Mat

variable {R : Type} [CommRing R] [DecidableEq R] {o : LrOps R} {Q : LowRank R → Prop}

/-- Triangular multiplication of a tile with a dense triangle from the right. -/
theorem trmm_tile_right (hQ : LrOps.ShapeOnly Q) {ex : Prop} {g : GemmT R} {f m n : Nat} {a : Dense R} {B : Mat R}
    (ra : a.rows = n) (ca : a.cols = n) (hB : TileOk Q m n B) :
    ∃ B', trmmWith g .right .upper false false 1 (f + 1) (.dense a) B = .ok B' ∧ TileOk Q m n B' ∧ B.SameShape B' ∧
      (Good ex B → Good ex B') ∧
      ∀ r < m, ∀ s < n, B'.entry r s = ∑ l ∈ range n, (if s < l then 0 else a.val l s) * B.entry r l := by
  obtain ⟨wf, sqr, tile, all, rows, cols⟩ := hB
  have tri : ∀ l s, (triEntry .upper false (.dense a)) l s = if s < l then 0 else a.val l s := by
    intro l s
    simp only [triEntry, entry]
    by_cases e : l = s
    · subst e; simp
    · rw [if_neg e]
      by_cases h : l < s
      · rw [if_pos h, if_neg (by omega)]
      · rw [if_neg h, if_pos (by omega)]
  cases B with
  | hier => exact tile.elim
  | empty => exact tile.elim
  | dense b =>
    have cols : b.cols = n := cols
    have rows : b.rows = m := rows
    have hd : ∃ d, Dense.trmm .right .upper false false 1 a b = .ok d := by
      simp only [Dense.trmm, Side.pick, ra, ca, cols, decide_true, assertM, if_true, except_bind_ok]
      exact ⟨_, rfl⟩
    obtain ⟨d, hd⟩ := hd
    obtain ⟨-, -, h3, h4, h5⟩ := Dense_trmm_ok hd
    have sh : (Mat.dense b).SameShape (.dense d) := ⟨h3.symm, h4.symm⟩
    refine ⟨.dense d, by simp only [trmmWith, trmmOmm, hd, except_bind_ok],
      ⟨trivial, trivial, trivial, trivial, h3.trans rows, h4.trans cols⟩, sh, fun hg => hg.of_shape trivial trivial sh,
      fun r hr s hs => ?_⟩
    change d.val r s = _
    rw [h5, one_mul]
    simp only [sideProd, opFun, ra]
    refine Finset.sum_congr rfl fun l _ => ?_
    simp only [Bool.false_eq_true, if_false, tri]
    exact mul_comm _ _
  | lowRank b =>
    have hw : b.WF := wf
    have cols : b.dim1 = n := cols
    have rows : b.dim0 = m := rows
    have hd : ∃ d, Dense.trmm .right .upper false false 1 a b.V = .ok d := by
      simp only [Dense.trmm, Side.pick, ra, ca, hw.vcols, cols, decide_true, assertM, if_true, except_bind_ok]
      exact ⟨_, rfl⟩
    obtain ⟨d, hd⟩ := hd
    obtain ⟨-, -, h3, h4, h5⟩ := Dense_trmm_ok hd
    have w' := setOuter_wf (side := .right) hw h3 h4
    have s' := setOuter_square (side := .right) (X := d) sqr
    refine ⟨.lowRank (b.setOuter .right d), ?_, ⟨w', s', trivial, ?_, rows, cols⟩,
      setOuter_shape, fun hg => hg.of_shape w' s' setOuter_shape, fun r hr s hs => ?_⟩
    · simp only [trmmWith, trmmOmm, ra, ca, cols, Side.pick, LowRank.outer, hd, decide_true, assertM, if_true,
        except_bind_ok]
    · exact hQ b _ w' s' rfl rfl rfl rfl all
    · rw [setOuter_trmm (side := .right) (n := n) hw (fun x _ y _ => by rw [h5 x y, ra]; rfl) r (by omega) s (by omega), one_mul]
      simp only [sideProd, opFun]
      refine Finset.sum_congr rfl fun l _ => ?_
      simp only [Bool.false_eq_true, if_false, tri]
      exact mul_comm _ _

/-- Entry of the upper triangle of a block matrix, row `z` (block and row in the
block), column `s` of block column `j`. -/
def upv (Y : Nat → Nat → Mat R) (j s : Nat) (z : Ix) : R :=
  if j < z.1 ∨ (z.1 = j ∧ s < z.2) then 0 else (Y z.1 j).entry z.2 s

theorem trmm_grid (hf : o.Fits False) (hT : o.Total False Q) (hQ : LrOps.ShapeOnly Q) {ex : Prop}
    (hex : ex → o.Exact False) {fuel p q : Nat} (hfu : 2 ≤ fuel) {h w : Nat → Nat} {Y B : Nat → Nat → Mat R}
    (hY : ∀ k j, k ≤ j → j < q → (Y k j).WF ∧ (Y k j).IsTile ∧ (Y k j).nRows = w k ∧ (Y k j).nCols = w j)
    (hd : DiagDense q Y) (hB : GridOk Q p q h w B) :
    ∃ B', trmm o fuel (.hier q q Y) (.hier p q B) .right .upper false false 1 = .ok (.hier p q B') ∧
      GridOk Q p q h w B' ∧ (∀ i < p, ∀ j < q, (B i j).SameShape (B' i j)) ∧
      ((∀ i < p, ∀ j < q, (B i j).AllDense ∨ ex) → ∀ i < p, ∀ j < q, ∀ r < h i, ∀ s < w j,
        (B' i j).entry r s = ∑ z ∈ rowsFrom 0 (j + 1) w, upv Y j s z * (B i z.1).entry r z.2) := by
  obtain ⟨f, rfl⟩ : ∃ f, fuel = f + 2 := ⟨fuel - 2, by omega⟩
  unfold trmm
  have key : ∀ i < p, ∀ j < q, ∃ X, (do
        let c ← trmmWith (gemm o (f + 2)) .right .upper false false 1 (f + 1) (Y j j) (B i j)
        loop j (fun u c => gemm o (f + 2) (B i (j - 1 - u)) (Y (j - 1 - u) j) c 1 1 false false) c) = .ok X ∧
      TileOk Q (h i) (w j) X ∧ (B i j).SameShape X ∧
      ((∀ i < p, ∀ j < q, (B i j).AllDense ∨ ex) → ∀ r < h i, ∀ s < w j,
        X.entry r s = ∑ z ∈ rowsFrom 0 (j + 1) w, upv Y j s z * (B i z.1).entry r z.2) := by
    intro i hi j hj
    obtain ⟨a, ha⟩ := hd j hj
    obtain ⟨-, -, r1, r2⟩ := hY j j le_rfl hj
    rw [ha] at r1 r2
    have g := hB i hi j hj
    obtain ⟨c, h1, h2, h3, h4, h5⟩ := trmm_tile_right hQ (ex := ex) (g := gemm o (f + 2)) (f := f) r1 r2 g
    rw [ha, h1, except_bind_ok]
    obtain ⟨X, e1, e2, e3, e4⟩ := loop_ok (n := j)
      (f := fun u c => gemm o (f + 2) (B i (j - 1 - u)) (Y (j - 1 - u) j) c 1 1 false false) (a := c)
      (I := fun u X => TileOk Q (h i) (w j) X ∧ (B i j).SameShape X ∧ (((B i j).AllDense ∨ ex) → Good ex X ∧ ∀ r < h i, ∀ s < w j,
        X.entry r s = ∑ l ∈ range (w j), (if s < l then 0 else a.val l s) * (B i j).entry r l +
          ∑ v ∈ range u, ∑ l ∈ range (w (j - 1 - v)), (Y (j - 1 - v) j).entry l s * (B i (j - 1 - v)).entry r l))
      ⟨h2, h3, fun hg => ⟨h4 ⟨g.wf, g.sqr, hg⟩, fun r hr s hs => by rw [h5 r hr s hs]; simp⟩⟩ (by
        intro u hu X ⟨tX, sX, eX⟩
        obtain ⟨y1, y2, y3, y4⟩ := hY (j - 1 - u) j (by omega) hj
        have gb := hB i hi (j - 1 - u) (by omega)
        obtain ⟨Z, z1, z2, z3⟩ := tX.gemm hf hT (fuel := f + 2) (by omega) gb.wf gb.tile gb.rows gb.cols y1 y2 y3 y4 1 1
        refine ⟨Z, z1, z2, sX.trans z3, fun hg => ?_⟩
        obtain ⟨gX, eX⟩ := eX hg
        obtain ⟨-, -, -, gZ, -, eZ⟩ := gemm_good hf hex gb.wf y1 gX (TransSafe_ff _ _) z1
        refine ⟨gZ, fun r hr s hs => ?_⟩
        rw [eZ r (by rw [tX.rows]; exact hr) s (by rw [tX.cols]; exact hs), eX r hr s hs, Finset.sum_range_succ, y3]
        rw [one_mul, one_mul, add_comm, add_assoc]
        congr 2
        exact Finset.sum_congr rfl fun l _ => mul_comm _ _)
    refine ⟨X, e1, e2, e3, fun hg r hr s hs => ?_⟩
    rw [(e4 (hg i hi j hj)).2 r hr s hs]
    unfold rowsFrom
    rw [Finset.sum_sigma, ← Finset.range_eq_Ico, Finset.sum_range_succ, add_comm, ← Finset.sum_range_reflect]
    congr 1
    · refine Finset.sum_congr rfl fun v hv => ?_
      have hv := Finset.mem_range.1 hv
      refine Finset.sum_congr (by rw [show j - 1 - (j - 1 - v) = v by omega]) fun l _ => ?_
      rw [upv, if_neg (by simp only; omega), show j - 1 - (j - 1 - v) = v by omega]
    · refine Finset.sum_congr rfl fun l _ => ?_
      simp only [upv, lt_irrefl, false_or, true_and, ha]
      rfl
  obtain ⟨B', hB'⟩ := collect2_exists (fun i hi j hj => (key i hi j hj).imp (fun _ h => h.1))
  have bl := collect2_ok hB'
  refine ⟨B', ?_, fun i hi j hj => ?_, fun i hi j hj => ?_, fun hg i hi j hj => ?_⟩
  · show trmmHH (gemm o (f + 2)) (trmmWith (gemm o (f + 2)) .right .upper false false 1 (f + 1)) .right .upper false 1 q q Y p q B
      = _
    unfold trmmHH
    simp only [Side.pick, trmmCount, trmmIndex, decide_true, assertM, if_true, Bool.not_false, except_bind_ok]
    rw [hB', except_bind_ok]
  all_goals
    obtain ⟨X, e1, e2, e3, e4⟩ := key i hi j hj
    have := bl i hi j hj
    rw [e1] at this
    cases Except.ok.inj this
  · exact e2
  · exact e3
  · exact e4 hg

end Mat
end Verif
