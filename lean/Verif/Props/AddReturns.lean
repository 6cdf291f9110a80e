import Verif.Props.GemmTotal

/-
C24: which additions return.
-/

namespace Verif
open Finset

variable {R : Type}

namespace Mat

/-- Pairs of matrices that can be added: of the same dimensions, a subdivided right
operand meeting a left operand subdivided into as many blocks, a low-rank right
operand meeting blocks whose sizes are those the library's subdivision gives. -/
def AddFits : Mat R → Mat R → Prop
  | .dense a, .dense b => a.rows = b.rows ∧ a.cols = b.cols
  | .hier br bc blk, .hier br' bc' blk' =>
    br = br' ∧ bc = bc' ∧ ∀ i < br, ∀ j < bc, (blk i j).AddFits (blk' i j)
  | .empty _ _, _ => False
  | A, .lowRank b => A.nRows = b.dim0 ∧ A.nCols = b.dim1 ∧ A.Even ∧ A.NoEmpty
  | _, _ => False

theorem AddFits.conform {A B : Mat R} (h : A.AddFits B) : A.Conform B := by
  induction A generalizing B with
  | dense a => cases B <;> trivial
  | lowRank a => cases B <;> trivial
  | empty => cases B <;> exact h.elim
  | hier br bc blk ih =>
    cases B with
    | hier br' bc' blk' =>
      exact ⟨h.1, h.2.1, fun i hi j hj => ih i j (h.2.2 i hi j hj)⟩
    | _ => trivial

theorem addAssign_total [CommRing R] {o : LrOps R} {sq : Prop} {Q : LowRank R → Prop} (ht : o.Total sq Q)
    {A B : Mat R} (hA : A.WF) (hs : A.Square) (hQ : A.All Q) (hB : B.WF) (hBs : sq → B.Square)
    (hc : A.AddFits B) : ∃ A', A.addAssign o B = .ok A' ∧ A'.All Q := by
  induction A generalizing B with
  | dense a =>
    cases B with
    | dense b =>
      obtain ⟨h0, h1⟩ := hc
      refine ⟨.dense ⟨a.rows, a.cols, fun i j => a.val i j + b.val i j⟩, ?_, trivial⟩
      simp [Mat.addAssign, Dense.addAssign, assertM, h0, h1]
    | lowRank b => exact addLr_total ht hA hc.2.2.2 hs hc.2.2.1 hQ hB hBs hc.1 hc.2.1
    | _ => exact hc.elim
  | lowRank a =>
    cases B with
    | lowRank b => exact addLr_total ht hA hc.2.2.2 hs hc.2.2.1 hQ hB hBs hc.1 hc.2.1
    | _ => exact hc.elim
  | empty => cases B <;> exact hc.elim
  | hier br bc blk ih =>
    cases B with
    | lowRank b => exact addLr_total ht hA hc.2.2.2 hs hc.2.2.1 hQ hB hBs hc.1 hc.2.1
    | hier br' bc' blk' =>
      obtain ⟨rfl, rfl, hb⟩ := hc
      have hA' := hA
      have hB' := hB
      simp only [WF] at hA' hB'
      have key : ∀ i < br, ∀ j < bc, ∃ x, (blk i j).addAssign o (blk' i j) = .ok x ∧ x.All Q :=
        fun i hi j hj => ih i j (hA'.2.2 i hi j hj).1 (hs i hi j hj) (hQ i hi j hj)
          (hB'.2.2 i hi j hj).1 (fun h => hBs h i hi j hj) (hb i hi j hj)
      obtain ⟨g, hg⟩ := collect2_exists (m := br) (n := bc) (f := fun i j => do
          assertM (decide (i < br))
          assertM (decide (j < bc))
          (blk i j).addAssign o (blk' i j)) (fun i hi j hj => by
          obtain ⟨x, hx, -⟩ := key i hi j hj
          exact ⟨x, by simp [assertM, hi, hj, hx]⟩)
      refine ⟨.hier br bc g, by simp only [Mat.addAssign, hg, except_bind_ok], fun i hi j hj => ?_⟩
      obtain ⟨x, hx, q⟩ := key i hi j hj
      have := collect2_ok hg i hi j hj
      simp [assertM, hi, hj, hx] at this
      rw [← this]
      exact q
    | _ => exact hc.elim

end Mat

/-- C24.  `A += B` returns for every pair of addable matrices if the low-rank
operations return on the low-rank blocks of `A`, and the result has the entries of
the sum as in `C24_add_assign`. -/
theorem C24_add_assign_returns [CommRing R] {o : LrOps R} {sq : Prop} {Q : LowRank R → Prop}
    (hf : o.Fits sq) (ht : o.Total sq Q) {A B : Mat R} (hA : A.WF) (hAs : A.Square) (hQ : A.All Q)
    (hB : B.WF) (hBs : sq → B.Square) (hc : A.AddFits B) :
    ∃ A', A.addAssign o B = .ok A' ∧ A'.WF ∧ A'.Square ∧ A.SameShape A' ∧
      ∀ i < A.nRows, ∀ j < A.nCols, (A.denseAt i j ∨ o.Exact sq) →
        A'.EntryIs i j (A.entry i j + B.entry i j) := by
  obtain ⟨A', h, -⟩ := Mat.addAssign_total ht hA hAs hQ hB hBs hc
  have P := C24_add_assign hf hA hAs hB hBs hc.conform h
  exact ⟨A', h, P.2.2⟩

/-- C24 for the library's low-rank operations and a matrix `A` of dense blocks: the
sum is exact at every entry, in every addition mode, whatever the external routines
return. -/
theorem C24_add_library_returns [CommRing R] [DecidableEq R] (L : Lapack R) (mode : LraMode) (lfuel : Nat)
    {A B : Mat R} (hA : A.WF) (hAd : A.DenseLeaves) (hB : B.WF) (hc : A.AddFits B) :
    ∃ A', A.addAssign (L.ops mode lfuel) B = .ok A' ∧ A.SameShape A' ∧
      ∀ i < A.nRows, ∀ j < A.nCols, A'.EntryIs i j (A.entry i j + B.entry i j) := by
  obtain ⟨A', h, -, -, h1, h2⟩ := C24_add_assign_returns (L.ops_fits mode lfuel) (sq := False)
    (Q := fun _ => False)
    ⟨fun _ _ h => h, fun _ _ _ _ _ _ _ _ h => h.elim, fun _ _ h => h.elim, fun _ _ h => h.elim,
      fun _ _ h => h.elim⟩ hA hAd.square (hAd.all _) hB (fun h => h.elim) hc
  exact ⟨A', h, h1, fun i hi j hj => h2 i hi j hj (Or.inl (hAd.denseAt hi hj hA))⟩

/-- C24: the pairs of classes for which addition is not implemented: a dense or
subdivided matrix added to a low-rank one, a dense one to a subdivided one, a
subdivided one to a dense one.  These calls abort. -/
theorem C24_unsupported [CommRing R] (o : LrOps R) (a : Dense R) (l : LowRank R) (p q : Nat)
    (g : Nat → Nat → Mat R) :
    (Mat.lowRank l).addAssign o (.dense a) = .error .abort ∧
    (Mat.lowRank l).addAssign o (.hier p q g) = .error .abort ∧
    (Mat.hier p q g).addAssign o (.dense a) = .error .abort ∧
    (Mat.dense a).addAssign o (.hier p q g) = .error .abort :=
  ⟨by simp [Mat.addAssign], by simp [Mat.addAssign], by simp [Mat.addAssign], by simp [Mat.addAssign]⟩

/-- C24: a nested matrix of dense blocks of different sizes and a low-rank matrix. -/
example (L : Lapack ℤ) (mode : LraMode) : ∃ A',
    (Mat.hier 2 1 (fun i _ => .dense ⟨2 - i, 3, fun a b => (a : ℤ) + 5 * b⟩)).addAssign (L.ops mode 3)
      (.lowRank ⟨3, 3, 1, 0, ⟨3, 1, fun i _ => i⟩, ⟨1, 1, fun _ _ => 2⟩, ⟨1, 3, fun _ j => j⟩⟩) = .ok A' ∧
    A'.EntryIs 2 1 (5 + 4) := by
  have hw : (Mat.hier 2 1 (fun i _ => .dense ⟨2 - i, 3, fun a b => (a : ℤ) + 5 * b⟩)).WF := by
    refine ⟨by omega, by omega, fun i hi j hj => ?_⟩
    obtain rfl : j = 0 := by omega
    exact ⟨trivial, rfl, rfl⟩
  obtain ⟨A', h, -, he⟩ := C24_add_library_returns L mode 3 (B := .lowRank ⟨3, 3, 1, 0, ⟨3, 1, fun i _ => i⟩,
    ⟨1, 1, fun _ _ => 2⟩, ⟨1, 3, fun _ j => j⟩⟩) hw (fun _ _ _ _ => trivial)
    ⟨rfl, rfl, rfl, rfl, rfl⟩ ⟨by decide, by decide, by
      intro i hi j hj
      obtain rfl : j = 0 := by omega
      interval_cases i <;> exact ⟨trivial, by decide, by decide⟩, fun _ _ _ _ => trivial⟩
  exact ⟨A', h, he 2 (by decide) 1 (by decide)⟩

end Verif
