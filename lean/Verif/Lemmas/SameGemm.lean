import Verif.Lemmas.Same

/-
Products of matrices that are stored alike.
-/

namespace Verif
open Finset

variable {R : Type} [CommRing R]

namespace Mat

/-- A product that depends on what its operands store, and on nothing else. -/
def GemmAlike (g : GemmT R) : Prop :=
  ∀ (A A' B B' C C' : Mat R) (α β : R) (ta tb : Bool), A.Same A' → B.Same B' → C.Same C' →
    A.HasBlocks → B.HasBlocks → C.HasBlocks → Alike C (g A B C α β ta tb) (g A' B' C' α β ta tb)

/-- The same for products that return a new matrix. -/
def GemmNewAlike (gn : GemmNewT R) : Prop :=
  ∀ (A A' B B' : Mat R) (α : R) (ta tb : Bool), A.Same A' → B.Same B' → A.HasBlocks → B.HasBlocks →
    Both (fun X X' => X.Same X' ∧ X.HasBlocks) (gn A B α ta tb) (gn A' B' α ta tb)

omit [CommRing R] in
/-- Products accumulated in one target. -/
theorem same_loop {C C' : Mat R} (hC : C.Same C') (hb : C.HasBlocks) {n : Nat}
    {f f' : Nat → Mat R → Except Err (Mat R)}
    (hf : ∀ k < n, ∀ X X', X.Same X' → X.HasBlocks → Alike X (f k X) (f' k X')) :
    Alike C (loop n f C) (loop n f' C') := by
  refine loop_loop (P := fun _ X X' => KeepsLike C X X') ⟨hC, Shape.refl _⟩ ?_
  intro k hk X X' h
  exact (hf k hk X X' h.1 (h.2.hasBlocks hb)).mono (fun Y Y' k => ⟨k.1, h.2.trans k.2⟩)

theorem same_gemmLrDD {a a' : LowRank R} {b b' c c' : Dense R} (ha : a.Same a') (hb : b.Same b')
    (hc : c.Same c') (α β : R) (ta tb : Bool) :
    Both (fun X X' => X.Same X' ∧ X.rows = c.rows ∧ X.cols = c.cols) (gemmLrDD a b c α β ta tb)
      (gemmLrDD a' b' c' α β ta tb) := by
  unfold gemmLrDD
  exact ((ha.U.ite ha.V).gemmNew hb α ta tb).bind (fun x x' _ _ hx =>
    (ha.S.gemmNew hx.1 1 ta false).bind (fun y y' _ _ hy => (ha.V.ite ha.U).gemm hy.1 hc 1 β ta false))

theorem same_gemmDLrD {b b' : LowRank R} {a a' c c' : Dense R} (ha : a.Same a') (hb : b.Same b')
    (hc : c.Same c') (α β : R) (ta tb : Bool) :
    Both (fun X X' => X.Same X' ∧ X.rows = c.rows ∧ X.cols = c.cols) (gemmDLrD a b c α β ta tb)
      (gemmDLrD a' b' c' α β ta tb) := by
  unfold gemmDLrD
  exact (ha.gemmNew (hb.V.ite hb.U) α ta tb).bind (fun x x' _ _ hx =>
    (hx.1.gemmNew hb.S 1 false tb).bind (fun y y' _ _ hy => hy.1.gemm (hb.U.ite hb.V) hc 1 β false tb))

theorem same_gemmLrLrD {a a' b b' : LowRank R} {c c' : Dense R} (ha : a.Same a') (hb : b.Same b')
    (hc : c.Same c') (α β : R) (ta tb : Bool) :
    Both (fun X X' => X.Same X' ∧ X.rows = c.rows ∧ X.cols = c.cols) (gemmLrLrD a b c α β ta tb)
      (gemmLrLrD a' b' c' α β ta tb) := by
  unfold gemmLrLrD
  exact ((ha.U.ite ha.V).gemmNew (hb.V.ite hb.U) α ta tb).bind (fun x x' _ _ hx =>
    (ha.S.gemmNew hx.1 1 ta false).bind (fun y y' _ _ hy =>
      (hy.1.gemmNew hb.S 1 false tb).bind (fun z z' _ _ hz =>
        ((ha.V.ite ha.U).gemmNew hz.1 1 ta false).bind (fun w w' _ _ hw =>
          hw.1.gemm (hb.U.ite hb.V) hc 1 β false tb))))

section
variable {o : LrOps R} (ho : o.Local) {C C' : Mat R} (hC : C.Same C') (hb : C.HasBlocks)
include ho hC hb

theorem same_gemmLrD {a a' : LowRank R} {b b' : Dense R} (ha : a.Same a') (hb' : b.Same b')
    (α β : R) (ta tb : Bool) :
    Alike C (gemmLrD o a b C α β ta tb) (gemmLrD o a' b' C' α β ta tb) := by
  unfold gemmLrD
  exact ((ha.U.ite ha.V).gemmNew hb' α ta tb).bind (fun x x' _ _ hx =>
    same_scaleAdd ho hC (LowRank.Same.ofFactors (ha.V.transpose.ite ha.U) (ha.S.transpose.ite ha.S) hx.1) hb β)

theorem same_gemmDLr {a a' : Dense R} {b b' : LowRank R} (ha : a.Same a') (hb' : b.Same b')
    (α β : R) (ta tb : Bool) :
    Alike C (gemmDLr o a b C α β ta tb) (gemmDLr o a' b' C' α β ta tb) := by
  unfold gemmDLr
  exact (ha.gemmNew (hb'.V.ite hb'.U) α ta tb).bind (fun x x' _ _ hx =>
    same_scaleAdd ho hC (LowRank.Same.ofFactors hx.1 (hb'.S.transpose.ite hb'.S) (hb'.U.transpose.ite hb'.V)) hb β)

theorem same_gemmLrLr {a a' b b' : LowRank R} (ha : a.Same a') (hb' : b.Same b')
    (α β : R) (ta tb : Bool) :
    Alike C (gemmLrLr o a b C α β ta tb) (gemmLrLr o a' b' C' α β ta tb) := by
  unfold gemmLrLr
  exact (ha.S.gemmNew (ha.U.ite ha.V) 1 ta ta).bind (fun x x' _ _ hx =>
    ((hb'.V.ite hb'.U).gemmNew hb'.S 1 tb tb).bind (fun y y' _ _ hy =>
      (hx.1.gemmNew hy.1 α false false).bind (fun S S' _ _ hS =>
        same_scaleAdd ho hC (LowRank.Same.ofFactors (ha.V.transpose.ite ha.U) hS.1
          (hb'.U.transpose.ite hb'.V)) hb β)))

end

section
variable {g : GemmT R} {gn : GemmNewT R} (hg : GemmAlike g)
include hg

theorem same_toDense {A A' B B' : Mat R} (hA : A.Same A') (hB : B.Same B') (bA : A.HasBlocks)
    (bB : B.HasBlocks) {c c' : Dense R} (hc : c.Same c') (α β : R) (ta tb : Bool) :
    Alike (.dense c) (gemmToDense g A B c α β ta tb) (gemmToDense g A' B' c' α β ta tb) := by
  have right : ∀ (A A' : Mat R) (r s : Nat) (B B' : Nat → Nat → Mat R), A.Same A' → A.HasBlocks →
      (Mat.hier r s B).Same (.hier r s B') → (Mat.hier r s B).HasBlocks →
      Alike (.dense c)
        (if r = 1 ∧ s = 1 then g A (B 0 0) (.dense c) α β ta tb
          else do
            let CH ← (Mat.dense c).split 1 (opDim1 tb r s)
            let CH' ← g A (.hier r s B) CH α β ta tb
            joinDense c CH')
        (if r = 1 ∧ s = 1 then g A' (B' 0 0) (.dense c') α β ta tb
          else do
            let CH ← (Mat.dense c').split 1 (opDim1 tb r s)
            let CH' ← g A' (.hier r s B') CH α β ta tb
            joinDense c' CH') := by
    intro A A' r s B B' hA bA hB bB
    split
    · exact hg _ _ _ _ (.dense c) (.dense c') _ _ _ _ hA (hB.2.2 0 bB.1 0 bB.2.1) hc bA (bB.2.2 0 bB.1 0 bB.2.1) trivial
    · exact same_through hc (le_refl _) (hasBlocks_opDim bB).2
        (f := fun CH => g A (.hier r s B) CH α β ta tb)
        (f' := fun CH => g A' (.hier r s B') CH α β ta tb)
        (fun CH CH' t1 t2 => hg _ _ _ _ _ _ _ _ _ _ hA hB t1 bA bB t2)
  have left : ∀ (p q : Nat) (A A' : Nat → Nat → Mat R) (B B' : Mat R),
      (Mat.hier p q A).Same (.hier p q A') → (Mat.hier p q A).HasBlocks → B.Same B' → B.HasBlocks →
      Alike (.dense c)
        (if p = 1 ∧ q = 1 then g (A 0 0) B (.dense c) α β ta tb
          else do
            let CH ← (Mat.dense c).split (opDim0 ta p q) 1
            let CH' ← g (.hier p q A) B CH α β ta tb
            joinDense c CH')
        (if p = 1 ∧ q = 1 then g (A' 0 0) B' (.dense c') α β ta tb
          else do
            let CH ← (Mat.dense c').split (opDim0 ta p q) 1
            let CH' ← g (.hier p q A') B' CH α β ta tb
            joinDense c' CH') := by
    intro p q A A' B B' hA bA hB bB
    split
    · exact hg _ _ _ _ (.dense c) (.dense c') _ _ _ _ (hA.2.2 0 bA.1 0 bA.2.1) hB hc (bA.2.2 0 bA.1 0 bA.2.1) bB trivial
    · exact same_through hc (hasBlocks_opDim bA).1 (le_refl _)
        (f := fun CH => g (.hier p q A) B CH α β ta tb)
        (f' := fun CH => g (.hier p q A') B' CH α β ta tb)
        (fun CH CH' t1 t2 => hg _ _ _ _ _ _ _ _ _ _ hA hB t1 bA bB t2)
  cases A with
  | dense a =>
    cases A' with
    | dense a' =>
      cases B with
      | dense b =>
        cases B' <;> try exact hB.elim
        exact (Dense.Same.gemm hA hB hc α β ta tb).map (fun _ _ h => ⟨h.1, h.2⟩)
      | lowRank b =>
        cases B' <;> try exact hB.elim
        exact (same_gemmDLrD hA hB hc α β ta tb).map (fun _ _ h => ⟨h.1, h.2⟩)
      | hier r s B =>
        cases B' with
        | hier r' s' B' =>
          obtain ⟨rfl, rfl, hB⟩ := hB
          exact right (.dense a) (.dense a') r s B B' hA bA ⟨rfl, rfl, hB⟩ bB
        | _ => exact hB.elim
      | empty =>
        cases B' <;> try exact hB.elim
        exact Both.err _ _
    | _ => exact hA.elim
  | lowRank a =>
    cases A' with
    | lowRank a' =>
      cases B with
      | dense b =>
        cases B' <;> try exact hB.elim
        exact (same_gemmLrDD hA hB hc α β ta tb).map (fun _ _ h => ⟨h.1, h.2⟩)
      | lowRank b =>
        cases B' <;> try exact hB.elim
        exact (same_gemmLrLrD hA hB hc α β ta tb).map (fun _ _ h => ⟨h.1, h.2⟩)
      | hier r s B =>
        cases B' with
        | hier r' s' B' =>
          obtain ⟨rfl, rfl, hB⟩ := hB
          exact right (.lowRank a) (.lowRank a') r s B B' hA bA ⟨rfl, rfl, hB⟩ bB
        | _ => exact hB.elim
      | empty =>
        cases B' <;> try exact hB.elim
        exact Both.err _ _
    | _ => exact hA.elim
  | hier p q A =>
    cases A' with
    | hier p' q' A' =>
      obtain ⟨rfl, rfl, hA⟩ := hA
      have hA' : (Mat.hier p q A).Same (.hier p q A') := ⟨rfl, rfl, hA⟩
      cases B with
      | dense b =>
        cases B' <;> try exact hB.elim
        exact left p q A A' _ _ hA' bA hB bB
      | lowRank b =>
        cases B' <;> try exact hB.elim
        exact left p q A A' _ _ hA' bA hB bB
      | hier r s B =>
        cases B' with
        | hier r' s' B' =>
          obtain ⟨rfl, rfl, hB⟩ := hB
          have hB' : (Mat.hier r s B).Same (.hier r s B') := ⟨rfl, rfl, hB⟩
          simp only [gemmToDense, gemmHHD]
          refine Both.assert (fun _ => ?_)
          split
          · refine same_loop (C := .dense c) (C' := .dense c') hc trivial (fun k hk X X' t1 t2 => ?_)
            exact (same_vecAt bA hA k).bind (fun a a' _ _ ha => (same_vecAt bB hB k).bind
              (fun b b' _ _ hb => hg _ _ _ _ _ _ _ _ _ _ ha.1 hb.1 t1 ha.2.1 hb.2.1 t2))
          · exact same_through hc (hasBlocks_opDim bA).1 (hasBlocks_opDim bB).2
              (f := fun CH => g (.hier p q A) (.hier r s B) CH α β ta tb)
              (f' := fun CH => g (.hier p q A') (.hier r s B') CH α β ta tb)
              (fun CH CH' t1 t2 => hg _ _ _ _ _ _ _ _ _ _ hA' hB' t1 bA bB t2)
        | _ => exact hB.elim
      | empty m n =>
        cases B' <;> try exact hB.elim
        exact left p q A A' _ _ hA' bA hB bB
    | _ => exact hA.elim
  | empty m n =>
    cases A' with
    | empty m' n' =>
      cases B with
      | dense b =>
        cases B' <;> try exact hB.elim
        exact Both.err _ _
      | lowRank b =>
        cases B' <;> try exact hB.elim
        exact Both.err _ _
      | hier r s B =>
        cases B' with
        | hier r' s' B' =>
          obtain ⟨rfl, rfl, hB⟩ := hB
          exact right (.empty m n) (.empty m' n') r s B B' hA bA ⟨rfl, rfl, hB⟩ bB
        | _ => exact hB.elim
      | empty =>
        cases B' <;> try exact hB.elim
        exact Both.err _ _
    | _ => exact hA.elim

omit [CommRing R] in
theorem same_rowLoop {A A' : Mat R} (hA : A.Same A') (bA : A.HasBlocks) {r s : Nat}
    {B B' : Nat → Nat → Mat R} (hB : (Mat.hier r s B).Same (.hier r s B'))
    (bB : (Mat.hier r s B).HasBlocks) {n : Nat} {C C' : Nat → Nat → Mat R}
    (hC : (Mat.hier 1 n C).Same (.hier 1 n C')) (bC : (Mat.hier 1 n C).HasBlocks)
    (α β : R) (ta tb : Bool) :
    Alike (.hier 1 n C) (gemmRowLoop g A r s B 1 n C α β ta tb)
      (gemmRowLoop g A' r s B' 1 n C' α β ta tb) := by
  unfold gemmRowLoop
  refine (collect_both (P := fun j x x' => KeepsLike (C 0 j) x x') (fun j hj => ?_)).map (fun f f' hf => ?_)
  · refine (same_vecAt bB hB.2.2 j).bind (fun b b' _ _ hb => (same_vecAt bC hC.2.2 j).bind
      (fun c c' _ _ hc => ?_))
    have := hg A A' b b' c c' α β ta tb hA hb.1 hc.1 bA hb.2.1 hc.2.1
    rw [hc.2.2] at this ⊢
    exact this
  · refine ⟨⟨rfl, rfl, fun i hi j hj => ?_⟩, rfl, rfl, fun i hi j hj => ?_⟩
    · simp only
      split
      · exact (hf j ‹_›).1
      · exact hC.2.2 i hi j hj
    · obtain rfl : i = 0 := by omega
      simp only
      split
      · exact (hf j ‹_›).2
      · exact Shape.refl _

omit [CommRing R] in
theorem same_colLoop {B B' : Mat R} (hB : B.Same B') (bB : B.HasBlocks) {p q : Nat}
    {A A' : Nat → Nat → Mat R} (hA : (Mat.hier p q A).Same (.hier p q A'))
    (bA : (Mat.hier p q A).HasBlocks) {m : Nat} {C C' : Nat → Nat → Mat R}
    (hC : (Mat.hier m 1 C).Same (.hier m 1 C')) (bC : (Mat.hier m 1 C).HasBlocks)
    (α β : R) (ta tb : Bool) :
    Alike (.hier m 1 C) (gemmColLoop g p q A B m 1 C α β ta tb)
      (gemmColLoop g p q A' B' m 1 C' α β ta tb) := by
  unfold gemmColLoop
  refine (collect_both (P := fun i x x' => (i < m → KeepsLike (C i 0) x x')) (fun i hi => ?_)).map
    (fun f f' hf => ?_)
  · refine (same_vecAt bA hA.2.2 i).bind (fun a a' _ _ ha => (same_vecAt bC hC.2.2 i).bind
      (fun c c' _ _ hc => ?_))
    refine (hg a a' B B' c c' α β ta tb ha.1 hB hc.1 ha.2.1 bB hc.2.1).mono (fun x x' hx him => ?_)
    have e : c = C i 0 := by
      rw [hc.2.2]
      split
      · obtain rfl : i = 0 := by omega
        rfl
      · rfl
    rw [← e]
    exact hx
  · refine ⟨⟨rfl, rfl, fun i hi j hj => ?_⟩, rfl, rfl, fun i hi j hj => ?_⟩
    · simp only
      split
      · exact (hf i ‹_› hi).1
      · exact hC.2.2 i hi j hj
    · obtain rfl : j = 0 := by omega
      simp only
      split
      · exact (hf i ‹_› hi).2
      · exact Shape.refl _

omit hg [CommRing R] in
theorem one_le_ite {p : Prop} [Decidable p] {a b : Nat} (ha : 1 ≤ a) (hb : 1 ≤ b) :
    1 ≤ if p then a else b := by split <;> assumption

theorem same_toHier {o : LrOps R} (ho : o.Local) (hgn : GemmNewAlike gn) {A A' B B' : Mat R}
    (hA : A.Same A') (hB : B.Same B') (bA : A.HasBlocks) (bB : B.HasBlocks) {m n : Nat}
    {C C' : Nat → Nat → Mat R} (hC : (Mat.hier m n C).Same (.hier m n C'))
    (bC : (Mat.hier m n C).HasBlocks) (α β : R) (ta tb : Bool) :
    Alike (.hier m n C) (gemmToHier o g gn A B m n C α β ta tb)
      (gemmToHier o g gn A' B' m n C' α β ta tb) := by
  have m1 : 1 ≤ m := bC.1
  have n1 : 1 ≤ n := bC.2.1
  cases A with
  | dense a =>
    cases A' with
    | dense a' =>
      cases B with
      | dense b =>
        cases B' with
        | dense b' =>
          simp only [gemmToHier, gemmDDH]
          split
          · exact Both.err _ _
          split
          · exact (same_split hA (one_le_ite le_rfl m1) (one_le_ite m1 le_rfl)).bind
              (fun AH AH' _ _ ⟨s1, s2⟩ => hg _ _ (.dense b) (.dense b') _ _ _ _ _ _ s1 hB hC s2 trivial bC)
          split
          · exact (same_split hB (one_le_ite n1 le_rfl) (one_le_ite le_rfl n1)).bind
              (fun BH BH' _ _ ⟨s1, s2⟩ => hg (.dense a) (.dense a') _ _ _ _ _ _ _ _ hA s1 hC trivial s2 bC)
          · exact (same_split hA (one_le_ite le_rfl m1) (one_le_ite m1 le_rfl)).bind
              (fun AH AH' _ _ ⟨s1, s2⟩ => (same_split hB (one_le_ite n1 le_rfl) (one_le_ite le_rfl n1)).bind
                (fun BH BH' _ _ ⟨s3, s4⟩ => hg _ _ _ _ _ _ _ _ _ _ s1 s3 hC s2 s4 bC))
        | _ => exact hB.elim
      | lowRank b =>
        cases B' <;> try exact hB.elim
        exact same_gemmDLr ho hC bC hA hB α β ta tb
      | hier r s B =>
        cases B' with
        | hier r' s' B' =>
          obtain ⟨rfl, rfl, hB⟩ := hB
          have hB' : (Mat.hier r s B).Same (.hier r s B') := ⟨rfl, rfl, hB⟩
          simp only [gemmToHier, gemmDHH]
          refine Both.assert (fun _ => ?_)
          split
          · exact hg (.dense a) (.dense a') _ _ _ _ _ _ _ _ hA (hB 0 bB.1 0 bB.2.1) hC trivial (bB.2.2 0 bB.1 0 bB.2.1) bC
          split
          · rename_i h1
            obtain ⟨-, rfl⟩ := h1
            exact same_rowLoop hg (A := .dense a) (A' := .dense a') hA trivial hB' bB hC bC α β ta tb
          · exact (same_split hA (one_le_ite (hasBlocks_opDim bB).1 m1) (one_le_ite m1 (hasBlocks_opDim bB).1)).bind
              (fun AH AH' _ _ ⟨s1, s2⟩ => hg _ _ _ _ _ _ _ _ _ _ s1 hB' hC s2 bB bC)
        | _ => exact hB.elim
      | empty =>
        cases B' <;> try exact hB.elim
        exact Both.err _ _
    | _ => exact hA.elim
  | lowRank a =>
    cases A' with
    | lowRank a' =>
      cases B with
      | dense b =>
        cases B' <;> try exact hB.elim
        exact same_gemmLrD ho hC bC hA hB α β ta tb
      | lowRank b =>
        cases B' <;> try exact hB.elim
        exact same_gemmLrLr ho hC bC hA hB α β ta tb
      | hier r s B =>
        cases B' with
        | hier r' s' B' =>
          obtain ⟨rfl, rfl, hB⟩ := hB
          have hB' : (Mat.hier r s B).Same (.hier r s B') := ⟨rfl, rfl, hB⟩
          simp only [gemmToHier, gemmLrHH]
          refine Both.assert (fun _ => ?_)
          split
          · exact hg (.lowRank a) (.lowRank a') _ _ _ _ _ _ _ _ hA (hB 0 bB.1 0 bB.2.1) hC trivial (bB.2.2 0 bB.1 0 bB.2.1) bC
          split
          · rename_i h1
            obtain ⟨-, rfl⟩ := h1
            exact same_rowLoop hg (A := .lowRank a) (A' := .lowRank a') hA trivial hB' bB hC bC α β ta tb
          · exact (hgn (.dense a.V) (.dense a'.V) _ _ _ _ _ hA.V hB' trivial bB).bind
              (fun V V' _ _ hV => (same_asDense hV.1).bind (fun v v' _ _ hv =>
                same_scaleAdd ho hC (LowRank.Same.ofFactors hA.U hA.S hv) bC β))
        | _ => exact hB.elim
      | empty =>
        cases B' <;> try exact hB.elim
        exact Both.err _ _
    | _ => exact hA.elim
  | hier p q A =>
    cases A' with
    | hier p' q' A' =>
      obtain ⟨rfl, rfl, hA⟩ := hA
      have hA' : (Mat.hier p q A).Same (.hier p q A') := ⟨rfl, rfl, hA⟩
      cases B with
      | dense b =>
        cases B' with
        | dense b' =>
          simp only [gemmToHier, gemmHDH]
          split
          · exact hg _ _ (.dense b) (.dense b') _ _ _ _ _ _ (hA 0 bA.1 0 bA.2.1) hB hC (bA.2.2 0 bA.1 0 bA.2.1) trivial bC
          split
          · rename_i h1
            obtain ⟨-, rfl⟩ := h1
            exact same_colLoop hg (B := .dense b) (B' := .dense b') hB trivial hA' bA hC bC α β ta tb
          · exact (same_split hB (one_le_ite n1 (hasBlocks_opDim bA).2) (one_le_ite (hasBlocks_opDim bA).2 n1)).bind
              (fun BH BH' _ _ ⟨s1, s2⟩ => hg _ _ _ _ _ _ _ _ _ _ hA' s1 hC bA s2 bC)
        | _ => exact hB.elim
      | lowRank b =>
        cases B' with
        | lowRank b' =>
          simp only [gemmToHier, gemmHLrH]
          split
          · exact hg _ _ (.lowRank b) (.lowRank b') _ _ _ _ _ _ (hA 0 bA.1 0 bA.2.1) hB hC (bA.2.2 0 bA.1 0 bA.2.1) trivial bC
          split
          · rename_i h1
            obtain ⟨-, rfl⟩ := h1
            exact same_colLoop hg (B := .lowRank b) (B' := .lowRank b') hB trivial hA' bA hC bC α β ta tb
          · exact (hgn _ _ (.dense b.U) (.dense b'.U) _ _ _ hA' hB.U bA trivial).bind
              (fun V V' _ _ hV => (same_asDense hV.1).bind (fun v v' _ _ hv =>
                same_scaleAdd ho hC (LowRank.Same.ofFactors hv hB.S hB.V) bC β))
        | _ => exact hB.elim
      | hier r s B =>
        cases B' with
        | hier r' s' B' =>
          obtain ⟨rfl, rfl, hB⟩ := hB
          simp only [gemmToHier, gemmHHH]
          refine Both.assert (fun g1 => Both.assert (fun g2 => Both.assert (fun g3 => ?_)))
          refine (collect2_both (P := fun i j x x' => KeepsLike (C i j) x x') (fun i hi j hj => ?_)).map
            (fun f f' hf => ⟨⟨rfl, rfl, fun i hi j hj => (hf i hi j hj).1⟩, rfl, rfl,
              fun i hi j hj => (hf i hi j hj).2⟩)
          refine same_loop (hC.2.2 i hi j hj) (bC.2.2 i hi j hj) (fun k hk X X' t1 t2 => ?_)
          exact hg _ _ _ _ _ _ _ _ _ _ (same_opBlk hA (by omega) hk) (same_opBlk hB (by omega) (by omega)) t1
            (hasBlocks_opBlk bA (by omega) hk) (hasBlocks_opBlk bB (by omega) (by omega)) t2
        | _ => exact hB.elim
      | empty m n =>
        cases B' <;> try exact hB.elim
        exact Both.err _ _
    | _ => exact hA.elim
  | empty m n =>
    cases A' with
    | empty m' n' => cases B <;> cases B' <;> first | exact hB.elim | exact Both.err _ _
    | _ => exact hA.elim

end

theorem same_toLowRank [DecidableEq R] {g : GemmT R} {gn : GemmNewT R} (hg : GemmAlike g)
    {o : LrOps R} (ho : o.Local) (hgn : GemmNewAlike gn) {A A' B B' : Mat R}
    (hA : A.Same A') (hB : B.Same B') (bA : A.HasBlocks) (bB : B.HasBlocks) {c c' : LowRank R}
    (hc : c.Same c') (α β : R) (ta tb : Bool) :
    Alike (.lowRank c) (gemmToLowRank o g gn A B c α β ta tb)
      (gemmToLowRank o g gn A' B' c' α β ta tb) := by
  have hC : (Mat.lowRank c).Same (.lowRank c') := hc
  cases A with
  | dense a =>
    cases A' with
    | dense a' =>
      cases B with
      | dense b =>
        cases B' with
        | dense b' =>
          simp only [gemmToLowRank, gemmDDLr]
          refine (Dense.Same.gemmNew hA hB α ta tb).bind (fun ab ab' _ _ hab => ?_)
          have hx : Both LowRank.Same (if c.eps ≠ 0 then o.ofEps ab c.eps else o.ofRank ab c.rank)
              (if c'.eps ≠ 0 then o.ofEps ab' c'.eps else o.ofRank ab' c'.rank) := by
            rw [← hc.eps, ← hc.rank]
            split
            · exact ho.ofEps _ _ _ hab.1
            · exact ho.ofRank _ _ _ hab.1
          exact hx.bind (fun x x' _ _ hx => (ho.addAssign (hc.scale β) hx).map (fun _ _ h => ⟨h, trivial⟩))
        | _ => exact hB.elim
      | lowRank b =>
        cases B' <;> try exact hB.elim
        exact same_gemmDLr ho hC trivial hA hB α β ta tb
      | hier r s B =>
        cases B' with
        | hier r' s' B' =>
          obtain ⟨rfl, rfl, hB⟩ := hB
          have hB' : (Mat.hier r s B).Same (.hier r s B') := ⟨rfl, rfl, hB⟩
          simp only [gemmToLowRank]
          exact (same_split hA (one_le_ite (hasBlocks_opDim bB).1 le_rfl)
            (one_le_ite le_rfl (hasBlocks_opDim bB).1)).bind
            (fun AH AH' _ _ ⟨s1, s2⟩ => hg _ _ _ _ _ _ _ _ _ _ s1 hB' hC s2 bB trivial)
        | _ => exact hB.elim
      | empty =>
        cases B' <;> try exact hB.elim
        exact Both.err _ _
    | _ => exact hA.elim
  | lowRank a =>
    cases A' with
    | lowRank a' =>
      cases B with
      | dense b =>
        cases B' <;> try exact hB.elim
        exact same_gemmLrD ho hC trivial hA hB α β ta tb
      | lowRank b =>
        cases B' <;> try exact hB.elim
        exact same_gemmLrLr ho hC trivial hA hB α β ta tb
      | hier r s B =>
        cases B' with
        | hier r' s' B' =>
          obtain ⟨rfl, rfl, hB⟩ := hB
          have hB' : (Mat.hier r s B).Same (.hier r s B') := ⟨rfl, rfl, hB⟩
          simp only [gemmToLowRank]
          exact (hgn (.dense (if ta then a.U else a.V)) (.dense (if ta then a'.U else a'.V)) _ _ _ _ _
            (hA.U.ite hA.V) hB' trivial bB).bind
              (fun V V' _ _ hV => (same_asDense hV.1).bind (fun v v' _ _ hv =>
                same_scaleAdd ho hC (LowRank.Same.ofFactors (hA.V.transpose.ite hA.U)
                  (hA.S.transpose.ite hA.S) hv) trivial β))
        | _ => exact hB.elim
      | empty =>
        cases B' <;> try exact hB.elim
        exact Both.err _ _
    | _ => exact hA.elim
  | hier p q A =>
    cases A' with
    | hier p' q' A' =>
      obtain ⟨rfl, rfl, hA⟩ := hA
      have hA' : (Mat.hier p q A).Same (.hier p q A') := ⟨rfl, rfl, hA⟩
      cases B with
      | dense b =>
        cases B' with
        | dense b' =>
          simp only [gemmToLowRank]
          exact (same_split hB (one_le_ite le_rfl (hasBlocks_opDim bA).2)
            (one_le_ite (hasBlocks_opDim bA).2 le_rfl)).bind
            (fun BH BH' _ _ ⟨s1, s2⟩ => hg _ _ _ _ _ _ _ _ _ _ hA' s1 hC bA s2 trivial)
        | _ => exact hB.elim
      | lowRank b =>
        cases B' with
        | lowRank b' =>
          simp only [gemmToLowRank]
          exact (hgn _ _ (.dense (if tb then b.V else b.U)) (.dense (if tb then b'.V else b'.U)) _ _ _ hA'
            (hB.V.ite hB.U) bA trivial).bind
              (fun V V' _ _ hV => (same_asDense hV.1).bind (fun v v' _ _ hv =>
                same_scaleAdd ho hC (LowRank.Same.ofFactors hv (hB.S.transpose.ite hB.S)
                  (hB.U.transpose.ite hB.V)) trivial β))
        | _ => exact hB.elim
      | hier r s B =>
        cases B' with
        | hier r' s' B' =>
          have hB0 : (Mat.hier r s B).Same (.hier r' s' B') := hB
          simp only [gemmToLowRank, gemmHHLr]
          rw [← hc.eps, ← hc.rank]
          split
          · refine hc.toDense.bind (fun d d' _ _ hd => ?_)
            refine (hg _ _ _ _ (.dense d) (.dense d') α β ta tb hA' hB0 hd.1 bA bB trivial).bind
              (fun X X' _ _ hX => (same_asDense hX.1).bind (fun x x' _ _ hx =>
                (ho.ofEps _ _ _ hx).map (fun _ _ h => ⟨h, trivial⟩)))
          · refine (hgn _ _ _ _ α ta tb hA' hB0 bA bB).bind (fun X X' _ _ hX => ?_)
            cases X with
            | hier m n blk =>
              cases X' with
              | hier m' n' blk' =>
                refine (ho.ofHier _ _ _ hX.2 hX.1).bind (fun d d' _ _ hd => ?_)
                exact (ho.addAssign (a := { c with S := c.S.scale β })
                  (a' := { c' with rank := c.rank, eps := c.eps, S := c'.S.scale β })
                  ⟨hc.dim0, hc.dim1, rfl, rfl, hc.U, hc.S.scale β, hc.V⟩ hd).map
                  (fun _ _ h => ⟨h, trivial⟩)
              | _ => exact hX.1.elim
            | _ =>
              cases X' <;> first | exact hX.1.elim | exact Both.err _ _
        | _ => exact hB.elim
      | empty m n =>
        cases B' <;> try exact hB.elim
        exact Both.err _ _
    | _ => exact hA.elim
  | empty m n =>
    cases A' with
    | empty m' n' => cases B <;> cases B' <;> first | exact hB.elim | exact Both.err _ _
    | _ => exact hA.elim

omit [CommRing R] in
theorem same_opRows {A A' : Mat R} (h : A.Same A') (hb : A.HasBlocks) (t : Bool) :
    A.opRows t = A'.opRows t ∧ A.opCols t = A'.opCols t := by
  cases t
  · exact h.dims hb
  · exact (h.dims hb).symm

omit [CommRing R] in
theorem same_opAt {t : Bool} {p q : Nat} {A A' : Nat → Nat → Mat R}
    (h : ∀ i < p, ∀ j < q, (A i j).Same (A' i j)) (hb : (Mat.hier p q A).HasBlocks) (i k : Nat) :
    Both (fun x x' => x.Same x' ∧ x.HasBlocks) (opAt t p q A i k) (opAt t p q A' i k) := by
  unfold opAt
  exact Both.assert (fun g1 => Both.assert (fun g2 => Both.ok ⟨same_opBlk h g1 g2, hasBlocks_opBlk hb g1 g2⟩))

theorem same_gemmNewOmm {g : GemmT R} {gn : GemmNewT R} (hg : GemmAlike g) (hgn : GemmNewAlike gn) :
    GemmNewAlike (gemmNewOmm g gn) := by
  intro A A' B B' α ta tb hA hB bA bB
  have gen : Both (fun X X' => X.Same X' ∧ X.HasBlocks)
      (g A B (.dense (Dense.zero (A.opRows ta) (B.opCols tb))) α 0 ta tb)
      (g A' B' (.dense (Dense.zero (A'.opRows ta) (B'.opCols tb))) α 0 ta tb) := by
    rw [← (same_opRows hA bA ta).1, ← (same_opRows hB bB tb).2]
    have hz : (Mat.dense (Dense.zero (A.opRows ta) (B.opCols tb) : Dense R)).HasBlocks := trivial
    exact (hg _ _ _ _ _ _ _ _ _ _ hA hB (Same.refl _) bA bB hz).mono
      (fun X X' h => ⟨h.1, h.2.hasBlocks hz⟩)
  cases A with
  | hier p q A =>
    cases A' with
    | hier p' q' A' =>
      cases B with
      | hier r s B =>
        cases B' with
        | hier r' s' B' =>
          obtain ⟨rfl, rfl, hA0⟩ := id hA
          obtain ⟨rfl, rfl, hB0⟩ := id hB
          simp only [gemmNewOmm, gemmNewHH]
          split
          · exact gen
          · refine (collect2_both (P := fun _ _ x x' => x.Same x' ∧ x.HasBlocks)
              (fun i hi j hj => ?_)).map (fun f f' hf => ⟨⟨rfl, rfl, fun i hi j hj => (hf i hi j hj).1⟩,
                (hasBlocks_opDim bA).1, (hasBlocks_opDim bB).2, fun i hi j hj => (hf i hi j hj).2⟩)
            refine (same_opAt hA0 bA i 0).bind (fun a a' _ _ ha => (same_opAt hB0 bB 0 j).bind
              (fun b b' _ _ hb => (hgn _ _ _ _ _ _ _ ha.1 hb.1 ha.2 hb.2).bind (fun c c' _ _ hc => ?_)))
            refine (same_loop hc.1 hc.2 (fun k hk X X' t1 t2 => ?_)).mono (fun X X' h => ⟨h.1, h.2.hasBlocks hc.2⟩)
            exact (same_opAt hA0 bA i (k + 1)).bind (fun a a' _ _ ha => (same_opAt hB0 bB (k + 1) j).bind
              (fun b b' _ _ hb => hg _ _ _ _ _ _ _ _ _ _ ha.1 hb.1 t1 ha.2 hb.2 t2))
        | _ => exact hB.elim
      | _ => cases B' <;> first | exact hB.elim | exact gen
    | _ => exact hA.elim
  | _ => cases A' <;> first | exact hA.elim | exact gen

/-- Products depend on what their operands store, and on nothing else. -/
theorem gemmBoth_alike [DecidableEq R] {o : LrOps R} (ho : o.Local) (fuel : Nat) :
    GemmAlike (gemmBoth o fuel).1 ∧ GemmNewAlike (gemmBoth o fuel).2 := by
  induction fuel with
  | zero => exact ⟨fun _ _ _ _ _ _ _ _ _ _ _ _ _ _ _ _ => Both.err _ _, fun _ _ _ _ _ _ _ _ _ _ _ => Both.err _ _⟩
  | succ fuel ih =>
    obtain ⟨hg, hgn⟩ := ih
    constructor
    · intro A A' B B' C C' α β ta tb hA hB hC bA bB bC
      simp only [gemmBoth]
      obtain ⟨a1, a2⟩ := same_opRows hA bA ta
      obtain ⟨b1, b2⟩ := same_opRows hB bB tb
      obtain ⟨c1, c2⟩ := hC.dims bC
      refine Both.assert' (by rw [a1, c1]) (fun _ => Both.assert' (by rw [a2, b1]) (fun _ =>
        Both.assert' (by rw [b2, c2]) (fun _ => ?_)))
      cases C with
      | dense c =>
        cases C' <;> try exact hC.elim
        exact same_toDense hg hA hB bA bB hC α β ta tb
      | lowRank c =>
        cases C' <;> try exact hC.elim
        exact same_toLowRank hg ho hgn hA hB bA bB hC α β ta tb
      | hier m n C =>
        cases C' with
        | hier m' n' C' =>
          obtain ⟨rfl, rfl, hC0⟩ := id hC
          exact same_toHier hg ho hgn hA hB bA bB hC bC α β ta tb
        | _ => exact hC.elim
      | empty =>
        cases C' <;> try exact hC.elim
        exact Both.err _ _
    · intro A A' B B' α ta tb hA hB bA bB
      simp only [gemmBoth]
      obtain ⟨a1, a2⟩ := same_opRows hA bA ta
      obtain ⟨b1, b2⟩ := same_opRows hB bB tb
      exact Both.assert' (by rw [a2, b1]) (fun _ => same_gemmNewOmm hg hgn _ _ _ _ _ _ _ hA hB bA bB)

end Mat
end Verif
