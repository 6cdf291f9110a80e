import Verif.Lemmas.QrTiles

/-!
What addition and low-rank compression guarantee of every low-rank block they
return holds for every low-rank block of a matrix updated by `gemm`.
-/

set_option linter.unusedSectionVars false

namespace Verif
open Finset

variable {R : Type} [CommRing R]

namespace Mat

variable {o : LrOps R} {P : LowRank R → Prop}

theorem addAssign_all (hadd : ∀ A B C, o.add A B = .ok C → P C) :
    ∀ (C X C' : Mat R), C.addAssign o X = .ok C' → C'.All P := by
  intro C
  induction C with
  | dense a =>
    intro X C' h
    cases X with
    | dense b =>
      simp only [addAssign, except_bind_eq_ok] at h
      obtain ⟨_, -, h⟩ := h
      cases Except.ok.inj h
      trivial
    | lowRank b =>
      simp only [addAssign, except_bind_eq_ok] at h
      obtain ⟨_, -, h⟩ := h
      cases Except.ok.inj h
      trivial
    | _ => cases h
  | lowRank a =>
    intro X C' h
    cases X with
    | lowRank b =>
      simp only [addAssign, LrOps.addAssign, except_bind_eq_ok] at h
      obtain ⟨l, ⟨-, -, -, -, h1⟩, h2⟩ := h
      cases Except.ok.inj h2
      exact hadd _ _ _ h1
    | _ => cases h
  | empty => intro X C' h; cases X <;> cases h
  | hier br bc blk ih =>
    intro X C' h
    cases X with
    | hier br' bc' blk' =>
      simp only [addAssign, except_bind_eq_ok] at h
      obtain ⟨g, hg, h⟩ := h
      cases Except.ok.inj h
      intro i hi j hj
      have := collect2_ok hg i hi j hj
      simp only [except_bind_eq_ok] at this
      obtain ⟨-, -, -, -, this⟩ := this
      exact ih i j _ _ this
    | lowRank b =>
      simp only [addAssign, except_bind_eq_ok] at h
      obtain ⟨BH, -, h⟩ := h
      cases BH with
      | hier br' bc' blk' =>
        simp only [except_bind_eq_ok] at h
        obtain ⟨g, hg, h⟩ := h
        cases Except.ok.inj h
        intro i hi j hj
        have := collect2_ok hg i hi j hj
        simp only [except_bind_eq_ok] at this
        obtain ⟨-, -, -, -, this⟩ := this
        exact ih i j _ _ this
      | _ => cases h
    | _ => cases h

theorem scaleAdd_all (hadd : ∀ A B C, o.add A B = .ok C → P C) {C C' : Mat R} {β : R} {X : LowRank R}
    (h : scaleAdd o C β X = .ok C') : C'.All P := by
  simp only [scaleAdd, except_bind_eq_ok] at h
  obtain ⟨_, -, h⟩ := h
  exact addAssign_all hadd _ _ _ h

theorem joinDense_all {c : Dense R} {X C' : Mat R} (h : joinDense c X = .ok C') : C'.All P := by
  cases X with
  | hier =>
    simp only [joinDense, except_bind_eq_ok] at h
    obtain ⟨_, -, h⟩ := h
    cases Except.ok.inj h
    trivial
  | _ => cases h

/-- `g` keeps `P` for the low-rank blocks of its target. -/
def Keeps (P : LowRank R → Prop) (g : GemmT R) : Prop :=
  ∀ A B C α β ta tb X, C.All P → g A B C α β ta tb = .ok X → X.All P

theorem loop_keeps {n : Nat} {f : Nat → Mat R → Except Err (Mat R)} {C X : Mat R}
    (hf : ∀ k < n, ∀ a b : Mat R, a.All P → f k a = .ok b → b.All P) (hC : C.All P)
    (h : loop n f C = .ok X) : X.All P :=
  loop_inv (fun _ a => a.All P) hC (fun i hi a b ha hb => hf i hi a b ha hb) h

theorem vecAt_all {m n i : Nat} {C : Nat → Nat → Mat R} {c : Mat R} (hC : (Mat.hier m n C).All P) (h : vecAt m n C i = .ok c) : c.All P := by
  simp only [vecAt, except_bind_eq_ok, assertM_eq_ok, decide_eq_true_eq] at h
  obtain ⟨-, h1, -, h2, h⟩ := h
  cases Except.ok.inj h
  by_cases hm1 : m = 1
  · subst hm1
    simp only [ne_eq, not_true_eq_false, if_false] at h2
    simp only [if_true]
    exact hC 0 (by omega) i h2
  · rw [if_pos hm1] at h2
    rw [if_neg hm1]
    exact hC i h2 0 (by omega)

variable [DecidableEq R]

theorem gemmToDense_keeps {g : GemmT R} (hg : Keeps P g) {A B X : Mat R} {c : Dense R} {α β : R} {ta tb : Bool}
    (h : gemmToDense g A B c α β ta tb = .ok X) : X.All P := by
  have fin : ∀ {x : Except Err (Dense R)}, (do let d ← x; .ok (Mat.dense d)) = .ok X → X.All P := by
    intro x h
    simp only [except_bind_eq_ok] at h
    obtain ⟨_, -, h⟩ := h
    cases Except.ok.inj h
    trivial
  have join : ∀ {x : Except Err (Mat R)} {y : Mat R → Except Err (Mat R)},
      (do let a ← x; let b ← y a; joinDense c b) = .ok X → X.All P := by
    intro x y h
    simp only [except_bind_eq_ok] at h
    obtain ⟨_, -, _, -, h⟩ := h
    exact joinDense_all h
  cases A with
  | empty =>
    cases B with
    | hier r s B =>
      simp only [gemmToDense] at h
      split at h
      · exact hg _ _ _ _ _ _ _ _ (by trivial) h
      · exact join h
    | _ => cases h
  | dense a =>
    cases B with
    | hier r s B =>
      simp only [gemmToDense] at h
      split at h
      · exact hg _ _ _ _ _ _ _ _ (by trivial) h
      · exact join h
    | empty => cases h
    | _ => exact fin h
  | lowRank a =>
    cases B with
    | hier r s B =>
      simp only [gemmToDense] at h
      split at h
      · exact hg _ _ _ _ _ _ _ _ (by trivial) h
      · exact join h
    | empty => cases h
    | _ => exact fin h
  | hier p q A =>
    cases B with
    | hier r s B =>
      simp only [gemmToDense, gemmHHD, except_bind_eq_ok] at h
      obtain ⟨-, -, h⟩ := h
      split at h
      · refine loop_keeps (fun k hk a b ha hb => ?_) (by trivial) h
        simp only [except_bind_eq_ok] at hb
        obtain ⟨_, -, _, -, hb⟩ := hb
        exact hg _ _ _ _ _ _ _ _ ha hb
      · exact join h
    | _ =>
      simp only [gemmToDense] at h
      split at h
      · exact hg _ _ _ _ _ _ _ _ (by trivial) h
      · exact join h

theorem gemmToLowRank_keeps (hadd : ∀ A B C, o.add A B = .ok C → P C)
    (heps : ∀ d e l, o.ofEps d e = .ok l → P l) {g : GemmT R} (hg : Keeps P g) {gn : GemmNewT R}
    {A B X : Mat R} {c : LowRank R} {α β : R} {ta tb : Bool} (hc : P c)
    (h : gemmToLowRank o g gn A B c α β ta tb = .ok X) : X.All P := by
  cases A with
  | empty => cases B <;> cases h
  | dense a =>
    cases B with
    | empty => cases h
    | dense b =>
      simp only [gemmToLowRank, gemmDDLr, except_bind_eq_ok, LrOps.addAssign] at h
      obtain ⟨_, -, x, -, l, ⟨-, -, -, -, h1⟩, h2⟩ := h
      cases Except.ok.inj h2
      exact hadd _ _ _ h1
    | lowRank b =>
      simp only [gemmToLowRank, gemmDLr, except_bind_eq_ok] at h
      obtain ⟨_, -, h⟩ := h
      exact scaleAdd_all hadd h
    | hier =>
      simp only [gemmToLowRank, except_bind_eq_ok] at h
      obtain ⟨_, -, h⟩ := h
      exact hg _ _ (.lowRank c) _ _ _ _ _ hc h
  | lowRank a =>
    cases B with
    | empty => cases h
    | dense b =>
      simp only [gemmToLowRank, gemmLrD, except_bind_eq_ok] at h
      obtain ⟨_, -, h⟩ := h
      exact scaleAdd_all hadd h
    | lowRank b =>
      simp only [gemmToLowRank, gemmLrLr, except_bind_eq_ok] at h
      obtain ⟨_, -, _, -, _, -, h⟩ := h
      exact scaleAdd_all hadd h
    | hier =>
      simp only [gemmToLowRank, except_bind_eq_ok] at h
      obtain ⟨_, -, _, -, h⟩ := h
      exact scaleAdd_all hadd h
  | hier p q A =>
    cases B with
    | empty => cases h
    | dense b =>
      simp only [gemmToLowRank, except_bind_eq_ok] at h
      obtain ⟨_, -, h⟩ := h
      exact hg _ _ (.lowRank c) _ _ _ _ _ hc h
    | lowRank b =>
      simp only [gemmToLowRank, except_bind_eq_ok] at h
      obtain ⟨_, -, _, -, h⟩ := h
      exact scaleAdd_all hadd h
    | hier r s B =>
      simp only [gemmToLowRank, gemmHHLr] at h
      split at h
      · simp only [except_bind_eq_ok] at h
        obtain ⟨_, -, _, -, _, -, l, h1, h⟩ := h
        cases Except.ok.inj h
        exact heps _ _ _ h1
      · simp only [except_bind_eq_ok] at h
        obtain ⟨ab, -, h⟩ := h
        cases ab with
        | hier =>
          simp only [except_bind_eq_ok, LrOps.addAssign] at h
          obtain ⟨_, -, l, ⟨-, -, -, -, h1⟩, h⟩ := h
          cases Except.ok.inj h
          exact hadd _ _ _ h1
        | _ => cases h

theorem gemmRowLoop_keeps {g : GemmT R} (hg : Keeps P g) {A X : Mat R} {r s m n : Nat} {B C : Nat → Nat → Mat R}
    {α β : R} {ta tb : Bool} (hC : (Mat.hier m n C).All P) (h : gemmRowLoop g A r s B m n C α β ta tb = .ok X) :
    X.All P := by
  simp only [gemmRowLoop, except_bind_eq_ok] at h
  obtain ⟨f, hf, h⟩ := h
  cases Except.ok.inj h
  intro i hi j hj
  beta_reduce
  split
  · rename_i hjo
    have := collect_ok hf j hjo
    simp only [except_bind_eq_ok] at this
    obtain ⟨_, -, c, hc, this⟩ := this
    exact hg _ _ _ _ _ _ _ _ (vecAt_all hC hc) this
  · exact hC i hi j hj

theorem gemmColLoop_keeps {g : GemmT R} (hg : Keeps P g) {B X : Mat R} {p q m n : Nat} {A C : Nat → Nat → Mat R}
    {α β : R} {ta tb : Bool} (hC : (Mat.hier m n C).All P) (h : gemmColLoop g p q A B m n C α β ta tb = .ok X) :
    X.All P := by
  simp only [gemmColLoop, except_bind_eq_ok] at h
  obtain ⟨f, hf, h⟩ := h
  cases Except.ok.inj h
  intro i hi j hj
  beta_reduce
  split
  · rename_i hjo
    have := collect_ok hf i hjo
    simp only [except_bind_eq_ok] at this
    obtain ⟨_, -, c, hc, this⟩ := this
    exact hg _ _ _ _ _ _ _ _ (vecAt_all hC hc) this
  · exact hC i hi j hj

theorem gemmToHier_keeps (hadd : ∀ A B C, o.add A B = .ok C → P C) {g : GemmT R} (hg : Keeps P g)
    {gn : GemmNewT R} {A B X : Mat R} {m n : Nat} {C : Nat → Nat → Mat R} {α β : R} {ta tb : Bool}
    (hC : (Mat.hier m n C).All P) (h : gemmToHier o g gn A B m n C α β ta tb = .ok X) : X.All P := by
  cases A with
  | empty => cases B <;> cases h
  | dense a =>
    cases B with
    | empty => cases h
    | dense b =>
      simp only [gemmToHier, gemmDDH] at h
      split at h
      · cases h
      · split at h
        · simp only [except_bind_eq_ok] at h
          obtain ⟨_, -, h⟩ := h
          exact hg _ _ _ _ _ _ _ _ hC h
        · split at h
          · simp only [except_bind_eq_ok] at h
            obtain ⟨_, -, h⟩ := h
            exact hg _ _ _ _ _ _ _ _ hC h
          · simp only [except_bind_eq_ok] at h
            obtain ⟨_, -, _, -, h⟩ := h
            exact hg _ _ _ _ _ _ _ _ hC h
    | lowRank b =>
      simp only [gemmToHier, gemmDLr, except_bind_eq_ok] at h
      obtain ⟨_, -, h⟩ := h
      exact scaleAdd_all hadd h
    | hier =>
      simp only [gemmToHier, gemmDHH, except_bind_eq_ok] at h
      obtain ⟨-, -, h⟩ := h
      split at h
      · exact hg _ _ _ _ _ _ _ _ hC h
      · split at h
        · exact gemmRowLoop_keeps hg hC h
        · simp only [except_bind_eq_ok] at h
          obtain ⟨_, -, h⟩ := h
          exact hg _ _ _ _ _ _ _ _ hC h
  | lowRank a =>
    cases B with
    | empty => cases h
    | dense b =>
      simp only [gemmToHier, gemmLrD, except_bind_eq_ok] at h
      obtain ⟨_, -, h⟩ := h
      exact scaleAdd_all hadd h
    | lowRank b =>
      simp only [gemmToHier, gemmLrLr, except_bind_eq_ok] at h
      obtain ⟨_, -, _, -, _, -, h⟩ := h
      exact scaleAdd_all hadd h
    | hier =>
      simp only [gemmToHier, gemmLrHH, except_bind_eq_ok] at h
      obtain ⟨-, -, h⟩ := h
      split at h
      · exact hg _ _ _ _ _ _ _ _ hC h
      · split at h
        · exact gemmRowLoop_keeps hg hC h
        · simp only [except_bind_eq_ok] at h
          obtain ⟨_, -, _, -, h⟩ := h
          exact scaleAdd_all hadd h
  | hier p q A =>
    cases B with
    | empty => cases h
    | dense b =>
      simp only [gemmToHier, gemmHDH] at h
      split at h
      · exact hg _ _ _ _ _ _ _ _ hC h
      · split at h
        · exact gemmColLoop_keeps hg hC h
        · simp only [except_bind_eq_ok] at h
          obtain ⟨_, -, h⟩ := h
          exact hg _ _ _ _ _ _ _ _ hC h
    | lowRank b =>
      simp only [gemmToHier, gemmHLrH] at h
      split at h
      · exact hg _ _ _ _ _ _ _ _ hC h
      · split at h
        · exact gemmColLoop_keeps hg hC h
        · simp only [except_bind_eq_ok] at h
          obtain ⟨_, -, _, -, h⟩ := h
          exact scaleAdd_all hadd h
    | hier r s B =>
      simp only [gemmToHier, gemmHHH, except_bind_eq_ok] at h
      obtain ⟨-, -, -, -, -, -, f, hf, h⟩ := h
      cases Except.ok.inj h
      intro i hi j hj
      exact loop_keeps (fun k hk a b ha hb => hg _ _ _ _ _ _ _ _ ha hb) (hC i hi j hj) (collect2_ok hf i hi j hj)

/-- If every low-rank matrix returned by addition and by compression to a
tolerance satisfies `P`, then `gemm` keeps `P` for the low-rank blocks of the
matrix it updates. -/
theorem gemm_keeps (hadd : ∀ A B C, o.add A B = .ok C → P C) (heps : ∀ d e l, o.ofEps d e = .ok l → P l)
    (fuel : Nat) : Keeps P (gemm o fuel) := by
  induction fuel with
  | zero => intro A B C α β ta tb X _ h; cases h
  | succ n ih =>
    intro A B C α β ta tb X hC h
    simp only [gemm, gemmBoth, except_bind_eq_ok] at h
    obtain ⟨-, -, -, -, -, -, h⟩ := h
    cases C with
    | dense c => exact gemmToDense_keeps ih h
    | lowRank c => exact gemmToLowRank_keeps hadd heps ih hC h
    | hier m n C => exact gemmToHier_keeps hadd ih hC h
    | empty => cases h

end Mat
end Verif
