import Verif.Model.Tri
import Verif.Lemmas.Basic

set_option linter.unusedSectionVars false
set_option linter.unusedVariables false

/-
Computations that return whenever another one returns, with the same result.
Used to compare runs with different low-rank operations and different budgets
for the depth of the recursion.
-/

namespace Verif
open Finset

/-- Wherever `x` returns, `y` returns the same. -/
def Leq {α : Type _} (x y : Except Err α) : Prop := ∀ r, x = .ok r → y = .ok r

theorem Leq.refl {α : Type _} (x : Except Err α) : Leq x x := fun _ h => h

theorem Leq.bind {α β : Type _} {x y : Except Err α} {f g : α → Except Err β} (h : Leq x y)
    (hf : ∀ a, Leq (f a) (g a)) : Leq (x >>= f) (y >>= g) := by
  intro r hr
  simp only [except_bind_eq_ok] at hr ⊢
  obtain ⟨a, ha, hr⟩ := hr
  exact ⟨a, h a ha, hf a r hr⟩

theorem Leq.err {α : Type _} (e : Err) (y : Except Err α) : Leq (.error e) y :=
  fun _ h => (nomatch h)

theorem Leq.ite {α : Type _} {p : Prop} [Decidable p] {x y x' y' : Except Err α} (h1 : Leq x x')
    (h2 : Leq y y') : Leq (if p then x else y) (if p then x' else y') := by
  split
  · exact h1
  · exact h2

theorem Leq.loop {σ : Type _} {f g : Nat → σ → Except Err σ} (h : ∀ k s, Leq (f k s) (g k s)) (n : Nat)
    (s : σ) : Leq (Verif.loop n f s) (Verif.loop n g s) := by
  induction n with
  | zero => exact Leq.refl _
  | succ n ih => exact ih.bind (fun s => h n s)

theorem Leq.collect {α : Type _} [Inhabited α] {f g : Nat → Except Err α} (h : ∀ k, Leq (f k) (g k))
    (n : Nat) : Leq (Verif.collect n f) (Verif.collect n g) := by
  induction n with
  | zero => exact Leq.refl _
  | succ n ih => exact ih.bind (fun _ => (h n).bind (fun _ => Leq.refl _))

theorem Leq.collect2 {α : Type _} [Inhabited α] {f g : Nat → Nat → Except Err α}
    (h : ∀ k l, Leq (f k l) (g k l)) (m n : Nat) :
    Leq (Verif.collect2 m n f) (Verif.collect2 m n g) :=
  Leq.collect (fun k => Leq.collect (h k) n) m

/-- Low-rank operations that return whenever others return, with the same
result. -/
structure LrOps.Leq {R : Type} (o o' : LrOps R) : Prop where
  add : ∀ A B, Verif.Leq (o.add A B) (o'.add A B)
  ofRank : ∀ D r, Verif.Leq (o.ofRank D r) (o'.ofRank D r)
  ofEps : ∀ D e, Verif.Leq (o.ofEps D e) (o'.ofEps D e)
  ofHier : ∀ M r, Verif.Leq (o.ofHier M r) (o'.ofHier M r)

theorem LrOps.Leq.refl {R : Type} (o : LrOps R) : o.Leq o :=
  ⟨fun _ _ => Verif.Leq.refl _, fun _ _ => Verif.Leq.refl _, fun _ _ => Verif.Leq.refl _,
    fun _ _ => Verif.Leq.refl _⟩

namespace Mat
variable {R : Type}

/-- Comparison of two `gemm`. -/
def GLeq (g g' : GemmT R) : Prop := ∀ A B C α β ta tb, Leq (g A B C α β ta tb) (g' A B C α β ta tb)

/-- Comparison of two `gemm` that return new matrices. -/
def NLeq (g g' : GemmNewT R) : Prop := ∀ A B α ta tb, Leq (g A B α ta tb) (g' A B α ta tb)

section
variable [CommRing R] {o o' : LrOps R} (ho : o.Leq o') {g g' : GemmT R} (hg : GLeq g g')
  {gn gn' : GemmNewT R} (hn : NLeq gn gn')
include ho

theorem lrAddAssign_leq (A B : LowRank R) : Leq (o.addAssign A B) (o'.addAssign A B) :=
  (Leq.refl _).bind (fun _ => (Leq.refl _).bind (fun _ => ho.add A B))

theorem addAssign_leq (A B : Mat R) : Leq (A.addAssign o B) (A.addAssign o' B) := by
  induction A generalizing B with
  | dense a => cases B <;> exact Leq.refl _
  | lowRank a =>
    cases B <;> first
      | exact Leq.refl _
      | exact (lrAddAssign_leq ho a _).bind (fun _ => Leq.refl _)
  | empty => cases B <;> exact Leq.refl _
  | hier p q A ih =>
    cases B with
    | dense => exact Leq.refl _
    | empty => exact Leq.refl _
    | hier r s B =>
      simp only [addAssign]
      exact (Leq.collect2 (fun i j => (Leq.refl _).bind (fun _ => (Leq.refl _).bind
        (fun _ => ih i j _))) p q).bind (fun _ => Leq.refl _)
    | lowRank b =>
      simp only [addAssign]
      refine (Leq.refl _).bind (fun BH => ?_)
      cases BH <;> first
        | exact Leq.refl _
        | exact (Leq.collect2 (fun i j => (Leq.refl _).bind (fun _ => (Leq.refl _).bind
            (fun _ => ih i j _))) p q).bind (fun _ => Leq.refl _)

theorem scaleAdd_leq (C : Mat R) (β : R) (X : LowRank R) : Leq (scaleAdd o C β X) (scaleAdd o' C β X) :=
  (Leq.refl _).bind (fun _ => addAssign_leq ho _ _)

theorem gemmLrD_leq (a : LowRank R) (b : Dense R) (C : Mat R) (α β : R) (ta tb : Bool) :
    Leq (gemmLrD o a b C α β ta tb) (gemmLrD o' a b C α β ta tb) :=
  (Leq.refl _).bind (fun _ => scaleAdd_leq ho _ _ _)

theorem gemmDLr_leq (a : Dense R) (b : LowRank R) (C : Mat R) (α β : R) (ta tb : Bool) :
    Leq (gemmDLr o a b C α β ta tb) (gemmDLr o' a b C α β ta tb) :=
  (Leq.refl _).bind (fun _ => scaleAdd_leq ho _ _ _)

theorem gemmLrLr_leq (a b : LowRank R) (C : Mat R) (α β : R) (ta tb : Bool) :
    Leq (gemmLrLr o a b C α β ta tb) (gemmLrLr o' a b C α β ta tb) :=
  (Leq.refl _).bind (fun _ => (Leq.refl _).bind (fun _ => (Leq.refl _).bind
    (fun _ => scaleAdd_leq ho _ _ _)))

theorem gemmDDLr_leq [DecidableEq R] (a b : Dense R) (c : LowRank R) (α β : R) (ta tb : Bool) :
    Leq (gemmDDLr o a b c α β ta tb) (gemmDDLr o' a b c α β ta tb) :=
  (Leq.refl _).bind (fun _ => (Leq.ite (ho.ofEps _ _) (ho.ofRank _ _)).bind
    (fun _ => (lrAddAssign_leq ho _ _).bind (fun _ => Leq.refl _)))

include hg in
omit ho in
theorem gemmHHD_leq (p q : Nat) (A : Nat → Nat → Mat R) (r s : Nat) (B : Nat → Nat → Mat R)
    (c : Dense R) (α β : R) (ta tb : Bool) :
    Leq (gemmHHD g p q A r s B c α β ta tb) (gemmHHD g' p q A r s B c α β ta tb) :=
  (Leq.refl _).bind (fun _ => Leq.ite
    (Leq.loop (fun _ _ => (Leq.refl _).bind (fun _ => (Leq.refl _).bind (fun _ => hg _ _ _ _ _ _ _))) _ _)
    ((Leq.refl _).bind (fun _ => (hg _ _ _ _ _ _ _).bind (fun _ => Leq.refl _))))

include hg in
omit ho in
theorem gemmToDense_leq (A B : Mat R) (c : Dense R) (α β : R) (ta tb : Bool) :
    Leq (gemmToDense g A B c α β ta tb) (gemmToDense g' A B c α β ta tb) := by
  cases A <;> cases B <;> simp only [gemmToDense] <;> first
    | exact Leq.refl _
    | exact gemmHHD_leq hg _ _ _ _ _ _ _ _ _ _ _
    | exact Leq.ite (hg _ _ _ _ _ _ _) ((Leq.refl _).bind (fun _ => (hg _ _ _ _ _ _ _).bind
        (fun _ => Leq.refl _)))

include hg hn

theorem gemmHHLr_leq [DecidableEq R] (A B : Mat R) (c : LowRank R) (α β : R) (ta tb : Bool) :
    Leq (gemmHHLr o g gn A B c α β ta tb) (gemmHHLr o' g' gn' A B c α β ta tb) := by
  refine Leq.ite ((Leq.refl _).bind (fun _ => (hg _ _ _ _ _ _ _).bind (fun _ => (Leq.refl _).bind
    (fun _ => (ho.ofEps _ _).bind (fun _ => Leq.refl _)))))
    ((hn _ _ _ _ _).bind (fun ab => ?_))
  cases ab <;> first
    | exact Leq.refl _
    | exact (ho.ofHier _ _).bind (fun _ => (lrAddAssign_leq ho _ _).bind (fun _ => Leq.refl _))

theorem gemmToLowRank_leq [DecidableEq R] (A B : Mat R) (c : LowRank R) (α β : R) (ta tb : Bool) :
    Leq (gemmToLowRank o g gn A B c α β ta tb) (gemmToLowRank o' g' gn' A B c α β ta tb) := by
  cases A <;> cases B <;> simp only [gemmToLowRank] <;> first
    | exact Leq.refl _
    | exact gemmDDLr_leq ho _ _ _ _ _ _ _
    | exact gemmLrD_leq ho _ _ _ _ _ _ _
    | exact gemmDLr_leq ho _ _ _ _ _ _ _
    | exact gemmLrLr_leq ho _ _ _ _ _ _ _
    | exact gemmHHLr_leq ho hg hn _ _ _ _ _ _ _
    | exact (hn _ _ _ _ _).bind (fun _ => (Leq.refl _).bind (fun _ => scaleAdd_leq ho _ _ _))
    | exact (Leq.refl _).bind (fun _ => hg _ _ _ _ _ _ _)

theorem gemmToHier_leq (A B : Mat R) (m n : Nat) (C : Nat → Nat → Mat R) (α β : R) (ta tb : Bool) :
    Leq (gemmToHier o g gn A B m n C α β ta tb) (gemmToHier o' g' gn' A B m n C α β ta tb) := by
  have row : ∀ A r s B m n C α β ta tb, Leq (gemmRowLoop g A r s B m n C α β ta tb)
      (gemmRowLoop g' A r s B m n C α β ta tb) := fun A r s B m n C α β ta tb =>
    (Leq.collect (fun _ => (Leq.refl _).bind (fun _ => (Leq.refl _).bind
      (fun _ => hg _ _ _ _ _ _ _))) _).bind (fun _ => Leq.refl _)
  have col : ∀ p q A B m n C α β ta tb, Leq (gemmColLoop g p q A B m n C α β ta tb)
      (gemmColLoop g' p q A B m n C α β ta tb) := fun p q A B m n C α β ta tb =>
    (Leq.collect (fun _ => (Leq.refl _).bind (fun _ => (Leq.refl _).bind
      (fun _ => hg _ _ _ _ _ _ _))) _).bind (fun _ => Leq.refl _)
  cases A <;> cases B <;> simp only [gemmToHier] <;> first
    | exact Leq.refl _
    | exact gemmLrD_leq ho _ _ _ _ _ _ _
    | exact gemmDLr_leq ho _ _ _ _ _ _ _
    | exact gemmLrLr_leq ho _ _ _ _ _ _ _
    | exact Leq.ite (Leq.refl _) (Leq.ite ((Leq.refl _).bind (fun _ => hg _ _ _ _ _ _ _))
        (Leq.ite ((Leq.refl _).bind (fun _ => hg _ _ _ _ _ _ _))
          ((Leq.refl _).bind (fun _ => (Leq.refl _).bind (fun _ => hg _ _ _ _ _ _ _)))))
    | exact Leq.ite (hg _ _ _ _ _ _ _) (Leq.ite (col _ _ _ _ _ _ _ _ _ _ _)
        ((Leq.refl _).bind (fun _ => hg _ _ _ _ _ _ _)))
    | exact Leq.ite (hg _ _ _ _ _ _ _) (Leq.ite (col _ _ _ _ _ _ _ _ _ _ _)
        ((hn _ _ _ _ _).bind (fun _ => (Leq.refl _).bind (fun _ => scaleAdd_leq ho _ _ _))))
    | exact (Leq.refl _).bind (fun _ => Leq.ite (hg _ _ _ _ _ _ _) (Leq.ite (row _ _ _ _ _ _ _ _ _ _ _)
        ((Leq.refl _).bind (fun _ => hg _ _ _ _ _ _ _))))
    | exact (Leq.refl _).bind (fun _ => Leq.ite (hg _ _ _ _ _ _ _) (Leq.ite (row _ _ _ _ _ _ _ _ _ _ _)
        ((hn _ _ _ _ _).bind (fun _ => (Leq.refl _).bind (fun _ => scaleAdd_leq ho _ _ _)))))
    | exact (Leq.refl _).bind (fun _ => (Leq.refl _).bind (fun _ => (Leq.refl _).bind (fun _ =>
        (Leq.collect2 (fun _ _ => Leq.loop (fun _ _ => hg _ _ _ _ _ _ _) _ _) _ _).bind
          (fun _ => Leq.refl _))))

theorem gemmOmm_leq [DecidableEq R] : GLeq (gemmOmm o g gn) (gemmOmm o' g' gn') := by
  intro A B C α β ta tb
  cases C
  · exact gemmToDense_leq hg _ _ _ _ _ _ _
  · exact gemmToLowRank_leq ho hg hn _ _ _ _ _ _ _
  · exact gemmToHier_leq ho hg hn _ _ _ _ _ _ _ _ _
  · exact Leq.refl _

omit ho in
theorem gemmNewOmm_leq : NLeq (gemmNewOmm g gn) (gemmNewOmm g' gn') := by
  intro A B α ta tb
  cases A <;> cases B <;> simp only [gemmNewOmm] <;> first
    | exact hg _ _ _ _ _ _ _
    | exact Leq.ite (hg _ _ _ _ _ _ _) ((Leq.collect2 (fun _ _ => (Leq.refl _).bind (fun _ =>
        (Leq.refl _).bind (fun _ => (hn _ _ _ _ _).bind (fun _ => Leq.loop (fun _ _ =>
          (Leq.refl _).bind (fun _ => (Leq.refl _).bind (fun _ => hg _ _ _ _ _ _ _))) _ _)))) _ _).bind
            (fun _ => Leq.refl _))

end

/-- A product with more defined low-rank operations and a larger budget. -/
theorem gemmBoth_leq [CommRing R] [DecidableEq R] {o o' : LrOps R} (ho : o.Leq o') :
    ∀ {fuel fuel' : Nat}, fuel ≤ fuel' → GLeq (gemmBoth o fuel).1 (gemmBoth o' fuel').1 ∧
      NLeq (gemmBoth o fuel).2 (gemmBoth o' fuel').2
  | 0, _, _ => ⟨fun _ _ _ _ _ _ _ => Leq.err _ _, fun _ _ _ _ _ => Leq.err _ _⟩
  | fuel + 1, fuel' + 1, h => by
    obtain ⟨i1, i2⟩ := gemmBoth_leq ho (fuel := fuel) (fuel' := fuel') (by omega)
    exact ⟨fun A B C α β ta tb => (Leq.refl _).bind (fun _ => (Leq.refl _).bind (fun _ =>
      (Leq.refl _).bind (fun _ => gemmOmm_leq ho i1 i2 A B C α β ta tb))),
      fun A B α ta tb => (Leq.refl _).bind (fun _ => gemmNewOmm_leq i1 i2 A B α ta tb)⟩

section
variable [Field R] [DecidableEq R]

theorem blockSubst_leq {n : Nat} {gm gm' : Nat → Nat → Mat R → Mat R → Except Err (Mat R)}
    {sv sv' : Nat → Mat R → Except Err (Mat R)} (h1 : ∀ i k x y, Leq (gm i k x y) (gm' i k x y))
    (h2 : ∀ i x, Leq (sv i x) (sv' i x)) (σ : Nat → Nat) (b : Nat → Mat R) :
    Leq (blockSubst n gm sv σ b) (blockSubst n gm' sv' σ b) := by
  unfold blockSubst
  exact Leq.loop (fun k s => (Leq.loop (fun _ _ => h1 _ _ _ _) _ _).bind (fun _ => (h2 _ _).bind
    (fun _ => Leq.refl _))) _ _

theorem trsmHH_leq {g g' : GemmT R} (hg : GLeq g g') {t t' : Mat R → Mat R → Except Err (Mat R)}
    (ht : ∀ A B, Leq (t A B) (t' A B)) (uplo : Uplo) (side : Side) (p q : Nat) (A : Nat → Nat → Mat R)
    (r s : Nat) (B : Nat → Nat → Mat R) :
    Leq (trsmHH g t uplo side p q A r s B) (trsmHH g' t' uplo side p q A r s B) := by
  have b1 : ∀ n σ b, Leq (blockSubst n (fun i k xk xi => do
      let a ← blockAt p q A i k
      g a xk xi (-1) 1 false false) (fun i x => do
      let a ← blockAt p q A i i
      t a x) σ b) (blockSubst n (fun i k xk xi => do
      let a ← blockAt p q A i k
      g' a xk xi (-1) 1 false false) (fun i x => do
      let a ← blockAt p q A i i
      t' a x) σ b) := fun n σ b => blockSubst_leq
    (fun _ _ _ _ => (Leq.refl _).bind (fun _ => hg _ _ _ _ _ _ _))
    (fun _ _ => (Leq.refl _).bind (fun _ => ht _ _)) σ b
  have b2 : ∀ n σ b, Leq (blockSubst n (fun j k xk xj => do
      let a ← blockAt p q A k j
      g xk a xj (-1) 1 false false) (fun i x => do
      let a ← blockAt p q A i i
      t a x) σ b) (blockSubst n (fun j k xk xj => do
      let a ← blockAt p q A k j
      g' xk a xj (-1) 1 false false) (fun i x => do
      let a ← blockAt p q A i i
      t' a x) σ b) := fun n σ b => blockSubst_leq
    (fun _ _ _ _ => (Leq.refl _).bind (fun _ => hg _ _ _ _ _ _ _))
    (fun _ _ => (Leq.refl _).bind (fun _ => ht _ _)) σ b
  cases uplo <;> cases side
  · exact Leq.ite ((b1 _ _ _).bind (fun _ => Leq.refl _)) (Leq.refl _)
  · exact (Leq.collect (fun _ => b2 _ _ _) _).bind (fun _ => Leq.refl _)
  · exact (Leq.collect (fun _ => b1 _ _ _) _).bind (fun _ => Leq.refl _)
  · exact Leq.err _ _

theorem trsmWith_leq {g g' : GemmT R} (hg : GLeq g g') (uplo : Uplo) (side : Side) :
    ∀ {fuel fuel' : Nat}, fuel ≤ fuel' → ∀ A B,
      Leq (trsmWith g uplo side fuel A B) (trsmWith g' uplo side fuel' A B)
  | 0, _, _ => fun _ _ => Leq.err _ _
  | fuel + 1, fuel' + 1, h => fun A B => by
    have ih := trsmWith_leq hg uplo side (fuel := fuel) (fuel' := fuel') (by omega)
    simp only [trsmWith]
    cases A <;> cases B <;> simp only [trsmOmm] <;> first
      | exact Leq.refl _
      | exact trsmHH_leq hg ih _ _ _ _ _ _ _ _
      | exact (ih _ _).bind (fun _ => Leq.refl _)
      | exact (Leq.refl _).bind (fun _ => (ih _ _).bind (fun _ => Leq.refl _))

theorem trsm_leq {o o' : LrOps R} (ho : o.Leq o') {fuel fuel' : Nat} (h : fuel ≤ fuel') (A B : Mat R)
    (uplo : Uplo) (side : Side) : Leq (trsm o fuel A B uplo side) (trsm o' fuel' A B uplo side) :=
  trsmWith_leq (gemmBoth_leq ho h).1 uplo side h A B

theorem getrfWith_leq (lu : Dense R → Dense R × Bool) {g g' : GemmT R} (hg : GLeq g g')
    {su sl su' sl' : Mat R → Mat R → Except Err (Mat R)} (hu : ∀ A B, Leq (su A B) (su' A B))
    (hl : ∀ A B, Leq (sl A B) (sl' A B)) : ∀ {fuel fuel' : Nat}, fuel ≤ fuel' → ∀ A,
      Leq (getrfWith lu g su sl fuel A) (getrfWith lu g' su' sl' fuel' A)
  | 0, _, _ => fun _ => Leq.err _ _
  | fuel + 1, fuel' + 1, h => fun A => by
    have ih := getrfWith_leq lu hg hu hl (fuel := fuel) (fuel' := fuel') (by omega)
    cases A <;> simp only [getrfWith] <;> first
      | exact Leq.refl _
      | exact (Leq.loop (fun _ _ => (Leq.refl _).bind (fun _ => (ih _).bind (fun _ =>
          (Leq.collect (fun _ => hu _ _) _).bind (fun _ => (Leq.collect (fun _ => hl _ _) _).bind (fun _ =>
            (Leq.collect2 (fun _ _ => hg _ _ _ _ _ _ _) _ _).bind (fun _ => Leq.refl _)))))) _ _).bind
              (fun _ => Leq.refl _)

theorem getrf_leq (lu : Dense R → Dense R × Bool) {o o' : LrOps R} (ho : o.Leq o') {fuel fuel' : Nat}
    (h : fuel ≤ fuel') (A : Mat R) : Leq (getrf lu o fuel A) (getrf lu o' fuel' A) :=
  getrfWith_leq lu (gemmBoth_leq ho h).1 (fun _ _ => trsm_leq ho h _ _ _ _)
    (fun _ _ => trsm_leq ho h _ _ _ _) h A

end
end Mat
end Verif
