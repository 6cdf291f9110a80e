import Verif.Lemmas.SameGemm
import Verif.Model.Tri

/-
Triangular products, triangular solves and LU factorizations of matrices that are stored alike.
-/

namespace Verif
open Finset

variable {R : Type}

namespace Dense

theorem Same.tri [Zero R] [One R] {A A' : Dense R} (h : A.Same A') (uplo : Uplo) (unit : Bool) {i j : Nat}
    (hi : i < A.rows) (hj : j < A.cols) : A.tri uplo unit i j = A'.tri uplo unit i j := by
  simp only [Dense.tri, h.2.2 i hi j hj]

theorem Same.trmm [CommRing R] {A A' B B' : Dense R} (hA : A.Same A') (hB : B.Same B') (side : Side)
    (uplo : Uplo) (tr unit : Bool) (α : R) :
    Both (fun X X' => X.Same X' ∧ X.rows = B.rows ∧ X.cols = B.cols) (Dense.trmm side uplo tr unit α A B)
      (Dense.trmm side uplo tr unit α A' B') := by
  obtain ⟨a1, a2, -⟩ := id hA
  obtain ⟨b1, b2, b3⟩ := id hB
  unfold Dense.trmm
  refine Both.assert' (by rw [a1, a2]) (fun g1 => Both.assert' (by rw [a1, b1, b2]) (fun g2 => Both.ok ?_))
  refine ⟨⟨b1, b2, fun i hi j hj => ?_⟩, rfl, rfl⟩
  change i < B.rows at hi
  change j < B.cols at hj
  have hT : ∀ x < A.rows, ∀ y < A.rows, (if tr then A.tri uplo unit y x else A.tri uplo unit x y) =
      if tr then A'.tri uplo unit y x else A'.tri uplo unit x y := by
    intro x hx y hy
    split
    · exact hA.tri uplo unit hy (g1 ▸ hx)
    · exact hA.tri uplo unit hx (g1 ▸ hy)
  cases side with
  | left =>
    simp only [Side.pick] at g2 ⊢
    rw [← a1]
    congr 1
    refine Finset.sum_congr rfl (fun l hl => ?_)
    have hl : l < A.rows := by simpa using hl
    rw [hT i (by omega) l hl, b3 l (by omega) j hj]
  | right =>
    simp only [Side.pick] at g2 ⊢
    rw [← a1]
    congr 1
    refine Finset.sum_congr rfl (fun l hl => ?_)
    have hl : l < A.rows := by simpa using hl
    rw [hT l hl j (by omega), b3 i hi l (by omega)]

theorem solveOrder_lt {back : Bool} {n t : Nat} (h : t < n) : solveOrder back n t < n := by
  unfold solveOrder
  split <;> omega

theorem subst_alike [Field R] {T T' : Nat → Nat → R} {σ : Nat → Nat} {n : Nat} {b b' : Nat → R}
    (hσ : ∀ t < n, σ t < n) (hT : ∀ x < n, ∀ y < n, T x y = T' x y) (hb : ∀ x < n, b x = b' x) :
    ∀ t ≤ n, ∀ i < n, subst T σ t b i = subst T' σ t b' i := by
  intro t
  induction t with
  | zero => intro _ i hi; exact hb i hi
  | succ t ih =>
    intro ht i hi
    have ih' := ih (by omega)
    have st := hσ t (by omega)
    simp only [subst]
    rw [ih' i hi, ih' _ st, hT _ st _ st]
    congr 3
    refine Finset.sum_congr rfl (fun u hu => ?_)
    have su := hσ u (by have := Finset.mem_range.1 hu; omega)
    rw [hT _ st _ su, ih' _ su]

theorem Same.trsm [Field R] [DecidableEq R] {A A' B B' : Dense R} (hA : A.Same A') (hB : B.Same B')
    (uplo : Uplo) (side : Side) :
    Both (fun X X' => X.Same X' ∧ X.rows = B.rows ∧ X.cols = B.cols) (Dense.trsm uplo side A B)
      (Dense.trsm uplo side A' B') := by
  obtain ⟨a1, a2, -⟩ := id hA
  obtain ⟨b1, b2, b3⟩ := id hB
  unfold Dense.trsm
  simp only
  by_cases h0 : B.rows = 0 ∨ B.cols = 0
  · rw [if_pos h0, if_pos (by rwa [← b1, ← b2])]
    exact Both.ok ⟨hB, rfl, rfl⟩
  have h0' : ¬(B'.rows = 0 ∨ B'.cols = 0) := by rwa [← b1, ← b2]
  rw [if_neg h0, if_neg h0']
  have key : ∀ n, n ≤ A.rows → n ≤ A.cols → ∀ x < n, ∀ y < n,
      A.tri uplo (decide (uplo = .lower)) x y = A'.tri uplo (decide (uplo = .lower)) x y :=
    fun n h1 h2 x hx y hy => hA.tri _ _ (by omega) (by omega)
  have hiff : (side.pick B.rows B.cols ≤ A.rows ∧ side.pick B.rows B.cols ≤ A.cols ∧
      (List.range (side.pick B.rows B.cols)).all (fun i =>
        decide (A.tri uplo (decide (uplo = .lower)) i i ≠ 0)) = true) ↔
      (side.pick B'.rows B'.cols ≤ A'.rows ∧ side.pick B'.rows B'.cols ≤ A'.cols ∧
      (List.range (side.pick B'.rows B'.cols)).all (fun i =>
        decide (A'.tri uplo (decide (uplo = .lower)) i i ≠ 0)) = true) := by
    rw [← a1, ← a2, ← b1, ← b2]
    simp only [List.all_eq_true, List.mem_range, decide_eq_true_eq]
    constructor
    · rintro ⟨h1, h2, h3⟩
      exact ⟨h1, h2, fun i hi => by rw [← key _ h1 h2 i hi i hi]; exact h3 i hi⟩
    · rintro ⟨h1, h2, h3⟩
      exact ⟨h1, h2, fun i hi => by rw [key _ h1 h2 i hi i hi]; exact h3 i hi⟩
  by_cases hc : (side.pick B.rows B.cols ≤ A.rows ∧ side.pick B.rows B.cols ≤ A.cols ∧
      (List.range (side.pick B.rows B.cols)).all (fun i =>
        decide (A.tri uplo (decide (uplo = .lower)) i i ≠ 0)) = true)
  swap
  · rw [if_neg hc, if_neg (fun h => hc (hiff.2 h))]
    exact Both.err _ _
  rw [if_pos hc, if_pos (hiff.1 hc)]
  obtain ⟨h1, h2, -⟩ := hc
  have hT := key _ h1 h2
  refine Both.ok ⟨⟨b1, b2, fun i hi j hj => ?_⟩, rfl, rfl⟩
  change i < B.rows at hi
  change j < B.cols at hj
  cases side with
  | left =>
    simp only [Side.pick] at hT ⊢
    rw [← b1]
    exact subst_alike (fun t ht => solveOrder_lt ht) hT (fun x hx => b3 x hx j hj) _ le_rfl i hi
  | right =>
    simp only [Side.pick] at hT ⊢
    rw [← b2]
    exact subst_alike (fun t ht => solveOrder_lt ht) (fun x hx y hy => hT y hy x hx)
      (fun x hx => b3 i hi x hx) _ le_rfl j hj

end Dense

namespace LowRank

theorem Same.outer {a a' : LowRank R} (h : a.Same a') (side : Side) : (a.outer side).Same (a'.outer side) := by
  cases side
  · exact h.U
  · exact h.V

theorem Same.setOuter {a a' : LowRank R} (h : a.Same a') (side : Side) {X X' : Dense R} (hX : X.Same X') :
    (a.setOuter side X).Same (a'.setOuter side X') := by
  cases side
  · exact ⟨h.dim0, h.dim1, h.rank, h.eps, hX, h.S, h.V⟩
  · exact ⟨h.dim0, h.dim1, h.rank, h.eps, h.U, h.S, hX⟩

end LowRank

namespace Mat

/-- An operation that replaces its second operand and depends on what its operands store, and on
nothing else. -/
def UpdAlike (t : Mat R → Mat R → Except Err (Mat R)) : Prop :=
  ∀ (A A' B B' : Mat R), A.Same A' → B.Same B' → A.HasBlocks → B.HasBlocks →
    Alike B (t A B) (t A' B')

theorem _root_.Verif.Side.pick_pos {side : Side} {a b : Nat} (ha : 1 ≤ a) (hb : 1 ≤ b) : 1 ≤ side.pick a b := by
  cases side <;> assumption

theorem trmm_range {uplo : Uplo} {side : Side} {r s i j u : Nat} (hi : i < r) (hj : j < s)
    (hu : u < trmmCount uplo side (side.pick r s) i j) : trmmIndex uplo side i j u < side.pick r s := by
  cases uplo <;> cases side <;> simp only [trmmCount, trmmIndex, Side.pick] at hu ⊢ <;> omega

section
variable [CommRing R] {g : GemmT R} {t : Mat R → Mat R → Except Err (Mat R)} (hg : GemmAlike g)
  (ht : UpdAlike t)
include hg ht

theorem same_trmmHH (side : Side) (uplo : Uplo) (tr : Bool) (α : R) {p q r s : Nat}
    {A A' B B' : Nat → Nat → Mat R} (hA : ∀ i < p, ∀ j < q, (A i j).Same (A' i j))
    (hB : ∀ i < r, ∀ j < s, (B i j).Same (B' i j)) (bA : (Mat.hier p q A).HasBlocks)
    (bB : (Mat.hier r s B).HasBlocks) :
    Alike (.hier r s B) (trmmHH g t side uplo tr α p q A r s B)
      (trmmHH g t side uplo tr α p q A' r s B') := by
  unfold trmmHH
  refine Both.assert (fun g1 => Both.assert (fun g2 => Both.bind_same _ (fun _ _ => ?_)))
  subst g1
  refine (collect2_both (P := fun i j x x' => KeepsLike (B i j) x x') (fun i hi j hj => ?_)).map
    (fun f f' hf => ⟨⟨rfl, rfl, fun i hi j hj => (hf i hi j hj).1⟩, rfl, rfl, fun i hi j hj => (hf i hi j hj).2⟩)
  have hd : side.pick i j < p := by rw [g2]; cases side <;> assumption
  refine (ht _ _ _ _ (hA _ hd _ hd) (hB i hi j hj) (bA.2.2 _ hd _ hd) (bB.2.2 i hi j hj)).bind
    (fun c c' _ _ hc => ?_)
  refine (same_loop hc.1 (hc.2.hasBlocks (bB.2.2 i hi j hj)) (fun u hu X X' t1 t2 => ?_)).mono
    (fun X X' h => ⟨h.1, hc.2.trans h.2⟩)
  have hk := trmm_range hi hj hu
  cases side with
  | left =>
    simp only [Side.pick] at g2 hk ⊢
    exact hg _ _ _ _ _ _ _ _ _ _ (hA i (by omega) _ (by omega)) (hB _ hk j hj) t1
      (bA.2.2 i (by omega) _ (by omega)) (bB.2.2 _ hk j hj) t2
  | right =>
    simp only [Side.pick] at g2 hk ⊢
    exact hg _ _ _ _ _ _ _ _ _ _ (hB i hi _ hk) (hA _ (by omega) j (by omega)) t1
      (bB.2.2 i hi _ hk) (bA.2.2 _ (by omega) j (by omega)) t2

theorem same_trmmOmm (side : Side) (uplo : Uplo) (tr unit : Bool) (α : R) :
    UpdAlike (trmmOmm g t side uplo tr unit α) := by
  intro A A' B B' hA hB bA bB
  cases A with
  | dense a =>
    cases A' with
    | dense a' =>
      cases B with
      | dense b =>
        cases B' <;> try exact hB.elim
        exact (Dense.Same.trmm hA hB side uplo tr unit α).map (fun _ _ h => ⟨h.1, h.2⟩)
      | lowRank b =>
        cases B' with
        | lowRank b' =>
          simp only [trmmOmm]
          refine Both.assert' (by rw [hA.1, hA.2.1]) (fun _ => Both.assert' (by rw [hA.1, hB.dim0, hB.dim1])
            (fun _ => ?_))
          exact (Dense.Same.trmm hA (hB.outer side) side uplo tr unit α).map
            (fun _ _ h => ⟨hB.setOuter side h.1, by cases side <;> trivial⟩)
        | _ => exact hB.elim
      | hier r s B =>
        cases B' with
        | hier r' s' B' =>
          obtain ⟨rfl, rfl, hB0⟩ := id hB
          simp only [trmmOmm]
          refine Both.assert' (by rw [hA.1, hA.2.1]) (fun _ => Both.assert' (by
            rw [hA.1, (hB.dims bB).1, (hB.dims bB).2]) (fun _ => ?_))
          exact (same_split hA (Side.pick_pos bB.1 bB.2.1) (Side.pick_pos bB.1 bB.2.1)).bind
            (fun AH AH' _ _ ⟨s1, s2⟩ => ht _ _ _ _ s1 hB s2 bB)
        | _ => exact hB.elim
      | empty =>
        cases B' <;> try exact hB.elim
        exact Both.err _ _
    | _ => exact hA.elim
  | hier p q A =>
    cases A' with
    | hier p' q' A' =>
      obtain ⟨rfl, rfl, hA0⟩ := id hA
      cases B with
      | dense b =>
        cases B' with
        | dense b' =>
          simp only [trmmOmm]
          refine Both.assert (fun _ => Both.assert' (by
            rw [(hA.dims bA).1, hB.1, hB.2.1]) (fun _ => ?_))
          exact same_through hB (Side.pick_pos bA.2.1 le_rfl) (Side.pick_pos le_rfl bA.1)
            (fun CH CH' t1 t2 => ht _ _ _ _ hA t1 bA t2)
        | _ => exact hB.elim
      | lowRank b =>
        cases B' with
        | lowRank b' =>
          simp only [trmmOmm]
          refine Both.assert (fun _ => Both.assert' (by
            rw [(hA.dims bA).1, hB.dim0, hB.dim1]) (fun _ => ?_))
          have := same_through (hB.outer side) (Side.pick_pos bA.2.1 le_rfl) (Side.pick_pos le_rfl bA.1)
            (f := t (.hier p q A)) (f' := t (.hier p q A'))
            (nr := side.pick q 1) (nc := side.pick 1 p)
            (fun CH CH' t1 t2 => ht _ _ _ _ hA t1 bA t2)
          have h2 := this.bind (f := fun X => X.asDense >>= fun X => .ok (.lowRank (b.setOuter side X)))
            (g := fun X => X.asDense >>= fun X => .ok (.lowRank (b'.setOuter side X)))
            (Q := KeepsLike (.lowRank b))
            (fun X X' _ _ hX => (same_asDense hX.1).map (fun x x' hx =>
              ⟨hB.setOuter side hx, by cases side <;> trivial⟩))
          simpa only [bind_assoc] using h2
        | _ => exact hB.elim
      | hier r s B =>
        cases B' with
        | hier r' s' B' =>
          obtain ⟨rfl, rfl, hB0⟩ := id hB
          exact same_trmmHH hg ht side uplo tr α hA0 hB0 bA bB
        | _ => exact hB.elim
      | empty =>
        cases B' <;> try exact hB.elim
        exact Both.err _ _
    | _ => exact hA.elim
  | lowRank a =>
    cases A' <;> try exact hA.elim
    cases B <;> cases B' <;> first | exact hB.elim | exact Both.err _ _
  | empty m n =>
    cases A' <;> try exact hA.elim
    cases B <;> cases B' <;> first | exact hB.elim | exact Both.err _ _

omit ht in
theorem same_trmmWith (side : Side) (uplo : Uplo) (tr unit : Bool) (α : R) (fuel : Nat) :
    UpdAlike (trmmWith g side uplo tr unit α fuel) := by
  induction fuel with
  | zero => exact fun _ _ _ _ _ _ _ _ => Both.err _ _
  | succ fuel ih => exact same_trmmOmm hg ih side uplo tr unit α

end

theorem same_blockAt {p q : Nat} {A A' : Nat → Nat → Mat R}
    (h : ∀ i < p, ∀ j < q, (A i j).Same (A' i j)) (hb : ∀ i < p, ∀ j < q, (A i j).HasBlocks) (i j : Nat) :
    Both (fun x x' => x.Same x' ∧ x.HasBlocks ∧ i < p ∧ j < q) (blockAt p q A i j) (blockAt p q A' i j) := by
  unfold blockAt
  exact Both.assert (fun g1 => Both.assert (fun g2 => Both.ok ⟨h i g1 j g2, hb i g1 j g2, g1, g2⟩))

/-- The substitution loops along one block row or block column. -/
theorem same_blockSubst {n : Nat} {gm gm' : Nat → Nat → Mat R → Mat R → Except Err (Mat R)}
    {sv sv' : Nat → Mat R → Except Err (Mat R)} {σ : Nat → Nat} (hσ : ∀ t < n, σ t < n)
    (hgm : ∀ i k X X' Y Y', X.Same X' → X.HasBlocks → Y.Same Y' → Y.HasBlocks →
      Alike Y (gm i k X Y) (gm' i k X' Y'))
    (hsv : ∀ i X X', X.Same X' → X.HasBlocks → Alike X (sv i X) (sv' i X')) {x x' : Nat → Mat R}
    (hx : ∀ i < n, (x i).Same (x' i)) (bx : ∀ i < n, (x i).HasBlocks) :
    Both (fun y y' => ∀ i < n, KeepsLike (x i) (y i) (y' i)) (blockSubst n gm sv σ x)
      (blockSubst n gm' sv' σ x') := by
  unfold blockSubst
  refine loop_loop (P := fun _ (y y' : Nat → Mat R) => ∀ i < n, KeepsLike (x i) (y i) (y' i))
    (fun i hi => ⟨hx i hi, Shape.refl _⟩) ?_
  intro t htn y y' hy
  have st := hσ t htn
  refine (same_loop (n := t) (hy _ st).1 ((hy _ st).2.hasBlocks (bx _ st)) (fun u hu X X' t1 t2 =>
    hgm (σ t) (σ u) _ _ _ _ (hy _ (hσ u (by omega))).1 ((hy _ (hσ u (by omega))).2.hasBlocks
      (bx _ (hσ u (by omega)))) t1 t2)).bind (fun b b' _ _ hb => ?_)
  refine (hsv _ _ _ hb.1 (hb.2.hasBlocks ((hy _ st).2.hasBlocks (bx _ st)))).map (fun c c' hc i hi => ?_)
  by_cases hit : i = σ t
  · subst hit
    simp only [ite_true]
    exact ⟨hc.1, ((hy _ st).2.trans hb.2).trans hc.2⟩
  · simp only [if_neg hit]
    exact hy i hi

section
variable [Field R] [DecidableEq R] {g : GemmT R} {t : Mat R → Mat R → Except Err (Mat R)} (hg : GemmAlike g)
  (ht : UpdAlike t)
include hg ht

omit [DecidableEq R] in
theorem same_trsmHH (uplo : Uplo) (side : Side) {p q r s : Nat}
    {A A' B B' : Nat → Nat → Mat R} (hA : ∀ i < p, ∀ j < q, (A i j).Same (A' i j))
    (hB : ∀ i < r, ∀ j < s, (B i j).Same (B' i j)) (bA : (Mat.hier p q A).HasBlocks)
    (bB : (Mat.hier r s B).HasBlocks) :
    Alike (.hier r s B) (trsmHH g t uplo side p q A r s B) (trsmHH g t uplo side p q A' r s B') := by
  have gmL : ∀ i k X X' Y Y', X.Same X' → X.HasBlocks → Y.Same Y' → Y.HasBlocks →
      Alike Y (blockAt p q A i k >>= fun a => g a X Y (-1) 1 false false)
        (blockAt p q A' i k >>= fun a => g a X' Y' (-1) 1 false false) :=
    fun i k X X' Y Y' h1 h2 h3 h4 => (same_blockAt hA bA.2.2 i k).bind (fun a a' _ _ ha =>
      hg _ _ _ _ _ _ _ _ _ _ ha.1 h1 h3 ha.2.1 h2 h4)
  have gmR : ∀ j k X X' Y Y', X.Same X' → X.HasBlocks → Y.Same Y' → Y.HasBlocks →
      Alike Y (blockAt p q A k j >>= fun a => g X a Y (-1) 1 false false)
        (blockAt p q A' k j >>= fun a => g X' a Y' (-1) 1 false false) :=
    fun j k X X' Y Y' h1 h2 h3 h4 => (same_blockAt hA bA.2.2 k j).bind (fun a a' _ _ ha =>
      hg _ _ _ _ _ _ _ _ _ _ h1 ha.1 h3 h2 ha.2.1 h4)
  have sv : ∀ i X X', X.Same X' → X.HasBlocks → Alike X (blockAt p q A i i >>= fun a => t a X)
      (blockAt p q A' i i >>= fun a => t a X') :=
    fun i X X' h1 h2 => (same_blockAt hA bA.2.2 i i).bind (fun a a' _ _ ha =>
      ht _ _ _ _ ha.1 h1 ha.2.1 h2)
  cases uplo with
  | upper =>
    cases side with
    | left =>
      simp only [trsmHH]
      split
      · rename_i hs
        subst hs
        refine (same_blockSubst (fun t ht => Dense.solveOrder_lt ht) gmL sv (fun i hi => hB i hi 0 (by omega))
          (fun i hi => bB.2.2 i hi 0 (by omega))).map (fun y y' hy => ?_)
        refine ⟨⟨rfl, rfl, fun i hi j hj => (hy i hi).1⟩, rfl, rfl, fun i hi j hj => ?_⟩
        obtain rfl : j = 0 := by omega
        exact (hy i hi).2
      · exact Both.err _ _
    | right =>
      simp only [trsmHH]
      refine (collect_both (P := fun i (y y' : Nat → Mat R) => ∀ j < s, KeepsLike (B i j) (y j) (y' j)) (fun i hi =>
        same_blockSubst (fun t ht => Dense.solveOrder_lt ht) gmR sv (fun j hj => hB i hi j hj)
          (fun j hj => bB.2.2 i hi j hj))).map (fun y y' hy => ?_)
      exact ⟨⟨rfl, rfl, fun i hi j hj => (hy i hi j hj).1⟩, rfl, rfl, fun i hi j hj => (hy i hi j hj).2⟩
  | lower =>
    cases side with
    | left =>
      simp only [trsmHH]
      refine (collect_both (P := fun j (y y' : Nat → Mat R) => ∀ i < r, KeepsLike (B i j) (y i) (y' i)) (fun j hj =>
        same_blockSubst (fun t ht => Dense.solveOrder_lt ht) gmL sv (fun i hi => hB i hi j hj)
          (fun i hi => bB.2.2 i hi j hj))).map (fun y y' hy => ?_)
      exact ⟨⟨rfl, rfl, fun i hi j hj => (hy j hj i hi).1⟩, rfl, rfl, fun i hi j hj => (hy j hj i hi).2⟩
    | right => exact Both.err _ _

theorem same_trsmOmm (uplo : Uplo) (side : Side) : UpdAlike (trsmOmm g t uplo side) := by
  intro A A' B B' hA hB bA bB
  cases B with
  | lowRank b =>
    cases B' with
    | lowRank b' =>
      have key : Alike (.lowRank b)
          (t A (.dense (b.outer side)) >>= fun X => X.asDense >>= fun X => .ok (.lowRank (b.setOuter side X)))
          (t A' (.dense (b'.outer side)) >>= fun X => X.asDense >>= fun X =>
            .ok (.lowRank (b'.setOuter side X))) :=
        (ht A A' (.dense (b.outer side)) (.dense (b'.outer side)) hA (hB.outer side) bA trivial).bind
          (fun X X' _ _ hX => (same_asDense hX.1).map (fun x x' hx =>
            ⟨hB.setOuter side hx, by cases side <;> trivial⟩))
      cases A <;> cases A' <;> first | exact hA.elim | exact key
    | _ => exact hB.elim
  | dense b =>
    cases B' with
    | dense b' =>
      cases A with
      | dense a =>
        cases A' <;> try exact hA.elim
        exact (Dense.Same.trsm hA hB uplo side).map (fun _ _ h => ⟨h.1, h.2⟩)
      | hier p q A =>
        cases A' with
        | hier p' q' A' =>
          obtain ⟨rfl, rfl, hA0⟩ := id hA
          simp only [trsmOmm]
          exact same_through hB (Side.pick_pos bA.1 le_rfl) (Side.pick_pos le_rfl bA.2.1)
            (fun CH CH' t1 t2 => ht _ _ _ _ hA t1 bA t2)
        | _ => exact hA.elim
      | lowRank a =>
        cases A' <;> try exact hA.elim
        exact Both.err _ _
      | empty =>
        cases A' <;> try exact hA.elim
        exact Both.err _ _
    | _ => exact hB.elim
  | hier r s B =>
    cases B' with
    | hier r' s' B' =>
      obtain ⟨rfl, rfl, hB0⟩ := id hB
      cases A with
      | hier p q A =>
        cases A' with
        | hier p' q' A' =>
          obtain ⟨rfl, rfl, hA0⟩ := id hA
          exact same_trsmHH hg ht uplo side hA0 hB0 bA bB
        | _ => exact hA.elim
      | _ => cases A' <;> first | exact hA.elim | exact Both.err _ _
    | _ => exact hB.elim
  | empty =>
    cases B' <;> try exact hB.elim
    cases A <;> cases A' <;> first | exact hA.elim | exact Both.err _ _

omit ht in
theorem same_trsmWith (uplo : Uplo) (side : Side) (fuel : Nat) : UpdAlike (trsmWith g uplo side fuel) := by
  induction fuel with
  | zero => exact fun _ _ _ _ _ _ _ _ => Both.err _ _
  | succ fuel ih => exact same_trsmOmm hg ih uplo side

end

section
variable [Field R] [DecidableEq R] {g : GemmT R} {su sl : Mat R → Mat R → Except Err (Mat R)}
  (hg : GemmAlike g) (hsu : UpdAlike su) (hsl : UpdAlike sl)

/-- Factors that are stored alike, with the same record of interchanges. -/
def LuAlike (x x' : Mat R × Mat R × Bool) : Prop :=
  (x.1.Same x'.1 ∧ x.1.HasBlocks) ∧ (x.2.1.Same x'.2.1 ∧ x.2.1.HasBlocks) ∧ x.2.2 = x'.2.2

include hg hsu hsl

omit [DecidableEq R] in
theorem same_getrfStep {f f' : Mat R → Except Err (Mat R × Mat R × Bool)}
    (hf : ∀ A A', A.Same A' → A.HasBlocks → Both LuAlike (f A) (f' A')) {p q i : Nat} (hi : i < p)
    {st st' : LuState R} (h1 : ∀ a < p, ∀ b < q, (st.1 a b).Same (st'.1 a b) ∧ (st.1 a b).HasBlocks)
    (h2 : ∀ a < p, ∀ b < q, (st.2.1 a b).Same (st'.2.1 a b) ∧ (st.2.1 a b).HasBlocks)
    (h3 : st.2.2 = st'.2.2) :
    Both (fun s s' => (∀ a < p, ∀ b < q, (s.1 a b).Same (s'.1 a b) ∧ (s.1 a b).HasBlocks) ∧
      (∀ a < p, ∀ b < q, (s.2.1 a b).Same (s'.2.1 a b) ∧ (s.2.1 a b).HasBlocks) ∧ s.2.2 = s'.2.2)
      (getrfStep g f su sl p q i st) (getrfStep g f' su sl p q i st') := by
  unfold getrfStep
  refine (same_blockAt (fun a ha b hb => (h2 a ha b hb).1) (fun a ha b hb => (h2 a ha b hb).2) i i).bind
    (fun d d' _ _ ⟨d1, d2, _, hiq⟩ => ?_)
  refine (hf d d' d1 d2).bind (fun x x' _ _ ⟨⟨x1, x2⟩, ⟨x3, x4⟩, x5⟩ => ?_)
  refine (collect_both (P := fun _ y y' => y.Same y' ∧ y.HasBlocks) (fun a ha =>
    (hsu _ _ _ _ x3 (h2 (i + 1 + a) (by omega) i hiq).1 x4 (h2 (i + 1 + a) (by omega) i hiq).2).mono
      (fun y y' hy => ⟨hy.1, hy.2.hasBlocks (h2 (i + 1 + a) (by omega) i hiq).2⟩))).bind
    (fun lc lc' _ _ hlc => ?_)
  refine (collect_both (P := fun _ y y' => y.Same y' ∧ y.HasBlocks) (fun b hb =>
    (hsl _ _ _ _ x1 (h2 i hi (i + 1 + b) (by omega)).1 x2 (h2 i hi (i + 1 + b) (by omega)).2).mono
      (fun y y' hy => ⟨hy.1, hy.2.hasBlocks (h2 i hi (i + 1 + b) (by omega)).2⟩))).bind
    (fun ur ur' _ _ hur => ?_)
  refine (collect2_both (P := fun _ _ y y' => y.Same y' ∧ y.HasBlocks) (fun a ha b hb =>
    (hg _ _ _ _ _ _ _ _ _ _ (hlc a ha).1 (hur b hb).1 (h2 (i + 1 + a) (by omega) (i + 1 + b) (by omega)).1
      (hlc a ha).2 (hur b hb).2 (h2 (i + 1 + a) (by omega) (i + 1 + b) (by omega)).2).mono
      (fun y y' hy => ⟨hy.1, hy.2.hasBlocks
        (h2 (i + 1 + a) (by omega) (i + 1 + b) (by omega)).2⟩))).bind (fun up up' _ _ hup => Both.ok ?_)
  refine ⟨fun a ha b hb => ?_, fun a ha b hb => ?_, by rw [h3, x5]⟩
  · have hd := (h2 a ha b hb).1.dims (h2 a ha b hb).2
    simp only
    split
    · exact ⟨x1, x2⟩
    split
    · exact hlc _ (by omega)
    split
    · exact ⟨⟨hd.1, hd.2⟩, trivial⟩
    · exact h1 a ha b hb
  · have hd := (h2 a ha b hb).1.dims (h2 a ha b hb).2
    simp only
    split
    · exact ⟨x3, x4⟩
    split
    · exact ⟨⟨hd.1, hd.2⟩, trivial⟩
    split
    · exact hur _ (by omega)
    split
    · exact hup _ (by omega) _ (by omega)
    · exact h2 a ha b hb

omit [DecidableEq R] in
theorem same_getrfWith {lu : Dense R → Dense R × Bool} (hlu : LuLocal lu) (fuel : Nat)
    {A A' : Mat R} (hA : A.Same A') (bA : A.HasBlocks) :
    Both LuAlike (getrfWith lu g su sl fuel A) (getrfWith lu g su sl fuel A') := by
  induction fuel generalizing A A' with
  | zero => exact Both.err _ _
  | succ fuel ih =>
    cases A with
    | dense a =>
      cases A' with
      | dense a' =>
        simp only [getrfWith, getrfDense]
        refine Both.assert' (by rw [hA.1, hA.2.1]) (fun g1 => ?_)
        have hl := hlu a a' hA g1
        refine Both.ok ⟨⟨⟨hA.1, hA.2.1, fun i hi j hj => ?_⟩, trivial⟩,
          ⟨⟨hA.1, hA.2.1, fun i hi j hj => ?_⟩, trivial⟩, hl.2⟩
        · simp only [hl.1 i hi j hj]
        · simp only [hl.1 i hi j hj]
      | _ => exact hA.elim
    | hier p q A =>
      cases A' with
      | hier p' q' A' =>
        obtain ⟨rfl, rfl, hA⟩ := hA
        simp only [getrfWith]
        refine (loop_loop (P := fun _ (s s' : LuState R) =>
          (∀ a < p, ∀ b < q, (s.1 a b).Same (s'.1 a b) ∧ (s.1 a b).HasBlocks) ∧
          (∀ a < p, ∀ b < q, (s.2.1 a b).Same (s'.2.1 a b) ∧ (s.2.1 a b).HasBlocks) ∧ s.2.2 = s'.2.2)
          (s := (fun _ _ => Mat.empty 0 0, A, false)) (t := (fun _ _ => Mat.empty 0 0, A', false))
          ⟨fun a _ b _ => ⟨⟨rfl, rfl⟩, trivial⟩, fun a ha b hb => ⟨hA a ha b hb, bA.2.2 a ha b hb⟩, rfl⟩
          (fun i hi s s' hs => same_getrfStep hg hsu hsl (fun A A' h1 h2 => ih h1 h2) hi hs.1 hs.2.1 hs.2.2)).map
          (fun s s' hs => ?_)
        exact ⟨⟨⟨rfl, rfl, fun a ha b hb => (hs.1 a ha b hb).1⟩, bA.1, bA.2.1, fun a ha b hb => (hs.1 a ha b hb).2⟩,
          ⟨⟨rfl, rfl, fun a ha b hb => (hs.2.1 a ha b hb).1⟩, bA.1, bA.2.1, fun a ha b hb => (hs.2.1 a ha b hb).2⟩,
          hs.2.2⟩
      | _ => exact hA.elim
    | lowRank a =>
      cases A' <;> try exact hA.elim
      exact Both.err _ _
    | empty =>
      cases A' <;> try exact hA.elim
      exact Both.err _ _

end
end Mat
end Verif
