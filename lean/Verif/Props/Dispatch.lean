import Verif.Spec.Dispatch
import Verif.Lemmas.Dispatch
import Verif.Lemmas.MatOps
import Verif.Model.Export
import Verif.Model.Qr
import Verif.Props.Gemm

/-
C46: operand combinations without an implementation.
-/

namespace Verif
open Finset

variable {R : Type}

/-! ### the method tables -/

theorem handled_iff (tbl : List Method) (ks : List Kind) :
    Handled tbl ks ↔ (match resolve tbl ks with
      | .run m => m.any (fun p => p ≠ .any)
      | _ => false) = true := by
  unfold Handled
  cases h : resolve tbl ks with
  | run m => simp
  | none => simp
  | ambiguous => simp

instance (tbl : List Method) (ks : List Kind) : Decidable (Handled tbl ks) :=
  decidable_of_iff _ (handled_iff tbl ks).symm

theorem Param.accepts_iff (p : Param) (k : Kind) : p.accepts k = true ↔ p.Matches k := by
  cases p <;> simp [Param.accepts, Param.Matches]

theorem Param.le_iff (p q : Param) : p.le q = true ↔ p.Below q := by
  cases p <;> cases q <;> simp [Param.le, Param.Below]

theorem Method.accepts_iff (m : Method) (ks : List Kind) :
    m.accepts ks = true ↔ List.Forall₂ Param.Matches m ks := by
  induction m generalizing ks with
  | nil => cases ks <;> simp [Method.accepts]
  | cons p m ih =>
    cases ks with
    | nil => simp [Method.accepts]
    | cons k ks => simp [Method.accepts, Param.accepts_iff, ih]

theorem Method.le_iff (m m' : Method) : m.le m' = true ↔ List.Forall₂ Param.Below m m' := by
  induction m generalizing m' with
  | nil => cases m' <;> simp [Method.le]
  | cons p m ih =>
    cases m' with
    | nil => simp [Method.le]
    | cons k ks => simp [Method.le, Param.le_iff, ih]

theorem Method.below_antisymm {m m' : Method} (h : List.Forall₂ Param.Below m m') (h' : List.Forall₂ Param.Below m' m) :
    m = m' := by
  induction h with
  | nil => rfl
  | cons hp _ ih =>
    cases h' with
    | cons hp' h' =>
      rw [ih h']
      rcases hp with rfl | rfl
      · rcases hp' with rfl | rfl <;> rfl
      · rfl

/-- C46, overload resolution.  A definition runs exactly if it is the most specific one
that can be called (there is never more than one); definitions are not repeated. -/
theorem C46_resolution {tbl : List Method} (hn : tbl.Nodup) (ks : List Kind) (m : Method) :
    (resolve tbl ks = .run m ↔ MostSpecific tbl ks m) ∧
    (resolve tbl ks = .none ↔ ∀ m ∈ tbl, ¬ List.Forall₂ Param.Matches m ks) ∧
    ∀ m', MostSpecific tbl ks m → MostSpecific tbl ks m' → m = m' := by
  have uniq : ∀ {m m'}, MostSpecific tbl ks m → MostSpecific tbl ks m' → m = m' := fun h h' =>
    Method.below_antisymm (h.2.2 _ h'.1 h'.2.1) (h'.2.2 _ h.1 h.2.1)
  have hF : ∀ m, m ∈ tbl.filter (fun m => m.accepts ks) ↔ m ∈ tbl ∧ List.Forall₂ Param.Matches m ks := by
    intro m
    rw [List.mem_filter, Method.accepts_iff]
  have hN : (tbl.filter (fun m => m.accepts ks)).Nodup := hn.filter _
  refine ⟨?_, ?_, fun m' => uniq⟩
  · unfold resolve
    generalize tbl.filter (fun m => m.accepts ks) = F at hF hN
    have hB : ∀ a, a ∈ F.filter (fun a => F.all (fun b => Method.le a b)) ↔ MostSpecific tbl ks a := by
      intro a
      simp only [List.mem_filter, List.all_eq_true, hF, Method.le_iff, MostSpecific, and_assoc, and_imp]
    have hBN := hN.filter (fun a => F.all (fun b => Method.le a b))
    cases F with
    | nil => exact ⟨fun h => (nomatch h), fun h => absurd ((hF m).2 ⟨h.1, h.2.1⟩) (by simp)⟩
    | cons f F =>
      dsimp only
      generalize (f :: F).filter (fun a => (f :: F).all (fun b => Method.le a b)) = B at hB hBN
      match B with
      | [] => exact ⟨fun h => (nomatch h), fun h => absurd ((hB m).2 h) (by simp)⟩
      | [a] =>
        constructor
        · intro h
          cases h
          exact (hB _).1 (by simp)
        · intro h
          rw [uniq h ((hB a).1 (by simp))]
      | a :: b :: B =>
        have e := uniq ((hB a).1 (by simp)) ((hB b).1 (by simp))
        simp [e] at hBN
  · unfold resolve
    generalize tbl.filter (fun m => m.accepts ks) = F at hF
    cases F with
    | nil => exact ⟨fun _ m hm h => absurd ((hF m).2 ⟨hm, h⟩) (by simp), fun _ => rfl⟩
    | cons f F =>
      refine ⟨fun h => ?_, fun h => absurd ((hF f).1 (by simp)).2 (h f ((hF f).1 (by simp)).1)⟩
      dsimp only at h
      split at h <;> exact (nomatch h)


/-- C46.  The overloads of the operations never conflict: for every tuple of matrix
classes exactly one definition is selected, the most specific one, so that the outcome of a
call does not depend on the order of the definitions. -/
theorem C46_unique_method (a b c d : Kind) :
    (∀ t ∈ [Tables.getrf, Tables.multiplication, Tables.transpose, Tables.norm, Tables.shallowCopy,
        Tables.split, Tables.memUsage, Tables.zeroAll, Tables.zeroLower, Tables.zeroUpper,
        Tables.resize, Tables.toJson], ∃ m, resolve t [a] = .run m ∧ MostSpecific t [a] m) ∧
    (∀ t ∈ [Tables.gemmNew, Tables.trmm, Tables.trsm, Tables.addition, Tables.diffNorm, Tables.geqrt,
        Tables.fillDense], ∃ m, resolve t [a, b] = .run m ∧ MostSpecific t [a, b] m) ∧
    (∀ t ∈ [Tables.gemm, Tables.larfb, Tables.tpqrt],
      ∃ m, resolve t [a, b, c] = .run m ∧ MostSpecific t [a, b, c] m) ∧
    (∃ m, resolve Tables.tpmqrt [a, b, c, d] = .run m ∧ MostSpecific Tables.tpmqrt [a, b, c, d] m) := by
  have e : ∀ (t : List Method) (ks : List Kind), t.Nodup →
      (match resolve t ks with | .run _ => true | _ => false) = true →
      ∃ m, resolve t ks = .run m ∧ MostSpecific t ks m := by
    intro t ks hn h
    cases hr : resolve t ks with
    | run m => exact ⟨m, rfl, (C46_resolution hn ks m).1.1 hr⟩
    | none => rw [hr] at h; cases h
    | ambiguous => rw [hr] at h; cases h
  refine ⟨?_, ?_, ?_, ?_⟩
  · intro t ht
    refine e t _ (by revert t; decide +kernel) ?_
    revert t
    cases a <;> decide +kernel
  · intro t ht
    refine e t _ (by revert t; decide +kernel) ?_
    revert t
    cases a <;> cases b <;> decide +kernel
  · intro t ht
    refine e t _ (by revert t; decide +kernel) ?_
    revert t
    cases a <;> cases b <;> cases c <;> decide +kernel
  · refine e _ _ (by decide +kernel) ?_
    cases a <;> cases b <;> cases c <;> cases d <;> decide +kernel

/-- C46.  The dispatch tables: which classes of operands have an implementation. -/
theorem C46_tables (a b c d : Kind) :
    (Handled Tables.gemm [a, b, c] ↔ (a ≠ .empty ∧ b ≠ .empty ∧ c ≠ .empty) ∨
      (c = .dense ∧ (a = .hier ∨ b = .hier))) ∧
    (Handled Tables.trmm [a, b] ↔ (a = .dense ∨ a = .hier) ∧ b ≠ .empty) ∧
    (Handled Tables.trsm [a, b] ↔ b = .lowRank ∨ (a = .dense ∧ b = .dense) ∨
      (a = .hier ∧ (b = .dense ∨ b = .hier))) ∧
    (Handled Tables.getrf [a] ↔ a = .dense ∨ a = .hier) ∧
    (Handled Tables.addition [a, b] ↔ (b = .lowRank ∧ a ≠ .empty) ∨ (a = b ∧ a ≠ .empty)) ∧
    (∀ t ∈ [Tables.multiplication, Tables.transpose, Tables.norm, Tables.shallowCopy, Tables.split,
        Tables.memUsage, Tables.zeroAll, Tables.toJson], Handled t [a] ↔ a ≠ .empty) ∧
    (∀ t ∈ [Tables.zeroLower, Tables.zeroUpper], Handled t [a] ↔ a = .dense ∨ a = .hier) ∧
    (Handled Tables.resize [a] ↔ a = .dense) ∧
    (Handled Tables.rightFactor [a] ↔ a = .dense ∨ a = .lowRank) ∧
    (Handled Tables.diffNorm [a, b] ↔ a = .hier ∨ b = .hier ∨ (a ≠ .empty ∧ b ≠ .empty)) ∧
    (Handled Tables.geqrt [a, b] ↔ a = .dense ∧ b = .dense) ∧
    (Handled Tables.larfb [a, b, c] ↔ a = .dense ∧ b = .dense ∧ (c = .dense ∨ c = .lowRank)) ∧
    (Handled Tables.tpqrt [a, b, c] ↔ a = .dense ∧ (b = .dense ∨ b = .lowRank) ∧ c = .dense) ∧
    (Handled Tables.tpmqrt [a, b, c, d] ↔ b = .dense ∧ (a = .dense ∨ a = .lowRank) ∧
      (c = .dense ∨ c = .lowRank) ∧ (d = .dense ∨ d = .lowRank)) := by
  refine ⟨?_, ?_, ?_, ?_, ?_, ?_, ?_, ?_, ?_, ?_, ?_, ?_, ?_, ?_⟩
  · cases a <;> cases b <;> cases c <;> decide +kernel
  · cases a <;> cases b <;> decide +kernel
  · cases a <;> cases b <;> decide +kernel
  · cases a <;> decide +kernel
  · cases a <;> cases b <;> decide +kernel
  · cases a <;> decide +kernel
  · cases a <;> decide +kernel
  · cases a <;> decide +kernel
  · cases a <;> decide +kernel
  · cases a <;> cases b <;> decide +kernel
  · cases a <;> cases b <;> decide +kernel
  · cases a <;> cases b <;> cases c <;> decide +kernel
  · cases a <;> cases b <;> cases c <;> decide +kernel
  · cases a <;> cases b <;> cases c <;> cases d <;> decide +kernel

/-! ### calls without an implementation -/

section
variable [CommRing R]

/-- C46, multiplication.  Operand classes without an implementation never return;
if the dimensions fit, the call ends in the error handler. -/
theorem C46_gemm [DecidableEq R] (o : LrOps R) (A B C : Mat R) (α β : R) (ta tb : Bool)
    (h : ¬ Handled Tables.gemm [A.kind, B.kind, C.kind]) :
    NeverReturns (fun fuel => Mat.gemm o fuel A B C α β ta tb) ∧
    (A.opRows ta = C.nRows → A.opCols ta = B.opRows tb → B.opCols tb = C.nCols →
      ∀ fuel, Mat.gemm o (fuel + 1) A B C α β ta tb = .error .abort) := by
  have key : ∀ g gn, Mat.gemmOmm o g gn A B C α β ta tb = .error .abort := by
    intro g gn
    rw [(C46_tables A.kind B.kind C.kind .dense).1] at h
    cases A <;> cases B <;> cases C <;> first | rfl | exact absurd (by simp [Mat.kind]) h
  refine ⟨?_, ?_⟩
  · intro fuel x hx
    cases fuel with
    | zero => cases hx
    | succ n =>
      simp only [Mat.gemm, Mat.gemmBoth, except_bind_eq_ok, key] at hx
      obtain ⟨_, -, _, -, _, -, hx⟩ := hx
      cases hx
  · intro h1 h2 h3 fuel
    simp only [Mat.gemm, Mat.gemmBoth, assertM, h1, h2, h3, key]
    rfl

/-- C46, multiplication, nested operands: a product that returns had an
implementation for all the blocks it met; in particular no operand contains an
`Empty` block with entries, at any depth. -/
theorem C46_gemm_nested [DecidableEq R] {o : LrOps R} (ho : o.Fits False) {fuel : Nat} {A B C X : Mat R}
    {α β : R} {ta tb : Bool} (hA : A.WF) (hAs : A.Square) (hB : B.WF) (hBs : B.Square) (hC : C.WF)
    (hCs : C.Square) (h : Mat.gemm o fuel A B C α β ta tb = .ok X) :
    A.NoEmptyEntries ∧ B.NoEmptyEntries ∧ C.NoEmptyEntries := by
  have t := (Mat.gemmBoth_touch ho fuel).1 _ _ _ _ _ _ _ _ hA hAs hB hBs hC hCs h
  exact ⟨t.1, t.2.1, t.2.2.1⟩

/-- C46, multiplication into a new matrix: the same for its two operands. -/
theorem C46_gemm_new_nested [DecidableEq R] {o : LrOps R} (ho : o.Fits False) {fuel : Nat}
    {A B X : Mat R} {α : R} {ta tb : Bool} (hA : A.WF) (hAs : A.Square) (hB : B.WF) (hBs : B.Square)
    (h : Mat.gemmNew o fuel A B α ta tb = .ok X) : A.NoEmptyEntries ∧ B.NoEmptyEntries :=
  (Mat.gemmBoth_touch ho fuel).2 _ _ _ _ _ _ hA hAs hB hBs h

/-- C46, triangular multiplication. -/
theorem C46_trmm [DecidableEq R] (o : LrOps R) (fuel : Nat) (A B : Mat R) (side : Side) (uplo : Uplo)
    (trans unit : Bool) (α : R) (h : ¬ Handled Tables.trmm [A.kind, B.kind]) :
    Mat.trmm o (fuel + 1) A B side uplo trans unit α = .error .abort := by
  rw [(C46_tables A.kind B.kind .dense .dense).2.1] at h
  cases A <;> cases B <;> first | rfl | exact absurd (by simp [Mat.kind]) h

/-- C46, triangular multiplication, nested operands: if it returns, the diagonal of
the triangular matrix consists of dense blocks at the finest level, and the target has
no `Empty` block at any depth. -/
theorem C46_trmm_nested [DecidableEq R] {o : LrOps R} {fuel : Nat} {A B X : Mat R} {side : Side}
    {uplo : Uplo} {trans unit : Bool} {α : R} (hB : B.WF)
    (h : Mat.trmm o fuel A B side uplo trans unit α = .ok X) : A.DiagLeafDense ∧ B.NoEmpty := by
  unfold Mat.trmm at h
  generalize Mat.gemm o fuel = g at h
  induction fuel generalizing A B X with
  | zero => cases h
  | succ n ih =>
    simp only [Mat.trmmWith, Mat.trmmOmm] at h
    cases A with
    | lowRank | empty => cases B <;> cases h
    | dense a =>
      refine ⟨trivial, ?_⟩
      cases B with
      | dense | lowRank => trivial
      | empty => cases h
      | hier r s B =>
        simp only [except_bind_eq_ok] at h
        obtain ⟨_, -, _, -, AH, -, h⟩ := h
        exact (ih hB h).2
    | hier p q A =>
      cases B with
      | empty => cases h
      | dense b =>
        refine ⟨?_, trivial⟩
        simp only [except_bind_eq_ok, assertM_eq_ok, decide_eq_true_eq] at h
        obtain ⟨_, e, _, -, BH, hBH, BH', h, -⟩ := h
        subst e
        by_cases hp : p = 0
        · subst hp; intro i hi; omega
        · have w := Mat.split_dense_fit (by cases side <;> simp [Side.pick]; omega)
            (by cases side <;> simp [Side.pick]; omega) hBH
          exact (ih w.1 h).1
      | lowRank b =>
        refine ⟨?_, trivial⟩
        simp only [except_bind_eq_ok, assertM_eq_ok, decide_eq_true_eq] at h
        obtain ⟨_, e, _, -, BH, hBH, BH', h, -⟩ := h
        subst e
        by_cases hp : p = 0
        · subst hp; intro i hi; omega
        · have w := Mat.split_dense_fit (by cases side <;> simp [Side.pick]; omega)
            (by cases side <;> simp [Side.pick]; omega) hBH
          exact (ih w.1 h).1
      | hier r s B =>
        simp only [Mat.trmmHH, except_bind_eq_ok, assertM_eq_ok, decide_eq_true_eq] at h
        obtain ⟨_, e, _, e', _, -, f, hf, -⟩ := h
        subst e
        simp only [Mat.WF] at hB
        have key : ∀ i < r, ∀ j < s, (A (side.pick i j) (side.pick i j)).DiagLeafDense ∧ (B i j).NoEmpty := by
          intro i hi j hj
          have e := collect2_ok hf i hi j hj
          simp only [except_bind_eq_ok] at e
          obtain ⟨c, hc, -⟩ := e
          exact ih (hB.2.2 i hi j hj).1 hc
        refine ⟨fun i hi _ => ?_, fun i hi j hj => (key i hi j hj).2⟩
        cases side with
        | left => exact (key i (by simpa [Side.pick, e'] using hi) 0 hB.2.1).1
        | right => exact (key 0 hB.1 i (by simpa [Side.pick, e'] using hi)).1

/-- C46, addition: the outcome is the error handler for all other classes. -/
theorem C46_addition (o : LrOps R) (A B : Mat R) (h : ¬ Handled Tables.addition [A.kind, B.kind]) :
    A.addAssign o B = .error .abort := by
  rw [(C46_tables A.kind B.kind .dense .dense).2.2.2.2.1] at h
  cases A <;> cases B <;> first | rfl | exact absurd (by simp [Mat.kind]) h

theorem addAssign_lowRank_noEmpty {o : LrOps R} {A X : Mat R} {b : LowRank R}
    (h : A.addAssign o (.lowRank b) = .ok X) : A.NoEmpty := by
  induction A generalizing b X with
  | dense | lowRank => trivial
  | empty => cases h
  | hier br bc blk ih =>
    simp only [Mat.addAssign, except_bind_eq_ok] at h
    obtain ⟨BH, hBH, h⟩ := h
    obtain ⟨bl, rfl, -⟩ := Mat.split_lowRank_blocks hBH
    simp only [except_bind_eq_ok] at h
    obtain ⟨g, hg, -⟩ := h
    intro i hi j hj
    have e := collect2_ok hg i hi j hj
    simp only [except_bind_eq_ok, assertM_eq_ok, decide_eq_true_eq] at e
    obtain ⟨_, -, _, -, e⟩ := e
    exact ih i j e

/-- C46, addition, nested operands: if it returns, the two operands are addable at
every depth. -/
theorem C46_addition_nested {o : LrOps R} {A B X : Mat R} (h : A.addAssign o B = .ok X) :
    A.Addable B := by
  induction A generalizing B X with
  | dense a =>
    cases B with
    | dense b => exact .dd a b
    | lowRank b => exact .dl a b
    | hier | empty => cases h
  | lowRank a =>
    cases B with
    | lowRank b => exact .ll a b
    | dense | hier | empty => cases h
  | empty => cases B <;> cases h
  | hier br bc blk ih =>
    cases B with
    | dense | empty => cases h
    | lowRank b => exact .hl (addAssign_lowRank_noEmpty h)
    | hier br' bc' blk' =>
      simp only [Mat.addAssign, except_bind_eq_ok] at h
      obtain ⟨g, hg, -⟩ := h
      refine .hh fun i hi j hj => ?_
      have e := collect2_ok hg i hi j hj
      simp only [except_bind_eq_ok, assertM_eq_ok, decide_eq_true_eq] at e
      obtain ⟨_, -, _, -, e⟩ := e
      exact ih i j e

end

/-! ### operations with one operand -/

section
variable [CommRing R]

/-- C46, operations with one operand: on a class without an implementation each ends
in the error handler. -/
theorem C46_unary [Inhabited R] (A : Mat R) (b : R) (rs cs : List IndexRange) (m n : Nat)
    (szD szL szH szP : Nat) (st : Bool) :
    (¬ Handled Tables.multiplication [A.kind] → A.scale b = .error .abort) ∧
    (¬ Handled Tables.transpose [A.kind] → A.transpose = .error .abort) ∧
    (¬ Handled Tables.norm [A.kind] → A.norm = .error .abort) ∧
    (¬ Handled Tables.shallowCopy [A.kind] → A.shallowCopy = .error .abort) ∧
    (¬ Handled Tables.split [A.kind] → A.splitOmm rs cs = .error .abort) ∧
    (¬ Handled Tables.memUsage [A.kind] → A.memUsage szD szL szH szP st = .error .abort) ∧
    (¬ Handled Tables.zeroAll [A.kind] → A.zeroAll = .error .abort) ∧
    (¬ Handled Tables.zeroLower [A.kind] → A.zeroLower = .error .abort) ∧
    (¬ Handled Tables.zeroUpper [A.kind] → A.zeroUpper = .error .abort) ∧
    (¬ Handled Tables.resize [A.kind] → A.resize m n = .error .abort) ∧
    (¬ Handled Tables.rightFactor [A.kind] → A.rightFactor = .error .abort) := by
  refine ⟨?_, ?_, ?_, ?_, ?_, ?_, ?_, ?_, ?_, ?_, ?_⟩ <;> intro h <;> revert h <;> cases A <;>
    simp only [Mat.kind] <;> first | exact fun _ => rfl | exact fun h => absurd (by decide +kernel) h

/-- C46, operations with one operand, nested: scaling, transposing, copying, setting to
zero and counting memory return exactly for the matrices that contain no `Empty` block at
any depth; so does the norm if the low-rank factors fit. -/
theorem C46_unary_nested [Inhabited R] (A : Mat R) (b : R) (szD szL szH szP : Nat) (st : Bool) :
    ((∃ X, A.scale b = .ok X) ↔ A.NoEmpty) ∧
    ((∃ X, A.transpose = .ok X) ↔ A.NoEmpty) ∧
    ((∃ X, A.shallowCopy = .ok X) ↔ A.NoEmpty) ∧
    ((∃ X, A.zeroAll = .ok X) ↔ A.NoEmpty) ∧
    ((∃ X, A.memUsage szD szL szH szP st = .ok X) ↔ A.NoEmpty) ∧
    (A.WF → ((∃ X, A.norm = .ok X) ↔ A.NoEmpty)) := by
  induction A with
  | dense d =>
    refine ⟨⟨fun _ => trivial, fun _ => ⟨_, rfl⟩⟩, ⟨fun _ => trivial, fun _ => ⟨_, rfl⟩⟩,
      ⟨fun _ => trivial, fun _ => ⟨_, rfl⟩⟩, ⟨fun _ => trivial, fun _ => ⟨_, rfl⟩⟩,
      ⟨fun _ => trivial, fun _ => ⟨_, rfl⟩⟩, fun _ => ⟨fun _ => trivial, fun _ => ⟨_, rfl⟩⟩⟩
  | lowRank l =>
    refine ⟨⟨fun _ => trivial, fun _ => ⟨_, rfl⟩⟩, ⟨fun _ => trivial, fun _ => ⟨_, rfl⟩⟩,
      ⟨fun _ => trivial, fun _ => ⟨_, rfl⟩⟩, ⟨fun _ => trivial, fun _ => ⟨_, rfl⟩⟩,
      ⟨fun _ => trivial, fun _ => ⟨_, rfl⟩⟩, fun w => ⟨fun _ => trivial, fun _ => ?_⟩⟩
    obtain ⟨d, hd, -⟩ := Mat.LowRank_toDense_ok l w
    exact ⟨_, by simp only [Mat.norm, hd, except_bind_ok]; rfl⟩
  | empty m n =>
    have no : ∀ {α : Type} {x : Except Err α}, x = .error .abort → ((∃ y, x = .ok y) ↔ False) := by
      intro α x e
      subst e
      exact ⟨fun ⟨_, h⟩ => (by cases h), False.elim⟩
    exact ⟨no rfl, no rfl, no rfl, no rfl, no rfl, fun _ => no rfl⟩
  | hier br bc blk ih =>
    have lift : ∀ {α β : Type} [Inhabited α] {f : Mat R → Except Err α} {k : (Nat → Nat → α) → β},
        (∀ i < br, ∀ j < bc, ((∃ X, f (blk i j) = .ok X) ↔ (blk i j).NoEmpty)) →
        ((∃ X, (do let g ← collect2 br bc (fun i j => f (blk i j)); Except.ok (k g)) = Except.ok X) ↔
          (Mat.hier br bc blk).NoEmpty) := by
      intro α β _ f k hf
      constructor
      · rintro ⟨X, hX⟩ i hi j hj
        simp only [except_bind_eq_ok] at hX
        obtain ⟨g, hg, -⟩ := hX
        exact (hf i hi j hj).1 ⟨_, collect2_ok hg i hi j hj⟩
      · intro h
        obtain ⟨g, hg⟩ := collect2_exists (f := fun i j => f (blk i j))
          (fun i hi j hj => (hf i hi j hj).2 (h i hi j hj))
        exact ⟨k g, by rw [hg]; rfl⟩
    refine ⟨lift (f := fun A => A.scale b) (k := fun g => Mat.hier br bc g) fun i _ j _ => (ih i j).1,
      lift (f := fun A => A.transpose) (k := fun g => Mat.hier bc br (fun j i => g i j))
        fun i _ j _ => (ih i j).2.1,
      lift (f := fun A => A.shallowCopy) (k := fun g => Mat.hier br bc g) fun i _ j _ => (ih i j).2.2.1,
      lift (f := fun A => A.zeroAll) (k := fun g => Mat.hier br bc g) fun i _ j _ => (ih i j).2.2.2.1,
      lift (f := fun A => A.memUsage szD szL szH szP st)
        (k := fun g => (∑ i ∈ range br, ∑ j ∈ range bc, g i j) + if st then br * bc * szP + szH else 0)
        fun i _ j _ => (ih i j).2.2.2.2.1, fun w => ?_⟩
    simp only [Mat.WF] at w
    exact lift (f := fun A => A.norm) (k := fun g => ∑ i ∈ range br, ∑ j ∈ range bc, g i j)
      fun i hi j hj => (ih i j).2.2.2.2.2 (w.2.2 i hi j hj).1

/-- C46, `zero_lower` and `zero_upper`, nested: they return exactly for the matrices
whose diagonal is dense at the finest level and whose blocks to be cleared contain no
`Empty`. -/
theorem C46_zero_triangle_nested (A : Mat R) :
    ((∃ X, A.zeroLower = .ok X) ↔ A.LowerZeroable) ∧
    ((∃ X, A.zeroUpper = .ok X) ↔ A.UpperZeroable) := by
  have z : ∀ B : Mat R, (∃ X, B.zeroAll = .ok X) ↔ B.NoEmpty := fun B =>
    letI : Inhabited R := ⟨0⟩
    (C46_unary_nested B 0 0 0 0 0 false).2.2.2.1
  have no : ∀ {α : Type} {x : Except Err α}, x = .error .abort → ((∃ y, x = .ok y) ↔ False) := by
    intro α x e
    subst e
    exact ⟨fun ⟨_, h⟩ => (by cases h), False.elim⟩
  induction A with
  | dense d => exact ⟨⟨fun _ => trivial, fun _ => ⟨_, rfl⟩⟩, ⟨fun _ => trivial, fun _ => ⟨_, rfl⟩⟩⟩
  | lowRank l => exact ⟨no rfl, no rfl⟩
  | empty m n => exact ⟨no rfl, no rfl⟩
  | hier br bc blk ih =>
    have lift : ∀ {f : Nat → Nat → Except Err (Mat R)} {P : Prop} {Q : Nat → Nat → Prop},
        (∀ i j, (∃ X, f i j = .ok X) ↔ Q i j) → (P ↔ ∀ i < br, ∀ j < bc, Q i j) →
        ((∃ X, (do let g ← collect2 br bc f; Except.ok (Mat.hier br bc g)) = Except.ok X) ↔ P) := by
      intro f P Q hf hP
      rw [hP]
      constructor
      · rintro ⟨X, hX⟩ i hi j hj
        simp only [except_bind_eq_ok] at hX
        obtain ⟨g, hg, -⟩ := hX
        exact (hf i j).1 ⟨_, collect2_ok hg i hi j hj⟩
      · intro h
        obtain ⟨g, hg⟩ := collect2_exists (f := f) (fun i hi j hj => (hf i j).2 (h i hi j hj))
        exact ⟨_, by rw [hg]; rfl⟩
    constructor
    · refine lift (Q := fun i j => (i = j → (blk i j).LowerZeroable) ∧ (j < i → (blk i j).NoEmpty)) ?_ Iff.rfl
      intro i j
      by_cases e : j = i
      · subst e
        simp only [if_true, (ih j j).1]
        exact ⟨fun h => ⟨fun _ => h, fun h => by omega⟩, fun h => h.1 trivial⟩
      · by_cases l : j < i
        · simp only [e, l, if_false, if_true, z]
          exact ⟨fun h => ⟨fun h => absurd h.symm e, fun _ => h⟩, fun h => h.2 trivial⟩
        · simp only [e, l, if_false]
          exact ⟨fun h => ⟨fun h => absurd h.symm e, False.elim⟩, fun _ => ⟨_, rfl⟩⟩
    · refine lift (Q := fun i j => (i = j → (blk i j).UpperZeroable) ∧ (i < j → (blk i j).NoEmpty)) ?_ Iff.rfl
      intro i j
      by_cases e : j = i
      · subst e
        simp only [if_true, (ih j j).2]
        exact ⟨fun h => ⟨fun _ => h, fun h => by omega⟩, fun h => h.1 trivial⟩
      · by_cases l : i < j
        · simp only [e, l, if_false, if_true, z]
          exact ⟨fun h => ⟨fun h => absurd h.symm e, fun _ => h⟩, fun h => h.2 trivial⟩
        · simp only [e, l, if_false]
          exact ⟨fun h => ⟨fun h => absurd h.symm e, False.elim⟩, fun _ => ⟨_, rfl⟩⟩

/-! ### comparison and QR kernels -/

/-- C46, comparison: other classes never return. -/
theorem C46_l2_error [Inhabited R] (A B : Mat R) (h : ¬ Handled Tables.diffNorm [A.kind, B.kind]) :
    NeverReturns (fun fuel => Mat.l2ErrorParts fuel A B) := by
  rw [(C46_tables A.kind B.kind .dense .dense).2.2.2.2.2.2.2.2.2.1] at h
  intro fuel x hx
  simp only [Mat.l2ErrorParts, except_bind_eq_ok] at hx
  obtain ⟨_, -, _, -, hx⟩ := hx
  cases fuel with
  | zero => cases hx
  | succ n =>
    cases A <;> cases B <;> first | (simp [Mat.collectDiffNorm] at hx; done) |
      exact absurd (by simp [Mat.kind]) h

/-- C46, QR kernels. -/
theorem C46_qr_kernels [DecidableEq R] (K : QrKernels R) (o : LrOps R) (fuel : Nat) (trans : Bool)
    (V T A B : Mat R) :
    (¬ Handled Tables.geqrt [A.kind, T.kind] → Mat.geqrt K A T = .error .abort) ∧
    (¬ Handled Tables.larfb [V.kind, T.kind, A.kind] → Mat.larfb trans V T A = .error .abort) ∧
    (¬ Handled Tables.tpqrt [A.kind, B.kind, T.kind] → Mat.tpqrt K A B T = .error .abort) ∧
    (¬ Handled Tables.tpmqrt [V.kind, T.kind, A.kind, B.kind] →
      Mat.tpmqrt o fuel trans V T A B = .error .abort) := by
  refine ⟨?_, ?_, ?_, ?_⟩
  · rw [(C46_tables A.kind T.kind .dense .dense).2.2.2.2.2.2.2.2.2.2.1]
    intro h
    cases A <;> cases T <;> first | rfl | exact absurd (by simp [Mat.kind]) h
  · rw [(C46_tables V.kind T.kind A.kind .dense).2.2.2.2.2.2.2.2.2.2.2.1]
    intro h
    cases V <;> cases T <;> cases A <;> first | rfl | exact absurd (by simp [Mat.kind]) h
  · rw [(C46_tables A.kind B.kind T.kind .dense).2.2.2.2.2.2.2.2.2.2.2.2.1]
    intro h
    cases A <;> cases B <;> cases T <;> first | rfl | exact absurd (by simp [Mat.kind]) h
  · rw [(C46_tables V.kind T.kind A.kind B.kind).2.2.2.2.2.2.2.2.2.2.2.2.2]
    intro h
    cases V <;> cases T <;> cases A <;> cases B <;> first | rfl | exact absurd (by simp [Mat.kind]) h

/-- C46, negative.  The structure export is an exception: on a class without an
implementation it prints the error message but does not abort, so that a matrix with
`Empty` blocks is exported without complaint to the caller. -/
theorem C46_export_returns (sv : Dense R → List R) (m n : Nat) :
    ¬ Handled Tables.toJson [(Mat.empty m n : Mat R).kind] ∧
    ∃ J, (Mat.empty m n : Mat R).writeJson sv = .ok J :=
  ⟨by show ¬ Handled Tables.toJson [.empty]; decide +kernel, _, rfl⟩

end

section
variable [Field R] [DecidableEq R]

/-- C46, triangular solve: operand classes without an implementation end in the error
handler.  The table accepts any first operand if the second is a `LowRank`; the call for
its factor then fails in the same way: only dense and nested triangular matrices ever
return. -/
theorem C46_trsm (o : LrOps R) (A B : Mat R) (uplo : Uplo) (side : Side) :
    (¬ Handled Tables.trsm [A.kind, B.kind] →
      ∀ fuel, Mat.trsm o (fuel + 1) A B uplo side = .error .abort) ∧
    (A.kind ≠ .dense → A.kind ≠ .hier → NeverReturns (fun fuel => Mat.trsm o fuel A B uplo side)) := by
  have key : ∀ fuel, ¬ Handled Tables.trsm [A.kind, B.kind] →
      ∀ g, Mat.trsmWith g uplo side (fuel + 1) A B = .error .abort := by
    intro fuel h g
    rw [(C46_tables A.kind B.kind .dense .dense).2.2.1] at h
    cases A <;> cases B <;> first | rfl | exact absurd (by simp [Mat.kind]) h
  refine ⟨fun h fuel => key fuel h _, ?_⟩
  intro h1 h2 fuel X hX
  simp only [Mat.trsm] at hX
  generalize Mat.gemm o fuel = g at hX
  have never : ∀ (d : Dense R) n Y, Mat.trsmWith g uplo side n A (.dense d) ≠ .ok Y := by
    intro d n Y hY
    cases n with
    | zero => cases hY
    | succ n => cases A <;> first | cases hY | exact h1 rfl | exact h2 rfl
  cases fuel with
  | zero => cases hX
  | succ n =>
    cases B with
    | lowRank b =>
      have : Mat.trsmWith g uplo side (n + 1) A (.lowRank b) = (do
          let X ← Mat.trsmWith g uplo side n A (.dense (b.outer side))
          let X ← X.asDense
          .ok (.lowRank (b.setOuter side X))) := by
        cases A <;> rfl
      rw [this] at hX
      simp only [except_bind_eq_ok] at hX
      obtain ⟨Y, hY, -⟩ := hX
      exact never _ _ _ hY
    | dense | hier | empty => cases A <;> first | cases hX | exact h1 rfl | exact h2 rfl

/-- C46, LU factorization. -/
theorem C46_getrf (lu : Dense R → Dense R × Bool) (o : LrOps R) (fuel : Nat) (A : Mat R)
    (h : ¬ Handled Tables.getrf [A.kind]) : Mat.getrf lu o (fuel + 1) A = .error .abort := by
  rw [(C46_tables A.kind .dense .dense .dense).2.2.2.1] at h
  cases A <;> first | rfl | exact absurd (by simp [Mat.kind]) h

end

/-! ### calls with an implementation -/

section
variable {α : Type}

/-- The computation returns. -/
def Returns (x : Except Err α) : Prop := ∃ y, x = .ok y

theorem returns_iff (x : Except Err α) : Returns x ↔ okAnd x (fun _ => true) = true := by
  unfold Returns okAnd
  cases x <;> simp

instance (x : Except Err α) : Decidable (Returns x) := decidable_of_iff _ (returns_iff x).symm

end

/-- A 2-by-2 matrix of every class. -/
def sampleOf : Kind → Mat ℚ
  | .dense => .dense (.ident 2 2)
  | .lowRank => .lowRank ⟨2, 2, 2, 0, .ident 2 2, .ident 2 2, .ident 2 2⟩
  | .hier => .hier 2 2 (fun i j => .dense ⟨1, 1, fun _ _ => if i = j then 1 else 0⟩)
  | .empty => .empty 2 2

theorem sampleOf_kind (k : Kind) : (sampleOf k).kind = k := by cases k <;> rfl

/-- C46.  The tables are not empty promises: for all classes of operands with an
implementation, apart from those with an `Empty` among them, there are operands of these
classes on which the operation returns. -/
theorem C46_supported (a b c d : Kind) (K : QrKernels ℚ)
    (ha : a ≠ .empty) (hb : b ≠ .empty) (hc : c ≠ .empty) :
    ∃ A B C D : Mat ℚ, A.kind = a ∧ B.kind = b ∧ C.kind = c ∧ D.kind = d ∧
    (Handled Tables.gemm [a, b, c] ∧ Returns (Mat.gemm (exactOps ℚ) 9 A B C 1 1 false false)) ∧
    Returns (Mat.gemmNew (exactOps ℚ) 9 A B 1 false false) ∧
    (Handled Tables.trmm [a, b] →
      Returns (Mat.trmm (exactOps ℚ) 9 A B .left .lower false false 1)) ∧
    (Handled Tables.trsm [a, b] → a ≠ .lowRank →
      Returns (Mat.trsm (exactOps ℚ) 9 A B .lower .left)) ∧
    (Handled Tables.addition [a, b] → Returns (A.addAssign (exactOps ℚ) B)) ∧
    (Handled Tables.zeroLower [a] → Returns A.zeroLower ∧ Returns A.zeroUpper) ∧
    Returns (Mat.l2ErrorParts 5 A B) ∧
    (Handled Tables.larfb [a, b, c] → Returns (Mat.larfb true A B C)) ∧
    (Handled Tables.tpmqrt [a, b, c, d] → Returns (Mat.tpmqrt (exactOps ℚ) 9 true A B C D)) ∧
    (Handled Tables.geqrt [a, b] → Returns (Mat.geqrt K A B)) ∧
    (Handled Tables.tpqrt [a, b, c] → Returns (Mat.tpqrt K A B C)) ∧
    (Handled Tables.getrf [a] → Returns (Mat.getrf (fun x => (x, false)) (exactOps ℚ) 9 A)) := by
  refine ⟨sampleOf a, sampleOf b, sampleOf c, sampleOf d, sampleOf_kind a, sampleOf_kind b,
    sampleOf_kind c, sampleOf_kind d, ?_, ?_, ?_, ?_, ?_, ?_, ?_, ?_, ?_, ?_, ?_, ?_⟩
  · revert ha hb hc
    cases a <;> cases b <;> cases c <;> decide +kernel
  · revert ha hb
    cases a <;> cases b <;> decide +kernel
  · revert ha hb
    cases a <;> cases b <;> decide +kernel
  · revert ha hb
    cases a <;> cases b <;> decide +kernel
  · revert ha hb
    cases a <;> cases b <;> decide +kernel
  · revert ha
    cases a <;> decide +kernel
  · revert ha hb
    cases a <;> cases b <;> decide +kernel
  · cases a <;> cases b <;> cases c <;> decide +kernel
  · cases a <;> cases b <;> cases c <;> cases d <;> decide +kernel
  · intro h
    obtain ⟨rfl, rfl⟩ := (C46_tables a b .dense .dense).2.2.2.2.2.2.2.2.2.2.1.1 h
    exact ⟨_, rfl⟩
  · intro h
    obtain ⟨rfl, hb, rfl⟩ := (C46_tables a b c .dense).2.2.2.2.2.2.2.2.2.2.2.2.1.1 h
    rcases hb with rfl | rfl <;> exact ⟨_, rfl⟩
  · revert ha
    cases a <;> decide +kernel

/-- The hypotheses of the negative theorems are met: multiplying into an `Empty` is such
a call, and a product with an `Empty` deep inside an operand never returns. -/
example (fuel : Nat) :
    Mat.gemm (exactOps ℚ) (fuel + 1) (sampleOf .dense) (sampleOf .hier) (sampleOf .empty) 1 1 false false =
      .error .abort :=
  (C46_gemm _ _ _ _ _ _ _ _ (by decide +kernel)).2 (by decide +kernel) (by decide +kernel)
    (by decide +kernel) fuel

example : ¬ Handled Tables.trsm [.dense, .hier] ∧ ¬ Handled Tables.addition [.lowRank, .dense] := by
  decide +kernel

example (fuel : Nat) : ¬ Returns (Mat.gemm (exactOps ℚ) fuel
    (.hier 1 1 fun _ _ => .hier 1 2 fun _ j => if j = 0 then sampleOf .dense else .empty 2 3)
    (.dense ⟨5, 2, fun _ _ => 1⟩) (sampleOf .dense) 1 1 false false) := by
  rintro ⟨X, h⟩
  have := C46_gemm_nested exactOps_fits ?_ ?_ (by trivial) (by trivial) (by trivial) (by trivial) h
  · have := this.1 0 (by omega) 0 (by omega) 0 (by omega) 1 (by omega)
    simp [Mat.NoEmptyEntries] at this
  · refine ⟨by omega, by omega, fun i hi j hj => ⟨⟨by omega, by omega, fun i hi j hj => ?_⟩, rfl, rfl⟩⟩
    have : j = 0 ∨ j = 1 := by omega
    obtain rfl : i = 0 := by omega
    rcases this with rfl | rfl <;> exact ⟨trivial, rfl, rfl⟩
  · intro i hi j hj i hi j hj
    have : j = 0 ∨ j = 1 := by omega
    rcases this with rfl | rfl <;> trivial

end Verif
