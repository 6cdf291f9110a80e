import Verif.Spec.Print
import Mathlib.Data.List.Range
import Mathlib.Algebra.Ring.Rat

/-
C65: a printed matrix can be read back.
-/

namespace Verif

variable {R : Type}

/-- Two texts made of pieces and an end mark: if the pieces can be told apart from the end
mark and it can be seen where each of them ends, numbers and pieces agree. -/
theorem pieces_inj {α : Type} {P : Nat → Prop} (F G : Nat → List α) (e : α)
    (hF : ∀ i x, (F i ++ x).head? ≠ some e) (hG : ∀ i x, (G i ++ x).head? ≠ some e)
    (hP : ∀ i x y, F i ++ x = G i ++ y → P i ∧ x = y) : ∀ (m n k : Nat) (x y : List α),
    (List.range' k m).flatMap F ++ e :: x = (List.range' k n).flatMap G ++ e :: y →
    m = n ∧ (∀ i, k ≤ i → i < k + m → P i) ∧ x = y := by
  intro m
  induction m with
  | zero =>
    intro n k x y h
    cases n with
    | zero => exact ⟨rfl, fun i h1 h2 => by omega, by simpa using h⟩
    | succ n =>
      rw [List.range'_succ, List.flatMap_cons, List.append_assoc] at h
      have h1 := congrArg List.head? h
      simp only [List.range'_zero, List.flatMap_nil, List.nil_append, List.head?_cons] at h1
      exact absurd h1.symm (hG k _)
  | succ m ih =>
    intro n k x y h
    cases n with
    | zero =>
      rw [List.range'_succ, List.flatMap_cons, List.append_assoc] at h
      have h1 := congrArg List.head? h
      simp only [List.range'_zero, List.flatMap_nil, List.nil_append, List.head?_cons] at h1
      exact absurd h1 (hF k _)
    | succ n =>
      simp only [List.range'_succ, List.flatMap_cons, List.append_assoc] at h
      obtain ⟨h1, h2⟩ := hP k _ _ h
      obtain ⟨h3, h4, h5⟩ := ih n (k + 1) x y h2
      refine ⟨by omega, fun i hi hi' => ?_, h5⟩
      by_cases e : i = k
      · rw [e]; exact h1
      · exact h4 i (by omega) (by omega)

/-- Where the text of a dense matrix ends can be seen, and what it says. -/
theorem Dense.print_inj {sh : R → String} {d e : Dense R} {x y : List Tok}
    (h : d.print sh ++ x = e.print sh ++ y) : d.Looks sh e ∧ x = y := by
  have row : ∀ (f : Dense R) (i : Nat) (t : List Tok),
      (((List.range f.cols).map (fun j => Tok.num (sh (f.val i j))) ++ [Tok.eol]) ++ t).head? ≠ some .line := by
    intro f i t
    cases f.cols with
    | zero => simp
    | succ n => rw [List.range_eq_range', List.range'_succ]; simp
  rw [Dense.print, Dense.print, List.append_assoc, List.append_assoc, List.singleton_append, List.singleton_append,
    List.range_eq_range' (n := d.rows), List.range_eq_range' (n := e.rows)] at h
  obtain ⟨h1, h2, h3⟩ := pieces_inj
    (P := fun i => d.cols = e.cols ∧ ∀ j < d.cols, sh (d.val i j) = sh (e.val i j)) _ _ _ (row d) (row e) (by
      intro i t u h
      have conv : ∀ f : Dense R, (List.range f.cols).map (fun j => Tok.num (sh (f.val i j))) =
          (List.range' 0 f.cols).flatMap (fun j => [Tok.num (sh (f.val i j))]) := by
        intro f
        rw [List.range_eq_range', List.map_eq_flatMap]
      rw [conv d, conv e, List.append_assoc, List.append_assoc, List.singleton_append, List.singleton_append] at h
      obtain ⟨h1, h2, h3⟩ := pieces_inj (P := fun j => sh (d.val i j) = sh (e.val i j)) _ _ _ (by simp) (by simp) (by
        intro j t u h
        simp only [List.singleton_append, List.cons.injEq, Tok.num.injEq] at h
        exact h) _ _ _ _ _ h
      exact ⟨⟨h1, fun j hj => h2 j (by omega) (by omega)⟩, h3⟩) _ _ _ _ _ h
  exact ⟨⟨h1, fun hp => (h2 0 le_rfl (by omega)).1, fun i hi => (h2 i (by omega) (by omega)).2⟩, h3⟩

/-- The same for all matrices of the same class. -/
theorem Mat.print_inj {sh : R → String} : ∀ (A B : Mat R) (x y : List Tok), A.typeName = B.typeName →
    A.print sh ++ x = B.print sh ++ y → A.Looks sh B ∧ x = y := by
  intro A
  induction A with
  | dense d =>
    intro B x y ht h
    cases B with
    | dense e =>
      obtain ⟨h1, h2⟩ := Dense.print_inj (by simpa only [Mat.print] using h)
      exact ⟨.dense h1, h2⟩
    | lowRank => simp [Mat.typeName] at ht
    | hier => simp [Mat.typeName] at ht
    | empty => simp [Mat.typeName] at ht
  | lowRank l =>
    intro B x y ht h
    cases B with
    | lowRank k =>
      simp only [Mat.print, List.cons_append, List.append_assoc, List.cons.injEq, true_and] at h
      obtain ⟨hU, h⟩ := Dense.print_inj h
      simp only [List.cons.injEq, true_and] at h
      obtain ⟨hS, h⟩ := Dense.print_inj h
      simp only [List.cons.injEq, true_and] at h
      obtain ⟨hV, h⟩ := Dense.print_inj h
      simp only [List.cons.injEq, true_and, List.nil_append] at h
      exact ⟨.lowRank hU hS hV, h⟩
    | dense => simp [Mat.typeName] at ht
    | hier => simp [Mat.typeName] at ht
    | empty => simp [Mat.typeName] at ht
  | hier br bc f ih =>
    intro B x y ht h
    cases B with
    | hier br' bc' g =>
      have row : ∀ (n : Nat) (f : Nat → Nat → Mat R) (i : Nat) (t : List Tok),
          (((List.range n).flatMap (fun j => Tok.block (f i j).typeName i j :: (f i j).print sh) ++ [Tok.eol]) ++ t).head? ≠
            some .line := by
        intro n f i t
        cases n with
        | zero => simp
        | succ n => rw [List.range_eq_range', List.range'_succ]; simp
      rw [Mat.print, Mat.print, List.append_assoc, List.append_assoc, List.singleton_append, List.singleton_append] at h
      rw [List.range_eq_range' (n := br), List.range_eq_range' (n := br')] at h
      obtain ⟨h1, h2, h3⟩ := pieces_inj (P := fun i => bc = bc' ∧ ∀ j < bc, (f i j).Looks sh (g i j)) _ _ _
        (row bc f) (row bc' g) (by
          intro i t u h
          rw [List.append_assoc, List.append_assoc, List.singleton_append, List.singleton_append,
            List.range_eq_range', List.range_eq_range'] at h
          obtain ⟨h1, h2, h3⟩ := pieces_inj (P := fun j => (f i j).Looks sh (g i j)) _ _ _ (by simp) (by simp) (by
            intro j t u h
            simp only [List.cons_append, List.cons.injEq, Tok.block.injEq, and_true] at h
            exact ih i j (g i j) t u h.1 h.2) _ _ _ _ _ h
          exact ⟨⟨h1, fun j hj => h2 j (by omega) (by omega)⟩, h3⟩) _ _ _ _ _ h
      exact ⟨.hier h1 (fun hp => (h2 0 le_rfl (by omega)).1) fun i hi => (h2 i (by omega) (by omega)).2, h3⟩
    | dense => simp [Mat.typeName] at ht
    | lowRank => simp [Mat.typeName] at ht
    | empty => simp [Mat.typeName] at ht
  | empty m n =>
    intro B x y ht h
    cases B with
    | empty => exact ⟨.empty, by simpa [Mat.print] using h⟩
    | dense => simp [Mat.typeName] at ht
    | lowRank => simp [Mat.typeName] at ht
    | hier => simp [Mat.typeName] at ht

theorem Dense.Looks.print {sh : R → String} {d e : Dense R} (h : d.Looks sh e) : d.print sh = e.print sh := by
  obtain ⟨h1, h2, h3⟩ := h
  rw [Dense.print, Dense.print, ← h1]
  congr 1
  refine List.flatMap_congr fun i hi => ?_
  rw [List.mem_range] at hi
  rw [← h2 (by omega)]
  congr 1
  refine List.map_congr_left fun j hj => ?_
  rw [h3 i hi j (List.mem_range.1 hj)]

theorem Mat.Looks.typeName {sh : R → String} {A B : Mat R} (h : A.Looks sh B) : A.typeName = B.typeName := by
  cases h <;> rfl

/-- C65.  Matrices that look the same are printed the same: nothing else shows. -/
theorem C65_print_congr {sh : R → String} {A B : Mat R} (h : A.Looks sh B) : A.print sh = B.print sh := by
  induction h with
  | dense h => rw [Mat.print, Mat.print, h.print]
  | lowRank hU hS hV => rw [Mat.print, Mat.print, hU.print, hS.print, hV.print]
  | @hier br bc br' bc' f g hr hc h ih =>
    subst hr
    rw [Mat.print, Mat.print]
    congr 1
    refine List.flatMap_congr fun i hi => ?_
    rw [List.mem_range] at hi
    rw [← hc (by omega)]
    congr 1
    refine List.flatMap_congr fun j hj => ?_
    rw [ih i hi j (List.mem_range.1 hj), (h i hi j (List.mem_range.1 hj)).typeName]
  | empty => rfl

/-- C65.  The printed text determines the matrix up to the digits of its entries: two
matrices that have something to print and give the same text have the same class, the
same structure and the same entries as far as they are written. -/
theorem C65_print_determines {sh : R → String} {A B : Mat R} (hA : A.Shows) (hB : B.Shows)
    (h : A.print sh = B.print sh) : A.Looks sh B := by
  have head : ∀ C : Mat R, C.Shows → ∃ t, (C.print sh).head? = some t ∧
      ((∃ s, t = .num s) ↔ C.typeName = "Dense") ∧ ((∃ s, t = .factor s) ↔ C.typeName = "LowRank") ∧
      ((∃ n i j, t = .block n i j) ↔ C.typeName = "Hierarchical") := by
    intro C hC
    cases C with
    | dense d =>
      obtain ⟨h1, h2⟩ := hC
      obtain ⟨m, hm⟩ : ∃ m, d.rows = m + 1 := ⟨d.rows - 1, by omega⟩
      obtain ⟨n, hn⟩ : ∃ n, d.cols = n + 1 := ⟨d.cols - 1, by omega⟩
      refine ⟨.num (sh (d.val 0 0)), ?_, by simp [Mat.typeName]⟩
      rw [Mat.print, Dense.print, hm, hn, List.range_succ_eq_map, List.range_succ_eq_map]
      simp
    | lowRank l => exact ⟨.factor "U", by simp [Mat.print], by simp [Mat.typeName]⟩
    | hier br bc f =>
      obtain ⟨h1, h2⟩ := hC
      obtain ⟨m, rfl⟩ : ∃ m, br = m + 1 := ⟨br - 1, by omega⟩
      obtain ⟨n, rfl⟩ : ∃ n, bc = n + 1 := ⟨bc - 1, by omega⟩
      refine ⟨.block (f 0 0).typeName 0 0, ?_, by simp [Mat.typeName]⟩
      rw [Mat.print, List.range_succ_eq_map, List.range_succ_eq_map]
      simp
    | empty => exact hC.elim
  obtain ⟨t, a1, a2, a3, a4⟩ := head A hA
  obtain ⟨u, b1, b2, b3, b4⟩ := head B hB
  have e : t = u := by
    rw [h, b1] at a1
    exact (Option.some.inj a1).symm
  subst e
  have hk : A.typeName = B.typeName := by
    cases A with
    | dense => exact (b2.1 (a2.2 rfl)).symm
    | lowRank => exact (b3.1 (a3.2 rfl)).symm
    | hier => exact (b4.1 (a4.2 rfl)).symm
    | empty => exact hA.elim
  exact (Mat.print_inj A B [] [] hk (by rw [h])).1

/-- C65.  What the text does not show: the number of columns without rows, and the size
of `Empty`, also as a block; for `Empty` nothing is written at all. -/
theorem C65_hidden (sh : R → String) (m n m' n' : Nat) (f f' : Nat → Nat → R) :
    (Mat.dense ⟨0, n, f⟩).print sh = (Mat.dense ⟨0, n', f'⟩).print sh ∧
    (Mat.empty m n : Mat R).print sh = [] ∧ (Mat.empty m n : Mat R).print sh = (Mat.empty m' n').print sh ∧
    (Mat.hier 1 1 fun _ _ => .empty m n : Mat R).print sh = (Mat.hier 1 1 fun _ _ => .empty m' n').print sh :=
  ⟨C65_print_congr (.dense ⟨rfl, fun h => absurd h (lt_irrefl 0), fun i hi => absurd hi (Nat.not_lt_zero i)⟩),
    rfl, rfl, C65_print_congr (.hier rfl (fun _ => rfl) fun _ _ _ _ => .empty)⟩

/-! ### Examples -/

/-- A 1-by-2 block matrix of a 2-by-2 and a 2-by-1 matrix. -/
def printExample : Mat Nat :=
  .hier 1 2 fun _ j => if j = 0 then .dense ⟨2, 2, fun i j => 2 * i + j⟩ else .dense ⟨2, 1, fun i _ => 7 + i⟩

example : printExample.Shows ∧ printExample.print toString =
    [.block "Dense" 0 0, .num "0", .num "1", .eol, .num "2", .num "3", .eol, .line,
     .block "Dense" 0 1, .num "7", .eol, .num "8", .eol, .line, .eol, .line] := by
  refine ⟨⟨by decide, by decide⟩, by decide +kernel⟩

end Verif
