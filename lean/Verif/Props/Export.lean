import Verif.Spec.Export
import Verif.Lemmas.MatOps
import Mathlib.Tactic.Ring

/-
C49: the exported structure.
-/

namespace Verif
open Finset

variable {R : Type}

theorem getNRows_val {A : Mat R} {m : Nat} (h : A.getNRows = .ok m) : m = A.nRows := by
  induction A generalizing m with
  | dense | lowRank | empty => exact (Except.ok.inj h).symm
  | hier br bc blk ih =>
    simp only [Mat.getNRows, except_bind_eq_ok] at h
    obtain ⟨f, hf, h⟩ := h
    rw [← Except.ok.inj h, Mat.nRows]
    refine Finset.sum_congr rfl fun i hi => ?_
    have e := collect_ok hf i (by simpa using hi)
    split at e
    · exact ih i 0 e
    · cases e

theorem getNCols_val {A : Mat R} {m : Nat} (h : A.getNCols = .ok m) : m = A.nCols := by
  induction A generalizing m with
  | dense | lowRank | empty => exact (Except.ok.inj h).symm
  | hier br bc blk ih =>
    simp only [Mat.getNCols, except_bind_eq_ok] at h
    obtain ⟨f, hf, h⟩ := h
    rw [← Except.ok.inj h, Mat.nCols]
    refine Finset.sum_congr rfl fun i hi => ?_
    have e := collect_ok hf i (by simpa using hi)
    split at e
    · exact ih 0 i e
    · cases e

theorem JsonPath.functional {J n n' : JsonNode R} {p : List (Nat × Nat)} (h : JsonPath J p n)
    (h' : JsonPath J p n') : n = n' := by
  induction h with
  | here => cases h'; rfl
  | step ha hb h ih =>
    cases h' with
    | step _ _ h' => exact ih h'

section
variable [CommRing R]

theorem toJson_fields {sv : Dense R → List R} {A : Mat R} {i j l : Nat} {J : JsonNode R}
    (h : A.toJson sv i j l = .ok J) :
    J.fields.type = A.kind ∧ J.fields.rows = A.nRows ∧ J.fields.cols = A.nCols ∧
      (A.kind ≠ .empty → J.fields.level = some l ∧ J.fields.pos = some (i, j)) ∧
      (∀ d, A = .dense d → J.fields.svalues = some (sv d)) ∧
      (∀ k, A = .lowRank k → J.fields.rank = some k.rank ∧
        ∃ d, k.toDense = .ok d ∧ J.fields.svalues = some (sv d)) := by
  cases A with
  | dense d =>
    cases h
    exact ⟨rfl, rfl, rfl, fun _ => ⟨rfl, rfl⟩, fun _ e => by cases e; rfl, nofun⟩
  | empty m n =>
    cases h
    exact ⟨rfl, rfl, rfl, fun e => absurd rfl e, nofun, nofun⟩
  | lowRank k =>
    simp only [Mat.toJson, except_bind_eq_ok] at h
    obtain ⟨d, hd, h⟩ := h
    cases h
    exact ⟨rfl, rfl, rfl, fun _ => ⟨rfl, rfl⟩, nofun, fun _ e => by cases e; exact ⟨rfl, d, hd, rfl⟩⟩
  | hier br bc blk =>
    simp only [Mat.toJson, except_bind_eq_ok] at h
    obtain ⟨m, hm, n, hn, ch, -, h⟩ := h
    cases h
    exact ⟨rfl, getNRows_val hm, getNCols_val hn, fun _ => ⟨rfl, rfl⟩, nofun, nofun⟩

theorem toJson_path {sv : Dense R → List R} {A B : Mat R} {p gs : List (Nat × Nat)}
    (hp : BlockPath A p gs B) {i j l : Nat} {J : JsonNode R} (h : A.toJson sv i j l = .ok J) :
    ∃ n, JsonPath J p n ∧ B.toJson sv (i * (gs.map Prod.fst).prod + (absPos p gs).1)
      (j * (gs.map Prod.snd).prod + (absPos p gs).2) (l + p.length) = .ok n := by
  induction hp generalizing i j l J with
  | here A => exact ⟨J, .here J, by simpa [absPos, mixedRadix] using h⟩
  | @step br bc blk a b p gs B ha hb hp ih =>
    simp only [Mat.toJson, except_bind_eq_ok] at h
    obtain ⟨m, -, n, -, ch, hch, h⟩ := h
    cases h
    obtain ⟨x, hx, e⟩ := ih (collect2_ok hch a ha b hb)
    refine ⟨x, .step ha hb hx, ?_⟩
    rw [← e]
    congr 1
    · simp only [absPos, mixedRadix, List.map_cons, List.prod_cons]; ring
    · simp only [absPos, mixedRadix, List.map_cons, List.prod_cons]; ring
    · simp only [List.length_cons]; ring

theorem toJson_path_inv {sv : Dense R → List R} {A : Mat R} {J n : JsonNode R}
    {p : List (Nat × Nat)} (hp : JsonPath J p n) {i j l : Nat} (h : A.toJson sv i j l = .ok J) :
    ∃ gs B, BlockPath A p gs B := by
  induction hp generalizing A i j l with
  | here J => exact ⟨[], A, .here A⟩
  | @step f br bc ch a b p n ha hb hp ih =>
    cases A with
    | dense d => cases h
    | empty m n => cases h
    | lowRank k =>
      simp only [Mat.toJson, except_bind_eq_ok] at h
      obtain ⟨d, hd, h⟩ := h
      cases h
    | hier br' bc' blk =>
      simp only [Mat.toJson, except_bind_eq_ok] at h
      obtain ⟨m, -, n, -, ch, hch, h⟩ := h
      cases h
      obtain ⟨gs, B, hB⟩ := ih (collect2_ok hch a ha b hb)
      exact ⟨_, _, .step ha hb hB⟩

/-- C49.  The exported document mirrors the block tree: the paths through nested
`children` are exactly the block paths of the matrix, so that each block is listed
once.  The object of a block carries its class and its dimensions, its level (the
length of the path) and its block coordinates among the blocks of that level, a
dense or low-rank block also its singular values (and rank).

Partial: an `Empty` block has no level and no coordinates (`C49_empty_unplaced`), and
the coordinates identify a block within its level only if the grids of one level are
equal (`C49_positions_unique_partial`, `C49_positions_ambiguous`). -/
theorem C49_mirrors_partial {sv : Dense R → List R} {A : Mat R} {J : JsonNode R}
    (h : A.writeJson sv = .ok J) :
    (∀ p, (∃ gs B, BlockPath A p gs B) ↔ ∃ n, JsonPath J p n) ∧
    (∀ p n n', JsonPath J p n → JsonPath J p n' → n = n') ∧
    ∀ p gs B n, BlockPath A p gs B → JsonPath J p n →
      n.fields.type = B.kind ∧ n.fields.rows = B.nRows ∧ n.fields.cols = B.nCols ∧
      (B.kind ≠ .empty → n.fields.level = some p.length ∧ n.fields.pos = some (absPos p gs)) ∧
      (∀ d, B = .dense d → n.fields.svalues = some (sv d)) ∧
      (∀ l, B = .lowRank l → n.fields.rank = some l.rank ∧
        ∃ d, l.toDense = .ok d ∧ n.fields.svalues = some (sv d)) := by
  refine ⟨fun p => ⟨?_, ?_⟩, fun p n n' a b => a.functional b, ?_⟩
  · rintro ⟨gs, B, hp⟩
    obtain ⟨n, hn, -⟩ := toJson_path hp h
    exact ⟨n, hn⟩
  · rintro ⟨n, hn⟩
    exact toJson_path_inv hn h
  · intro p gs B n hp hn
    obtain ⟨n', hn', e⟩ := toJson_path hp h
    cases hn.functional hn'
    have := toJson_fields e
    simpa using this

/-- C49.  The export of a consistent matrix always succeeds. -/
theorem C49_returns (sv : Dense R → List R) (A : Mat R) (w : A.WF) :
    ∃ J, A.writeJson sv = .ok J := by
  suffices ∀ i j l, ∃ J, A.toJson sv i j l = .ok J from this 0 0 0
  induction A with
  | dense | empty => intro i j l; exact ⟨_, rfl⟩
  | lowRank k =>
    intro i j l
    obtain ⟨d, hd, -⟩ := Mat.LowRank_toDense_ok k w
    exact ⟨_, by simp only [Mat.toJson, hd, except_bind_ok]; rfl⟩
  | hier br bc blk ih =>
    intro i j l
    have h1 := Mat.getNRows_eq _ w
    have h2 := Mat.getNCols_eq _ w
    simp only [Mat.WF] at w
    obtain ⟨ch, hch⟩ := collect2_exists (m := br) (n := bc)
      (f := fun a b => (blk a b).toJson sv (i * br + a) (j * bc + b) (l + 1))
      (fun a ha b hb => ih a b (w.2.2 a ha b hb).1 _ _ _)
    exact ⟨_, by simp only [Mat.toJson, h1, h2, hch, except_bind_ok]; rfl⟩

end

theorem mixedRadix_lt {ds bs : List Nat} (h : List.Forall₂ (· < ·) ds bs) :
    mixedRadix ds bs < bs.prod := by
  induction h with
  | nil => simp [mixedRadix]
  | @cons d b ds bs hd h ih =>
    simp only [mixedRadix, List.prod_cons]
    calc d * bs.prod + mixedRadix ds bs < d * bs.prod + bs.prod := by omega
      _ = (d + 1) * bs.prod := by ring
      _ ≤ b * bs.prod := Nat.mul_le_mul_right _ hd

theorem mixedRadix_inj {ds ds' bs : List Nat} (h : List.Forall₂ (· < ·) ds bs)
    (h' : List.Forall₂ (· < ·) ds' bs) (e : mixedRadix ds bs = mixedRadix ds' bs) : ds = ds' := by
  induction h generalizing ds' with
  | nil => cases h'; rfl
  | @cons d b ds bs hd h ih =>
    cases h' with
    | @cons d' _ ds' _ hd' h' =>
      simp only [mixedRadix] at e
      have l := mixedRadix_lt h
      have l' := mixedRadix_lt h'
      have : d = d' := by
        have p : 0 < bs.prod := by omega
        have e1 : (d * bs.prod + mixedRadix ds bs) / bs.prod = d := by
          rw [Nat.mul_comm, Nat.mul_add_div p, Nat.div_eq_of_lt l, Nat.add_zero]
        have e2 : (d' * bs.prod + mixedRadix ds' bs) / bs.prod = d' := by
          rw [Nat.mul_comm, Nat.mul_add_div p, Nat.div_eq_of_lt l', Nat.add_zero]
        rw [← e1, ← e2, e]
      subst this
      rw [ih h' (by omega)]

theorem BlockPath.bounds {A B : Mat R} {p gs : List (Nat × Nat)} (h : BlockPath A p gs B) :
    List.Forall₂ (· < ·) (p.map Prod.fst) (gs.map Prod.fst) ∧
    List.Forall₂ (· < ·) (p.map Prod.snd) (gs.map Prod.snd) := by
  induction h with
  | here => exact ⟨.nil, .nil⟩
  | step ha hb h ih => exact ⟨.cons ha ih.1, .cons hb ih.2⟩

/-- C49.  If all grids of one level have the same numbers of block rows and columns,
two exported objects with the same level and coordinates belong to the same block. -/
theorem C49_positions_unique_partial [CommRing R] {sv : Dense R → List R} {A : Mat R}
    {J n n' : JsonNode R} (h : A.writeJson sv = .ok J) (hu : A.UniformGrids)
    {p p' : List (Nat × Nat)} (hn : JsonPath J p n) (hn' : JsonPath J p' n')
    (hk : n.fields.type ≠ .empty) (hk' : n'.fields.type ≠ .empty)
    (hl : n.fields.level = n'.fields.level) (hp : n.fields.pos = n'.fields.pos) : p = p' := by
  obtain ⟨hm, -, hf⟩ := C49_mirrors_partial h
  obtain ⟨gs, B, hB⟩ := (hm p).2 ⟨n, hn⟩
  obtain ⟨gs', B', hB'⟩ := (hm p').2 ⟨n', hn'⟩
  have f := hf p gs B n hB hn
  have f' := hf p' gs' B' n' hB' hn'
  have q := f.2.2.2.1 (by rw [← f.1]; exact hk)
  have q' := f'.2.2.2.1 (by rw [← f'.1]; exact hk')
  rw [q.1, q'.1] at hl
  rw [q.2, q'.2] at hp
  have hl := Option.some.inj hl
  have hp := Option.some.inj hp
  have hg := hu _ _ _ _ _ _ hB hB' hl
  subst hg
  simp only [absPos, Prod.mk.injEq] at hp
  have e1 := mixedRadix_inj hB.bounds.1 hB'.bounds.1 hp.1
  have e2 := mixedRadix_inj hB.bounds.2 hB'.bounds.2 hp.2
  have z : ∀ l : List (Nat × Nat), l = List.zip (l.map Prod.fst) (l.map Prod.snd) := by
    intro l
    induction l with
    | nil => rfl
    | cons x xs ih => simp only [List.map_cons, List.zip_cons_cons, ← ih]
  rw [z p, z p', e1, e2]

/-- C49, negative.  An `Empty` block is listed without level and coordinates, and the
program continues after the error message. -/
theorem C49_empty_unplaced [CommRing R] {sv : Dense R → List R} {A : Mat R} {J n : JsonNode R}
    (h : A.writeJson sv = .ok J) {p gs : List (Nat × Nat)} {r c : Nat}
    (hB : BlockPath A p gs (.empty r c)) (hn : JsonPath J p n) :
    n.fields.level = none ∧ n.fields.pos = none := by
  obtain ⟨n', hn', e⟩ := toJson_path hB h
  cases hn.functional hn'
  cases e
  exact ⟨rfl, rfl⟩

/-- A matrix whose first block has three block rows and whose second has two. -/
def raggedExample : Mat Int :=
  .hier 2 1 fun i _ => .hier (3 - i) 1 fun _ _ => .dense (Dense.zero 1 1)

/-- C49, negative.  With different grids on one level two blocks can be exported with
the same level and coordinates. -/
theorem C49_positions_ambiguous :
    ∃ (sv : Dense Int → List Int) (A : Mat Int) (J n n' : JsonNode Int) (p p' : List (Nat × Nat)),
      A.WF ∧ A.writeJson sv = .ok J ∧ JsonPath J p n ∧ JsonPath J p' n' ∧ p ≠ p' ∧
      n.fields.type = .dense ∧ n'.fields.type = .dense ∧
      n.fields.level = n'.fields.level ∧ n.fields.pos = n'.fields.pos := by
  have w : raggedExample.WF := by
    refine ⟨by omega, by omega, fun i hi j hj => ⟨⟨by omega, by omega, ?_⟩, rfl, ?_⟩⟩
    · exact fun _ _ _ _ => ⟨trivial, rfl, rfl⟩
    · rfl
  obtain ⟨J, hJ⟩ := C49_returns (fun _ => []) raggedExample w
  obtain ⟨hm, -, hf⟩ := C49_mirrors_partial hJ
  have b1 : BlockPath raggedExample [(0, 0), (2, 0)] [(2, 1), (3, 1)] (.dense (Dense.zero 1 1)) :=
    .step (by omega) (by omega) (.step (by omega) (by omega) (.here _))
  have b2 : BlockPath raggedExample [(1, 0), (0, 0)] [(2, 1), (2, 1)] (.dense (Dense.zero 1 1)) :=
    .step (by omega) (by omega) (.step (by omega) (by omega) (.here _))
  obtain ⟨n, hn⟩ := (hm _).1 ⟨_, _, b1⟩
  obtain ⟨n', hn'⟩ := (hm _).1 ⟨_, _, b2⟩
  have f := hf _ _ _ _ b1 hn
  have f' := hf _ _ _ _ b2 hn'
  refine ⟨_, _, J, n, n', _, _, w, hJ, hn, hn', by decide, f.1, f'.1, ?_, ?_⟩
  · rw [(f.2.2.2.1 (by decide)).1, (f'.2.2.2.1 (by decide)).1]; rfl
  · rw [(f.2.2.2.1 (by decide)).2, (f'.2.2.2.1 (by decide)).2]; rfl

/-- A matrix with two levels, equal grids. -/
def uniformExample : Mat Int :=
  .hier 2 2 fun i j => if i = j then .hier 2 2 fun _ _ => .dense (Dense.zero 1 1)
    else .dense (Dense.zero 2 2)

example : uniformExample.WF ∧ uniformExample.UniformGrids ∧
    ∃ J, uniformExample.writeJson (fun _ => []) = .ok J := by
  have w : uniformExample.WF := by
    refine ⟨by omega, by omega, fun i hi j hj => ?_⟩
    have : i = 0 ∨ i = 1 := by omega
    have : j = 0 ∨ j = 1 := by omega
    rcases ‹i = 0 ∨ i = 1› with rfl | rfl <;> rcases ‹j = 0 ∨ j = 1› with rfl | rfl
    · exact ⟨⟨by omega, by omega, fun _ _ _ _ => ⟨trivial, rfl, rfl⟩⟩, rfl, rfl⟩
    · exact ⟨trivial, rfl, rfl⟩
    · exact ⟨trivial, rfl, rfl⟩
    · exact ⟨⟨by omega, by omega, fun _ _ _ _ => ⟨trivial, rfl, rfl⟩⟩, rfl, rfl⟩
  refine ⟨w, ?_, C49_returns _ _ w⟩
  have key : ∀ p gs B, BlockPath uniformExample p gs B → gs = List.replicate p.length (2, 2) := by
    intro p gs B h
    cases h with
    | here => rfl
    | step ha hb h =>
      rename_i a b p gs
      by_cases e : a = b
      · simp only [e, if_true] at h
        cases h with
        | here => rfl
        | step _ _ h =>
          cases h
          rfl
      · simp only [e, if_false] at h
        cases h
        rfl
  intro p gs B p' gs' B' h h' e
  rw [key _ _ _ h, key _ _ _ h', e]

end Verif
