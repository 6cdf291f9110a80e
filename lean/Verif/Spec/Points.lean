import Verif.Spec.File

/-
Specification of geometry files (C60).
-/

namespace Verif

/-- `text` consists of the given words, each preceded by white space, and of `tail`, which is
empty or begins with white space. -/
inductive Words : List Char → List (List Char) → List Char → Prop where
  | nil {tail : List Char} (h : tail = [] ∨ ∃ c t, tail = c :: t ∧ isBlank c = true) : Words tail [] tail
  | cons {ws w text tail : List Char} {l : List (List Char)} (hne : ws ≠ []) (hws : ∀ c ∈ ws, isBlank c = true)
      (hw : IsWord w) (h : Words text l tail) : Words (ws ++ (w ++ text)) (w :: l) tail

/-- `chars` is the text of a geometry file that announces `n` points in `dim` dimensions and
goes on with the numbers `x`, then `tail`. -/
def IsGeometryFile {R : Type _} (int : List Char → Option Int) (num : List Char → Option R) (chars : List Char)
    (n dim : Int) (x : List R) (tail : List Char) : Prop :=
  ∃ (ws wn wd text : List Char) (items : List (List Char)), chars = ws ++ (wn ++ text) ∧
    (∀ c ∈ ws, isBlank c = true) ∧ IsWord wn ∧ int wn = some n ∧ int wd = some dim ∧
    Words text (wd :: items) tail ∧ items.map num = x.map some

end Verif
