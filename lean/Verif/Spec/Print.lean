import Verif.Model.Print

/-
Specification for C65: when two matrices look the same in print.
-/

namespace Verif

variable {R : Type}

/-- Same number of rows and columns and entries that are written the same way.  (Without
rows the number of columns does not show.) -/
def Dense.Looks (sh : R → String) (d e : Dense R) : Prop :=
  d.rows = e.rows ∧ (0 < d.rows → d.cols = e.cols) ∧ ∀ i < d.rows, ∀ j < d.cols, sh (d.val i j) = sh (e.val i j)

/-- Same class, same structure, and entries (of the factors) that are written the same
way.  The sizes of `Empty` blocks do not show. -/
inductive Mat.Looks (sh : R → String) : Mat R → Mat R → Prop
  | dense {d e : Dense R} (h : d.Looks sh e) : Mat.Looks sh (.dense d) (.dense e)
  | lowRank {l k : LowRank R} (hU : l.U.Looks sh k.U) (hS : l.S.Looks sh k.S) (hV : l.V.Looks sh k.V) :
      Mat.Looks sh (.lowRank l) (.lowRank k)
  | hier {br bc br' bc' : Nat} {f g : Nat → Nat → Mat R} (hr : br = br') (hc : 0 < br → bc = bc')
      (h : ∀ i < br, ∀ j < bc, Mat.Looks sh (f i j) (g i j)) : Mat.Looks sh (.hier br bc f) (.hier br' bc' g)
  | empty {m n m' n' : Nat} : Mat.Looks sh (.empty m n) (.empty m' n')

/-- The matrix has entries or blocks to print. -/
def Mat.Shows : Mat R → Prop
  | .dense d => 0 < d.rows ∧ 0 < d.cols
  | .lowRank _ => True
  | .hier br bc _ => 0 < br ∧ 0 < bc
  | .empty _ _ => False

end Verif
