import Verif.Model.ClusterTree
import Verif.Spec.Partition

/-
Vocabulary for statements about cluster trees.
-/

namespace Verif
namespace ClusterTree

/-- Equal splitting is valid (`IndexRange.SplitOk`) at every internal node. -/
def SplitsOk (tr : ClusterTree) : Prop :=
  ∀ p s ch, tr.at? p = some (.node s ch) → s.rows.SplitOk s.br ∧ s.cols.SplitOk s.bc

/-- Value of a list of digits in base `b`, most significant digit first. -/
def digits (b : Nat) (p : List Nat) : Nat := p.foldl (fun a d => a * b + d) 0

end ClusterTree
end Verif
