import Verif.Model.Export

/-
Specification for the exported structure (C49).
-/

namespace Verif

variable {R : Type}

/-- Following the block indices `p` from `A` leads to the block `B`; `gs` are the
numbers of block rows and columns of the grids passed on the way. -/
inductive BlockPath : Mat R → List (Nat × Nat) → List (Nat × Nat) → Mat R → Prop where
  | here (A : Mat R) : BlockPath A [] [] A
  | step {br bc : Nat} {blk : Nat → Nat → Mat R} {a b : Nat} {p gs : List (Nat × Nat)} {B : Mat R}
      (ha : a < br) (hb : b < bc) (h : BlockPath (blk a b) p gs B) :
      BlockPath (.hier br bc blk) ((a, b) :: p) ((br, bc) :: gs) B

/-- Following `p` through the `children` of the exported object leads to `n`. -/
inductive JsonPath : JsonNode R → List (Nat × Nat) → JsonNode R → Prop where
  | here (J : JsonNode R) : JsonPath J [] J
  | step {f : JsonFields R} {br bc : Nat} {ch : Nat → Nat → JsonNode R} {a b : Nat}
      {p : List (Nat × Nat)} {n : JsonNode R}
      (ha : a < br) (hb : b < bc) (h : JsonPath (ch a b) p n) :
      JsonPath (.node f br bc ch) ((a, b) :: p) n

/-- The fields of an exported object. -/
def JsonNode.fields : JsonNode R → JsonFields R
  | .leaf f => f
  | .node f _ _ _ => f

/-- Number with the digits `ds` in the mixed radix `bs` (both from the most
significant position): each digit counts the blocks of all finer levels. -/
def mixedRadix : List Nat → List Nat → Nat
  | d :: ds, _ :: bs => d * bs.prod + mixedRadix ds bs
  | _, _ => 0

/-- Block row and block column of the block at path `p` among all blocks of its
level, for grids `gs`. -/
def absPos (p gs : List (Nat × Nat)) : Nat × Nat :=
  (mixedRadix (p.map Prod.fst) (gs.map Prod.fst), mixedRadix (p.map Prod.snd) (gs.map Prod.snd))

/-- All grids of the same level have the same numbers of block rows and columns. -/
def Mat.UniformGrids (A : Mat R) : Prop :=
  ∀ p gs B p' gs' B', BlockPath A p gs B → BlockPath A p' gs' B' → p.length = p'.length → gs = gs'

end Verif
