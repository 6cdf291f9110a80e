import Verif.Model.LrAdd
import Verif.Spec.Gemm

/-
Two matrices that are stored alike: the same structure, dimensions and entries.  In the model an
entry of a `Dense` is a function of any two indices, so two values can differ outside their
dimensions; no such difference may show.
-/

namespace Verif

variable {R : Type}

/-- Both return, with related results, or both fail in the same way. -/
def Both {α β : Type _} (P : α → β → Prop) (x : Except Err α) (y : Except Err β) : Prop :=
  (∃ a b, x = .ok a ∧ y = .ok b ∧ P a b) ∨ ∃ e, x = .error e ∧ y = .error e

/-- The same recorded dimensions, rank and tolerance, and the same factors. -/
structure LowRank.Same (a b : LowRank R) : Prop where
  dim0 : a.dim0 = b.dim0
  dim1 : a.dim1 = b.dim1
  rank : a.rank = b.rank
  eps : a.eps = b.eps
  U : a.U.Same b.U
  S : a.S.Same b.S
  V : a.V.Same b.V

namespace Mat

/-- The same structure with the same entries: what the two store inside their dimensions is
equal. -/
def Same : Mat R → Mat R → Prop
  | .dense a, .dense b => a.Same b
  | .lowRank a, .lowRank b => a.Same b
  | .hier br bc A, .hier br' bc' B => br = br' ∧ bc = bc' ∧ ∀ i < br, ∀ j < bc, (A i j).Same (B i j)
  | .empty m n, .empty m' n' => m = m' ∧ n = n'
  | _, _ => False

/-- Every `Hierarchical` has at least one block. -/
def HasBlocks : Mat R → Prop
  | .hier br bc A => 0 < br ∧ 0 < bc ∧ ∀ i < br, ∀ j < bc, (A i j).HasBlocks
  | _ => True

end Mat

/-- The low-rank operations depend on what their arguments store, and on nothing else. -/
structure LrOps.Local (o : LrOps R) : Prop where
  add : ∀ a a' b b', a.Same a' → b.Same b' → Both LowRank.Same (o.add a b) (o.add a' b')
  ofRank : ∀ a a' k, a.Same a' → Both LowRank.Same (o.ofRank a k) (o.ofRank a' k)
  ofEps : ∀ a a' e, a.Same a' → Both LowRank.Same (o.ofEps a e) (o.ofEps a' e)
  ofHier : ∀ A A' k, A.HasBlocks → A.Same A' → Both LowRank.Same (o.ofHier A k) (o.ofHier A' k)

/-- The factorization kernels give equal results on matrices that store the same numbers.  Kernels
with this property exist for every choice of factorizations: those that read the stored part of
their argument. -/
structure Lapack.Local (L : Lapack R) : Prop where
  qr : ∀ A A' : Dense R, A.Same A' → L.qr A = L.qr A'
  rq : ∀ A A' : Dense R, A.Same A' → L.rq A = L.rq A'
  svd : ∀ A A' : Dense R, A.Same A' → L.svd A = L.svd A'
  truncRank : ∀ A A' : Dense R, A.Same A' → L.truncRank A = L.truncRank A'
  geqp3 : ∀ A A' : Dense R, A.Same A' → L.geqp3 A = L.geqp3 A'
  random : ∀ A A' : Dense R, A.Same A' → L.random A = L.random A'

/-- The LU kernel gives the same packed factors, and records interchanges alike, for matrices that
store the same numbers. -/
def LuLocal (lu : Dense R → Dense R × Bool) : Prop :=
  ∀ a a' : Dense R, a.Same a' → a.rows ≤ a.cols →
    (∀ i < a.rows, ∀ j < a.cols, (lu a).1.val i j = (lu a').1.val i j) ∧ (lu a).2 = (lu a').2

end Verif
