import Verif.Model.IndexRange
import Mathlib.Logic.ExistsUnique

/-
Specification of "the sub-ranges partition the range": independent of how the
sub-ranges are computed.
-/

namespace Verif

/-- Index `x` belongs to the range. -/
def IndexRange.Has (r : IndexRange) (x : Int) : Prop := r.start ≤ x ∧ x < r.start + r.n

/-- `parts` is an ordered, gap-free, overlap-free cover of `r` by ranges of
non-negative length. -/
structure IsPartition (r : IndexRange) (parts : List IndexRange) : Prop where
  /-- no part has negative length -/
  nonneg : ∀ p ∈ parts, 0 ≤ p.n
  /-- the first part starts where the range starts -/
  first : ∀ (h : 0 < parts.length), (parts[0]).start = r.start
  /-- each part starts where the previous one ends -/
  adjacent : ∀ (i : Nat) (h : i + 1 < parts.length),
    (parts[i]).start + (parts[i]).n = (parts[i + 1]).start
  /-- every index of the range is in exactly one part -/
  cover : ∀ x, r.Has x → ∃! i : Nat, ∃ h : i < parts.length, (parts[i]).Has x
  /-- no part leaves the range -/
  inside : ∀ p ∈ parts, ∀ x, p.Has x → r.Has x

/-- Rounding the part length up to `⌈n/k⌉` leaves room for the last part:
`⌈n/k⌉ * (k-1) ≤ n`. -/
def IndexRange.SplitOk (r : IndexRange) (k : Nat) : Prop :=
  (r.n + k - 1) / k * (k - 1) ≤ r.n

instance (r : IndexRange) (k : Nat) : Decidable (r.SplitOk k) := by
  unfold IndexRange.SplitOk; infer_instance

end Verif
