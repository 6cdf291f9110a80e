import Verif.Lemmas.IndexRange
import Mathlib.Tactic.Ring

/-
C01, C02: splitting index ranges.
-/

namespace Verif
open IndexRange

/-- C01, exact characterisation.  Splitting always returns `k` parts; they
partition the range precisely when `⌈n/k⌉ * (k-1) ≤ n`. -/
theorem C01_split_partition_iff (s : Int) (n k : Nat) (hk : 1 ≤ k) :
    ((⟨s, n⟩ : IndexRange).split k).length = k ∧
    (IsPartition ⟨s, n⟩ ((⟨s, n⟩ : IndexRange).split k) ↔
      (n + k - 1) / k * (k - 1) ≤ n) := by
  refine ⟨length_split _ _, ?_⟩
  have e : (⟨s, n⟩ : IndexRange).SplitOk k ↔ (n + k - 1) / k * (k - 1) ≤ n := by
    unfold SplitOk
    have h1 : ((n : Int) + k - 1) = ((n + k - 1 : Nat) : Int) := by omega
    have h2 : ((k : Int) - 1) = ((k - 1 : Nat) : Int) := by omega
    simp only [h1, h2]
    exact_mod_cast Iff.rfl
  rw [← e]
  constructor
  · intro h
    have hm : (⟨s, n⟩ : IndexRange).splitChild k ((k - 1 : Nat) : Int)
        ∈ (⟨s, n⟩ : IndexRange).split k := by
      simp only [split, List.mem_map, List.mem_range]
      exact ⟨k - 1, by omega, rfl⟩
    have h0 := h.nonneg _ hm
    have h2 : (((k - 1 : Nat)) : Int) = (k : Int) - 1 := by omega
    simp only [splitChild, h2, if_true] at h0
    rw [splitOk_iff _ _ (by simp) hk]
    show Int.tdiv _ _ * _ ≤ (n : Int)
    simp only at h0 ⊢
    omega
  · exact split_isPartition _ _ (by simp) hk

/-- C01 (partial): the full claim "for every `n` and `k`" is false, see
`C01_split_not_always_partition`.  It holds for every start if `k` divides `n`,
or there are at most two parts, or there are at least `(k-1)^2` indices. -/
theorem C01_split_partition_partial (s : Int) (n k : Nat) (hk : 1 ≤ k)
    (h : k ∣ n ∨ k ≤ 2 ∨ (k - 1) * (k - 1) ≤ n) :
    ((⟨s, n⟩ : IndexRange).split k).length = k ∧
    IsPartition ⟨s, n⟩ ((⟨s, n⟩ : IndexRange).split k) := by
  refine ⟨length_split _ _, (C01_split_partition_iff s n k hk).2.2 ?_⟩
  obtain ⟨m, rfl⟩ : ∃ m, k = m + 1 := ⟨k - 1, by omega⟩
  have e1 : n + (m + 1) - 1 = n + m := by omega
  have e2 : m + 1 - 1 = m := by omega
  rw [e1, e2]
  rw [e2] at h
  generalize hq : (n + m) / (m + 1) = q
  have hdm := Nat.div_add_mod (n + m) (m + 1)
  have hmod := Nat.mod_lt (n + m) (show 0 < m + 1 by omega)
  rw [hq] at hdm
  have e3 : (m + 1) * q = m * q + q := by ring
  have e4 : q * m = m * q := Nat.mul_comm _ _
  rcases h with ⟨c, rfl⟩ | h | h
  · -- k ∣ n
    have : q = c := by
      rw [← hq, Nat.add_comm, Nat.add_mul_div_left _ _ (by omega), Nat.div_eq_of_lt (by omega)]
      omega
    subst this
    omega
  · have : m = 0 ∨ m = 1 := by omega
    rcases this with rfl | rfl <;> omega
  · -- m*m ≤ n : then q ≥ m, and q*(m+1) ≤ n+m gives q*m ≤ n + m - q ≤ n
    have hqm : m ≤ q := by
      by_contra hlt
      have h1 : q + 1 ≤ m := by omega
      have h2 : (m + 1) * (q + 1) ≤ (m + 1) * m := Nat.mul_le_mul_left _ h1
      have h3 : (m + 1) * m = m * m + m := by ring
      have h4 : (m + 1) * (q + 1) = (m + 1) * q + (m + 1) := by ring
      omega
    omega

/-- C01, negative side: five indices into four parts give a part of length -1. -/
theorem C01_split_not_always_partition :
    ¬ ∀ (s : Int) (n k : Nat), 1 ≤ k →
      IsPartition ⟨s, n⟩ ((⟨s, n⟩ : IndexRange).split k) := by
  intro h
  have := (h 0 5 4 (by omega)).nonneg ⟨6, -1⟩ (by decide)
  simp at this

/-- The failure is not an isolated one: for every `k ≥ 3` there is a length that
is not partitioned. -/
theorem C01_split_fails_for_every_k (k : Nat) (hk : 3 ≤ k) (s : Int) :
    ∃ n : Nat, 1 ≤ n ∧ ¬ IsPartition ⟨s, n⟩ ((⟨s, n⟩ : IndexRange).split k) := by
  by_cases h3 : k = 3
  · subst h3
    exact ⟨1, by omega, fun h => by
      have := (C01_split_partition_iff s 1 3 (by omega)).2.1 h
      revert this; decide⟩
  · refine ⟨k + 1, by omega, fun h => ?_⟩
    have := (C01_split_partition_iff s (k + 1) k (by omega)).2.1 h
    have e : (k + 1 + k - 1) / k = 2 := by
      have : k + 1 + k - 1 = 2 * k := by omega
      rw [this, Nat.mul_div_cancel _ (by omega)]
    rw [e] at this
    omega

-- hypotheses are met by ordinary and by uneven splits
example : IsPartition ⟨7, 10⟩ ((⟨7, 10⟩ : IndexRange).split 3) :=
  (C01_split_partition_partial 7 10 3 (by omega) (by omega)).2
example : (⟨7, 10⟩ : IndexRange).split 3 = [⟨7, 4⟩, ⟨11, 4⟩, ⟨15, 2⟩] := by decide
example : (⟨0, 5⟩ : IndexRange).split 4 = [⟨0, 2⟩, ⟨2, 2⟩, ⟨4, 2⟩, ⟨6, -1⟩] := by decide

/-- C02, `split_at`: two adjacent ranges that partition the original one. -/
theorem C02_split_at_partition (r : IndexRange) (i : Int) (h0 : 0 ≤ i) (h1 : i ≤ r.n) :
    (r.splitAt i).length = 2 ∧ (r.splitAt i).map IndexRange.n = [i, r.n - i] ∧
    IsPartition r (r.splitAt i) := by
  refine ⟨rfl, rfl, ?_⟩
  apply isPartition_of_chain
  · intro p hp
    simp only [splitAt, List.mem_cons, List.not_mem_nil, or_false] at hp
    rcases hp with rfl | rfl
    · exact h0
    · show 0 ≤ r.n - i; omega
  · intro _; rfl
  · intro j hj
    have : j = 0 := by simp [splitAt] at hj; omega
    subst this; rfl
  · intro _
    show r.start + i + (r.n - i) = r.start + r.n
    omega
  · intro h; simp [splitAt] at h

theorem splitLikeFrom_map_n (s : Int) (sizes : List Int) :
    (splitLikeFrom s sizes).map IndexRange.n = sizes := by
  induction sizes generalizing s with
  | nil => rfl
  | cons c cs ih => simp [splitLikeFrom, ih]

theorem splitLikeFrom_length (s : Int) (sizes : List Int) :
    (splitLikeFrom s sizes).length = sizes.length := by
  rw [← List.length_map (f := IndexRange.n), splitLikeFrom_map_n]

theorem splitLikeFrom_getElem (s : Int) (sizes : List Int) (i : Nat)
    (h : i < (splitLikeFrom s sizes).length) :
    (splitLikeFrom s sizes)[i].start = s + (sizes.take i).sum ∧
    (splitLikeFrom s sizes)[i].n = sizes[i]'(by rw [splitLikeFrom_length] at h; exact h) := by
  induction sizes generalizing s i with
  | nil => simp [splitLikeFrom] at h
  | cons c cs ih =>
    cases i with
    | zero => simp [splitLikeFrom]
    | succ i =>
      simp only [splitLikeFrom, List.getElem_cons_succ, List.take_succ_cons, List.sum_cons]
      have := ih (s + c) i (by simpa [splitLikeFrom] using h)
      refine ⟨?_, this.2⟩
      rw [this.1]; omega

/-- C02, `split_like` on the list of block sizes of the hierarchical matrix
(see `C02_split_like_partition_mat` for the matrix itself): one part per block
with the size of the block, tiling `[0, total)`. -/
theorem C02_split_like_partition (r : IndexRange) (sizes : List Int) (hs : ∀ c ∈ sizes, 0 ≤ c) :
    (r.splitLike sizes).map IndexRange.n = sizes ∧
    IsPartition ⟨0, sizes.sum⟩ (r.splitLike sizes) := by
  refine ⟨splitLikeFrom_map_n 0 sizes, ?_⟩
  show IsPartition _ (splitLikeFrom 0 sizes)
  apply isPartition_of_chain
  · intro p hp
    apply hs
    rw [← splitLikeFrom_map_n 0 sizes]
    exact List.mem_map.2 ⟨p, hp, rfl⟩
  · intro h
    rw [(splitLikeFrom_getElem 0 sizes 0 h).1]; simp
  · intro i h
    obtain ⟨a1, a2⟩ := splitLikeFrom_getElem 0 sizes i (by omega)
    obtain ⟨b1, b2⟩ := splitLikeFrom_getElem 0 sizes (i + 1) h
    have hl : i < sizes.length := by
      have := h; rw [splitLikeFrom_length] at this; omega
    rw [a1, a2, b1, List.take_add_one, List.sum_append, List.getElem?_eq_getElem hl]
    simp
  · intro h
    obtain ⟨a1, a2⟩ := splitLikeFrom_getElem 0 sizes ((splitLikeFrom 0 sizes).length - 1) (by omega)
    rw [a1, a2]
    have hl : 0 < sizes.length := by rwa [splitLikeFrom_length] at h
    have hl2 : (splitLikeFrom 0 sizes).length - 1 < sizes.length := by
      rw [splitLikeFrom_length]; omega
    have e : sizes.take ((splitLikeFrom 0 sizes).length - 1) ++
        [sizes[(splitLikeFrom 0 sizes).length - 1]] = sizes := by
      simp only [splitLikeFrom_length]
      rw [← List.dropLast_eq_take]
      have hne : sizes ≠ [] := by rintro rfl; simp at hl
      rw [← List.getLast_eq_getElem hne]
      exact List.dropLast_concat_getLast hne
    have := congrArg List.sum e
    rw [List.sum_append] at this
    simp at this ⊢
    omega
  · intro h
    have : sizes = [] := by
      rw [splitLikeFrom_length] at h
      exact List.length_eq_zero_iff.1 h
    subst this; simp

example : IsPartition ⟨0, 7⟩ ((⟨3, 7⟩ : IndexRange).splitLike [2, 0, 5]) :=
  (C02_split_like_partition _ [2, 0, 5] (by decide)).2
example : IsPartition ⟨3, 7⟩ ((⟨3, 7⟩ : IndexRange).splitAt 2) :=
  (C02_split_at_partition _ 2 (by decide) (by decide)).2.2

end Verif
