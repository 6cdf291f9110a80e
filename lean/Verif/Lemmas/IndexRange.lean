import Verif.Spec.Partition

namespace Verif
namespace IndexRange

@[simp] theorem length_split (r : IndexRange) (k : Nat) : (r.split k).length = k := by
  simp [split]

theorem getElem_split (r : IndexRange) (k i : Nat) (h : i < (r.split k).length) :
    (r.split k)[i] = r.splitChild k i := by
  simp [split]

/-- ceiling division used by the code -/
theorem ceil_bounds (n : Int) (k : Nat) (hn : 0 ≤ n) (hk : 1 ≤ k) :
    let c := Int.tdiv (n + k - 1) k
    0 ≤ c ∧ n ≤ c * k ∧ c * k ≤ n + k - 1 := by
  intro c
  have hk' : (0:Int) < k := by omega
  have hc : c = (n + k - 1) / (k:Int) := by
    show Int.tdiv _ _ = _
    rw [Int.tdiv_eq_ediv_of_nonneg (by omega)]
  have h1 := Int.mul_ediv_add_emod (n + k - 1) k
  have h2 := Int.emod_nonneg (n + k - 1) (show (k:Int) ≠ 0 by omega)
  have h3 := Int.emod_lt_of_pos (n + k - 1) hk'
  have h4 : 0 ≤ c := by rw [hc]; exact Int.ediv_nonneg (by omega) (by omega)
  rw [← hc] at h1
  have h5 : c * (k:Int) = k * c := Int.mul_comm _ _
  refine ⟨h4, ?_, ?_⟩ <;> omega

end IndexRange

/-- A list of ranges that chains and has non-negative lengths covers what lies
between its two ends, each point exactly once. -/
theorem isPartition_of_chain (r : IndexRange) (parts : List IndexRange)
    (nonneg : ∀ p ∈ parts, 0 ≤ p.n)
    (first : ∀ (h : 0 < parts.length), (parts[0]).start = r.start)
    (adjacent : ∀ (i : Nat) (h : i + 1 < parts.length),
      (parts[i]).start + (parts[i]).n = (parts[i + 1]).start)
    (last : ∀ (h : 0 < parts.length),
      (parts[parts.length - 1]).start + (parts[parts.length - 1]).n = r.start + r.n)
    (empty : parts.length = 0 → r.n ≤ 0) :
    IsPartition r parts := by
  have nn : ∀ (i : Nat) (h : i < parts.length), 0 ≤ (parts[i]).n := fun i h =>
    nonneg _ (List.getElem_mem h)
  -- monotonicity
  have mono : ∀ (d i : Nat) (h : i + d < parts.length),
      (parts[i]'(by omega)).start ≤ (parts[i + d]).start := by
    intro d
    induction d with
    | zero => intro i h; exact Int.le_refl _
    | succ d ih =>
      intro i h
      have h1 := ih i (by omega)
      have h2 := adjacent (i + d) (by omega)
      have h3 := nn (i + d) (by omega)
      have : i + (d + 1) = i + d + 1 := by omega
      simp only [this]
      omega
  have sep : ∀ (i j : Nat) (hi : i < parts.length) (hj : j < parts.length), i < j →
      (parts[i]).start + (parts[i]).n ≤ (parts[j]).start := by
    intro i j hi hj hij
    have h1 := adjacent i (by omega)
    have h2 := mono (j - (i + 1)) (i + 1) (by omega)
    have : i + 1 + (j - (i + 1)) = j := by omega
    simp only [this] at h2
    omega
  have exi : ∀ (m : Nat) (hm : m < parts.length) (x : Int), r.start ≤ x →
      x < (parts[m]).start + (parts[m]).n →
      ∃ i : Nat, ∃ h : i < parts.length, (parts[i]).Has x := by
    intro m
    induction m with
    | zero =>
      intro hm x h1 h2
      refine ⟨0, hm, ?_, h2⟩
      rw [first hm]; exact h1
    | succ m ih =>
      intro hm x h1 h2
      by_cases hx : x < (parts[m + 1]).start
      · exact ih (by omega) x h1 (by rw [adjacent m hm]; exact hx)
      · exact ⟨m + 1, hm, by omega, h2⟩
  refine ⟨nonneg, first, adjacent, ?_, ?_⟩
  · intro x hx
    have hlen : 0 < parts.length := by
      rcases Nat.eq_zero_or_pos parts.length with h | h
      · have := empty h
        have h1 := hx.1
        have h2 := hx.2
        omega
      · exact h
    obtain ⟨i, hi, hxi⟩ := exi (parts.length - 1) (by omega) x hx.1 (by
      rw [last hlen]; exact hx.2)
    refine ⟨i, ⟨hi, hxi⟩, ?_⟩
    rintro j ⟨hj, hxj⟩
    rcases Nat.lt_trichotomy i j with h | h | h
    · have := sep i j hi hj h
      have h1 := hxi.2
      have h2 := hxj.1
      omega
    · exact h.symm
    · have := sep j i hj hi h
      have h1 := hxj.2
      have h2 := hxi.1
      omega
  · intro p hp x hx
    obtain ⟨i, hi, rfl⟩ := List.getElem_of_mem hp
    have hlen : 0 < parts.length := by omega
    have h1 := mono i 0 (by omega)
    have h2 := first hlen
    have h3 : (parts[i]).start + (parts[i]).n ≤ r.start + r.n := by
      by_cases h : i = parts.length - 1
      · have := last hlen
        simp only [← h] at this
        omega
      · have h4 := sep i (parts.length - 1) hi (by omega) (by omega)
        have h5 := last hlen
        have h6 := nn (parts.length - 1) (by omega)
        omega
    simp only [Nat.zero_add] at h1
    exact ⟨by have := hx.1; omega, by have := hx.2; omega⟩

namespace IndexRange

theorem splitChild_last (r : IndexRange) (k : Nat) (hk : 1 ≤ k) :
    (r.splitChild k ((k - 1 : Nat) : Int)).start + (r.splitChild k ((k - 1 : Nat) : Int)).n
      = r.start + r.n := by
  have : (((k - 1 : Nat)) : Int) = (k : Int) - 1 := by omega
  simp only [splitChild, this, if_true]
  omega

theorem splitChild_adjacent (r : IndexRange) (k i : Nat) (h : i + 1 < k) :
    (r.splitChild k i).start + (r.splitChild k i).n = (r.splitChild k ((i + 1 : Nat) : Int)).start := by
  have h1 : ¬ ((i : Int) = (k : Int) - 1) := by omega
  simp only [splitChild, h1, if_false]
  have : ((i + 1 : Nat) : Int) = (i : Int) + 1 := by omega
  rw [this, Int.mul_add]
  omega

theorem splitOk_iff (r : IndexRange) (k : Nat) (hn : 0 ≤ r.n) (hk : 1 ≤ k) :
    r.SplitOk k ↔ Int.tdiv (r.n + k - 1) k * (k - 1) ≤ r.n := by
  unfold SplitOk
  rw [Int.tdiv_eq_ediv_of_nonneg (by omega)]

theorem split_isPartition (r : IndexRange) (k : Nat) (hn : 0 ≤ r.n) (hk : 1 ≤ k)
    (hok : r.SplitOk k) : IsPartition r (r.split k) := by
  obtain ⟨hc, -, -⟩ := ceil_bounds r.n k hn hk
  apply isPartition_of_chain
  · intro p hp
    simp only [split, List.mem_map, List.mem_range] at hp
    obtain ⟨i, hi, rfl⟩ := hp
    simp only [splitChild]
    rw [splitOk_iff r k hn hk] at hok
    split <;> omega
  · intro h
    rw [getElem_split]
    simp [splitChild]
  · intro i h
    rw [getElem_split, getElem_split]
    exact splitChild_adjacent r k i (by simpa using h)
  · intro h
    rw [getElem_split]
    simp only [length_split]
    exact splitChild_last r k hk
  · intro h
    simp at h
    omega

/-- Every part of an equal split is at most the rounded-up quotient, also for
negative lengths. -/
theorem splitChild_n_le (r : IndexRange) (k i : Nat) (hk : 1 ≤ k) :
    (r.splitChild k i).n ≤ max 0 (Int.tdiv (r.n + k - 1) k) := by
  by_cases hn : 0 ≤ r.n
  · obtain ⟨h1, h2, h3⟩ := ceil_bounds r.n k hn hk
    simp only [splitChild]
    generalize Int.tdiv (r.n + k - 1) k = c at *
    have h4 : c * ((k:Int) - 1) = c * k - c := by rw [Int.mul_sub]; omega
    split <;> omega
  · have hn' : r.n < 0 := by omega
    have hk' : (0:Int) < k := by omega
    have hc : Int.tdiv (r.n + k - 1) k ≤ 0 ∧ r.n ≤ Int.tdiv (r.n + k - 1) k * k := by
      by_cases h0 : 0 ≤ r.n + k - 1
      · rw [Int.tdiv_eq_ediv_of_nonneg h0]
        have : (r.n + k - 1) / (k:Int) = 0 := Int.ediv_eq_zero_of_lt h0 (by omega)
        rw [this]; omega
      · have h1 := Int.mul_tdiv_add_tmod (r.n + k - 1) k
        have h2 : Int.tmod (r.n + k - 1) k ≤ 0 := by
          have := Int.tmod_nonneg (a := -(r.n + k - 1)) (k:Int) (by omega)
          rw [Int.neg_tmod] at this
          omega
        have h3 : Int.tdiv (r.n + k - 1) k ≤ 0 := by
          have := Int.tdiv_nonneg (a := -(r.n + k - 1)) (b := k) (by omega) (by omega)
          rw [Int.neg_tdiv] at this
          omega
        have h5 : Int.tdiv (r.n + k - 1) k * (k:Int) = k * Int.tdiv (r.n + k - 1) k := Int.mul_comm _ _
        refine ⟨h3, ?_⟩
        omega
    simp only [splitChild]
    generalize Int.tdiv (r.n + k - 1) k = c at *
    have h4 : c * ((k:Int) - 1) = c * k - c := by rw [Int.mul_sub]; omega
    split <;> omega

end IndexRange
end Verif
