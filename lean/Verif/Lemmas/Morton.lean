import Verif.Model.Morton
import Verif.Lemmas.Basic
import Mathlib.Algebra.BigOperators.Group.Finset.Basic
import Mathlib.Algebra.BigOperators.Intervals
import Mathlib.Algebra.Order.BigOperators.Group.Finset
import Mathlib.Tactic.Ring
import Mathlib.Tactic.Linarith
import Mathlib.Tactic.FieldSimp
import Mathlib.Tactic.Positivity

/-
Closed forms of the loops of `morton_index.cpp`.
-/

namespace Verif

namespace Morton

/-- The number with binary digits `c 0, …, c (n-1)`. -/
def ofBits (c : Nat → Nat) (n : Nat) : Nat := ∑ s ∈ Finset.range n, c s * 2 ^ s

theorem ofBits_succ (c : Nat → Nat) (n : Nat) : ofBits c (n + 1) = ofBits c n + c n * 2 ^ n :=
  Finset.sum_range_succ _ _

theorem ofBits_congr {c c' : Nat → Nat} {n : Nat} (h : ∀ s < n, c s = c' s) : ofBits c n = ofBits c' n :=
  Finset.sum_congr rfl fun s hs => by rw [h s (Finset.mem_range.1 hs)]

theorem ofBits_lt {c : Nat → Nat} {n : Nat} (h : ∀ s < n, c s < 2) : ofBits c n < 2 ^ n := by
  induction n with
  | zero => simp [ofBits]
  | succ n ih =>
    rw [ofBits_succ, pow_succ]
    have h1 := ih fun s hs => h s (by omega)
    have h2 : c n * 2 ^ n ≤ 1 * 2 ^ n := Nat.mul_le_mul_right _ (by have := h n (by omega); omega)
    omega

theorem ofBits_digits (x n : Nat) : ofBits (fun s => x / 2 ^ s % 2) n = x % 2 ^ n := by
  induction n with
  | zero => simp [ofBits, Nat.mod_one]
  | succ n ih => rw [ofBits_succ, ih, Nat.mod_pow_succ, Nat.mul_comm]

theorem ofBits_digits_of_lt {x n : Nat} (h : x < 2 ^ n) : ofBits (fun s => x / 2 ^ s % 2) n = x := by
  rw [ofBits_digits, Nat.mod_eq_of_lt h]

theorem digit_ofBits {c : Nat → Nat} {n : Nat} (h : ∀ s < n, c s < 2) {s : Nat} (hs : s < n) :
    ofBits c n / 2 ^ s % 2 = c s := by
  induction n with
  | zero => omega
  | succ n ih =>
    rw [ofBits_succ]
    have h' : ∀ s < n, c s < 2 := fun s hs => h s (by omega)
    rcases Nat.lt_succ_iff_lt_or_eq.1 hs with h1 | h1
    · obtain ⟨e, rfl⟩ : ∃ e, n = s + e + 1 := ⟨n - s - 1, by omega⟩
      have : c (s + e + 1) * 2 ^ (s + e + 1) = 2 ^ s * (2 * (c (s + e + 1) * 2 ^ e)) := by ring
      rw [this, Nat.add_mul_div_left _ _ (by positivity), Nat.add_mul_mod_self_left]
      exact ih h' h1
    · subst h1
      rw [Nat.add_mul_div_right _ _ (by positivity), Nat.div_eq_of_lt (ofBits_lt h'), Nat.zero_add]
      exact Nat.mod_eq_of_lt (h s (by omega))

/-- Digit `s` of the interleaving of the components of `a`. -/
def weave (size : Nat) (a : Nat → Nat) (s : Nat) : Nat := a (s % size) / 2 ^ (s / size) % 2

theorem weave_lt (size : Nat) (a : Nat → Nat) (s : Nat) : weave size a s < 2 := Nat.mod_lt _ (by omega)

theorem weave_at {size d : Nat} (hd : d < size) (a : Nat → Nat) (l : Nat) :
    weave size a (size * l + d) = a d / 2 ^ l % 2 := by
  have h1 : (size * l + d) % size = d := by rw [Nat.mul_add_mod]; exact Nat.mod_eq_of_lt hd
  have h2 : (size * l + d) / size = l := by
    rw [Nat.mul_add_div (by omega), Nat.div_eq_of_lt hd, Nat.add_zero]
  rw [weave, h1, h2]

theorem getMortonIndex_congr {size level : Nat} (h63 : size * level ≤ 63) {iX jX : Nat → Int}
    (h : ∀ k < size, iX k = jX k) (hj : ∀ k, 0 ≤ jX k) :
    ∃ rest, getMortonIndex size iX level =
      .ok ((ofBits (weave size fun k => (jX k).toNat) (size * level) : Nat), rest) := by
  -- the loop only touches components below `size`
  have key : ∀ L, size * L ≤ 63 → ∃ rest : Nat → Int,
      (∀ k < size, rest k = (((jX k).toNat / 2 ^ L : Nat) : Int)) ∧
      loop L (fun lev s => loop size (fun d s => mortonStep size lev d s) s) ((0 : Int), iX) =
      .ok ((ofBits (weave size fun k => (jX k).toNat) (size * L) : Nat), rest) := by
    intro L
    induction L with
    | zero =>
      intro _
      refine ⟨iX, fun k hk => ?_, by simp [loop, ofBits]⟩
      rw [h k hk]
      simp [Int.toNat_of_nonneg (hj k)]
    | succ L ih =>
      intro hL
      obtain ⟨r, hr, he⟩ := ih (le_trans (Nat.mul_le_mul_left _ (by omega)) hL)
      have inner : ∀ j ≤ size, ∃ r' : Nat → Int,
          (∀ k < size, r' k = if k < j then (((jX k).toNat / 2 ^ (L + 1) : Nat) : Int)
            else (((jX k).toNat / 2 ^ L : Nat) : Int)) ∧
          loop j (fun d s => mortonStep size L d s)
            (((ofBits (weave size fun k => (jX k).toNat) (size * L) : Nat) : Int), r) =
          .ok ((ofBits (weave size fun k => (jX k).toNat) (size * L + j) : Nat), r') := by
        intro j
        induction j with
        | zero => intro _; exact ⟨r, fun k hk => by simpa using hr k hk, by simp [loop]⟩
        | succ j ihj =>
          intro hj'
          obtain ⟨r', hr', he'⟩ := ihj (by omega)
          have hlt : size * L + j < 63 := by
            have : size * (L + 1) = size * L + size := by ring
            omega
          refine ⟨fun k => if k = j then r' j / 2 else r' k, fun k hk => ?_, ?_⟩
          · beta_reduce
            by_cases hkj : k = j
            · subst hkj
              rw [if_pos rfl, if_pos (by omega), hr' k hk, if_neg (by omega), pow_succ,
                ← Nat.div_div_eq_div_mul]
              push_cast
              rfl
            · rw [if_neg hkj, hr' k hk]
              by_cases h3 : k < j
              · rw [if_pos h3, if_pos (by omega)]
              · rw [if_neg h3, if_neg (by omega)]
          · rw [loop, he']
            simp only [except_bind_ok, mortonStep, if_neg (not_le.2 hlt)]
            congr 2
            rw [← Nat.add_assoc, ofBits_succ, weave_at (by omega), hr' j (by omega), if_neg (by omega)]
            push_cast
            rfl
      obtain ⟨r', hr', he'⟩ := inner size (le_refl _)
      refine ⟨r', fun k hk => by rw [hr' k hk, if_pos hk], ?_⟩
      rw [loop, he]
      exact he'
  obtain ⟨rest, -, he⟩ := key level h63
  exact ⟨rest, he⟩

/-- State of the loop of `getCartesianIndex` after `t` steps. -/
def cst (dim m t : Nat) : CState where
  index := fun k => ((∑ s ∈ Finset.range t, if s % dim = k then (m / 2 ^ s % 2) * 2 ^ (s / dim) else 0 : Nat) : Int)
  d := t % dim
  level := t / dim
  m := ((m / 2 ^ t : Nat) : Int)

theorem cartStep_eq {dim : Nat} (hdim : 1 ≤ dim) (m t : Nat) (ht : t / dim < 31) :
    cartStep dim (cst dim m t) = .ok (cst dim m (t + 1)) := by
  have h1 : t % dim < dim := Nat.mod_lt _ (by omega)
  rw [cartStep, if_neg (by simpa [cst] using h1), if_neg (by simpa [cst] using ht)]
  have hmod : (t % dim + 1) % dim = (t + 1) % dim := by simp [Nat.add_mod]
  simp only [cst, Except.ok.injEq, CState.mk.injEq]
  refine ⟨?_, hmod, ?_, ?_⟩
  · funext k
    rw [Finset.sum_range_succ]
    by_cases hk : k = t % dim
    · subst hk
      refine (if_pos rfl).trans ?_
      rw [if_pos rfl, Int.tmod_eq_emod_of_nonneg (by positivity)]
      push_cast
      rfl
    · refine (if_neg hk).trans ?_
      rw [if_neg (fun h => hk h.symm), Nat.add_zero]
  · simp only [hmod, Nat.succ_div, Nat.dvd_iff_mod_eq_zero]
    split <;> simp
  · rw [pow_succ, ← Nat.div_div_eq_div_mul]
    push_cast
    rfl

theorem cartLoop_eq {dim : Nat} (hdim : 1 ≤ dim) {m : Nat} (hm : m < 2 ^ (31 * dim)) (f : Nat) :
    ∀ t, m / 2 ^ t < 2 ^ f →
      ∃ t', m < 2 ^ t' ∧ cartLoop dim f (cst dim m t) = .ok (cst dim m t') := by
  induction f with
  | zero =>
    intro t h
    have h0 : m / 2 ^ t = 0 := by simpa using h
    refine ⟨t, (Nat.div_eq_zero_iff_lt (by positivity)).1 h0, ?_⟩
    rw [cartLoop, if_pos (by simp [cst, h0])]
  | succ f ih =>
    intro t h
    by_cases h0 : m / 2 ^ t = 0
    · refine ⟨t, (Nat.div_eq_zero_iff_lt (by positivity)).1 h0, ?_⟩
      rw [cartLoop, if_pos (by simp [cst, h0])]
    · have h1 : 2 ^ t ≤ m := by
        by_contra hlt
        exact h0 ((Nat.div_eq_zero_iff_lt (by positivity)).2 (by omega))
      have h2 : t < 31 * dim := (Nat.pow_lt_pow_iff_right (by omega : 1 < 2)).1 (lt_of_le_of_lt h1 hm)
      have h3 : t / dim < 31 := Nat.div_lt_of_lt_mul (by rw [Nat.mul_comm]; exact h2)
      have h4 : m / 2 ^ (t + 1) < 2 ^ f := by
        rw [pow_succ, ← Nat.div_div_eq_div_mul]
        rw [pow_succ] at h
        omega
      obtain ⟨t', ht', he⟩ := ih (t + 1) h4
      refine ⟨t', ht', ?_⟩
      rw [cartLoop, if_neg (by simpa [cst] using (Int.natCast_ne_zero.2 h0)), cartStep_eq hdim m t h3]
      exact he

theorem sum_pick {dim k : Nat} (hk : k < dim) (f : Nat → Nat) (L : Nat) :
    (∑ s ∈ Finset.range (dim * L), if s % dim = k then f s * 2 ^ (s / dim) else 0) =
      ofBits (fun l => f (dim * l + k)) L := by
  induction L with
  | zero => simp [ofBits]
  | succ L ih =>
    rw [Nat.mul_succ, Finset.sum_range_add, ih, ofBits_succ]
    congr 1
    rw [Finset.sum_eq_single k]
    · have h1 : (dim * L + k) % dim = k := by rw [Nat.mul_add_mod]; exact Nat.mod_eq_of_lt hk
      have h2 : (dim * L + k) / dim = L := by
        rw [Nat.mul_add_div (by omega), Nat.div_eq_of_lt hk, Nat.add_zero]
      rw [if_pos h1, h2]
    · intro b hb hbk
      have h1 : (dim * L + b) % dim = b := by
        rw [Nat.mul_add_mod]; exact Nat.mod_eq_of_lt (Finset.mem_range.1 hb)
      rw [if_neg (by omega)]
    · intro h
      exact absurd (Finset.mem_range.2 hk) h

theorem sum_trim {dim k m : Nat} {t N : Nat} (ht : m < 2 ^ t) (hN : m < 2 ^ N) :
    (∑ s ∈ Finset.range t, if s % dim = k then (m / 2 ^ s % 2) * 2 ^ (s / dim) else 0) =
      ∑ s ∈ Finset.range N, if s % dim = k then (m / 2 ^ s % 2) * 2 ^ (s / dim) else 0 := by
  have key : ∀ a b, m < 2 ^ a → (∑ s ∈ Finset.range (a + b), if s % dim = k then (m / 2 ^ s % 2) * 2 ^ (s / dim) else 0) =
      ∑ s ∈ Finset.range a, if s % dim = k then (m / 2 ^ s % 2) * 2 ^ (s / dim) else 0 := by
    intro a b ha
    rw [Finset.sum_range_add]
    have : (∑ s ∈ Finset.range b, if (a + s) % dim = k then (m / 2 ^ (a + s) % 2) * 2 ^ ((a + s) / dim) else 0) = 0 := by
      apply Finset.sum_eq_zero
      intro s _
      have : m / 2 ^ (a + s) = 0 :=
        Nat.div_eq_of_lt (lt_of_lt_of_le ha (Nat.pow_le_pow_right (by omega) (by omega)))
      rw [this]
      simp
    omega
  rcases le_total t N with h | h
  · obtain ⟨b, rfl⟩ := Nat.exists_eq_add_of_le h
    exact (key t b ht).symm
  · obtain ⟨b, rfl⟩ := Nat.exists_eq_add_of_le h
    exact key N b hN

theorem getCartesianIndex_eq {dim L m fuel : Nat} (hdim : 1 ≤ dim) (hL : L ≤ 31) (hm : m < 2 ^ (dim * L))
    (hf : m < 2 ^ fuel) :
    ∃ iX, getCartesianIndex fuel dim (m : Int) = .ok iX ∧
      ∀ k < dim, iX k = ((ofBits (fun l => m / 2 ^ (dim * l + k) % 2) L : Nat) : Int) := by
  have hm' : m < 2 ^ (31 * dim) :=
    lt_of_lt_of_le hm (Nat.pow_le_pow_right (by omega) (by rw [Nat.mul_comm 31]; exact Nat.mul_le_mul_left _ hL))
  obtain ⟨t, ht, he⟩ := cartLoop_eq hdim hm' fuel 0 (by simpa using hf)
  refine ⟨(cst dim m t).index, ?_, ?_⟩
  · have h0 : (⟨fun _ => 0, 0, 0, (m : Int)⟩ : CState) = cst dim m 0 := by simp [cst]
    rw [getCartesianIndex, h0, he]
    rfl
  · intro k hk
    simp only [cst]
    rw [sum_trim (N := dim * L) ht hm, sum_pick hk]

/-- On a negative index the loop of `getCartesianIndex` never ends normally. -/
theorem cartLoop_neg {dim : Nat} (f : Nat) : ∀ s : CState, s.m < 0 → ∀ s', cartLoop dim f s ≠ .ok s' := by
  induction f with
  | zero =>
    intro s hs s' h
    rw [cartLoop, if_neg (by omega)] at h
    cases h
  | succ f ih =>
    intro s hs s' h
    rw [cartLoop, if_neg (by omega), except_bind_eq_ok] at h
    obtain ⟨s1, h1, h2⟩ := h
    rw [cartStep] at h1
    split at h1
    · cases h1
    · split at h1
      · cases h1
      · rw [← Except.ok.inj h1] at h2
        exact ih _ (by show s.m / 2 < 0; omega) _ h2

section Points
variable {K : Type _} [Field K] [LinearOrder K] [IsStrictOrderedRing K]

omit [Field K] [IsStrictOrderedRing K] in
theorem minElement_le (v : Nat → K) : ∀ n i, i ≤ n → minElement v n ≤ v i := by
  intro n
  induction n with
  | zero => intro i hi; rw [Nat.le_zero.1 hi]; exact le_refl _
  | succ n ih =>
    intro i hi
    rw [minElement]
    split
    · rename_i h
      rcases Nat.le_succ_iff.1 hi with h1 | h1
      · exact (le_of_lt h).trans (ih i h1)
      · rw [h1]
    · rename_i h
      rcases Nat.le_succ_iff.1 hi with h1 | h1
      · exact ih i h1
      · rw [h1]; exact not_lt.1 h

omit [Field K] [IsStrictOrderedRing K] in
theorem le_maxElement (v : Nat → K) : ∀ n i, i ≤ n → v i ≤ maxElement v n := by
  intro n
  induction n with
  | zero => intro i hi; rw [Nat.le_zero.1 hi]; exact le_refl _
  | succ n ih =>
    intro i hi
    rw [maxElement]
    split
    · rename_i h
      rcases Nat.le_succ_iff.1 hi with h1 | h1
      · exact (ih i h1).trans (le_of_lt h)
      · rw [h1]
    · rename_i h
      rcases Nat.le_succ_iff.1 hi with h1 | h1
      · exact ih i h1
      · rw [h1]; exact not_lt.1 h

omit [IsStrictOrderedRing K] in
theorem boxExtent_nonneg (dims n : Nat) (x : Nat → Nat → K) : 0 ≤ boxExtent dims n x := by
  induction dims with
  | zero => exact le_refl _
  | succ d ih => exact ih.trans (le_max_left _ _)

omit [IsStrictOrderedRing K] in
theorem le_boxExtent (n : Nat) (x : Nat → Nat → K) :
    ∀ dims, ∀ d < dims, maxElement (x d) (n - 1) - minElement (x d) (n - 1) ≤ boxExtent dims n x := by
  intro dims
  induction dims with
  | zero => intro d hd; omega
  | succ D ih =>
    intro d hd
    rw [boxExtent]
    rcases Nat.lt_succ_iff_lt_or_eq.1 hd with h | h
    · exact (ih d h).trans (le_max_left _ _)
    · rw [h]; exact le_max_right _ _

/-- Normalised coordinates lie strictly between 0 and 1. -/
theorem normalize_mem {dims n : Nat} (x : Nat → Nat → K) {eps : K} (he : 0 < eps) {d i : Nat} (hd : d < dims)
    (hi : i < n) :
    0 < (x d i - (minElement (x d) (n - 1) - eps)) / (boxExtent dims n x + 2 * eps) ∧
    (x d i - (minElement (x d) (n - 1) - eps)) / (boxExtent dims n x + 2 * eps) < 1 := by
  have h1 := minElement_le (x d) (n - 1) i (by omega)
  have h2 := le_maxElement (x d) (n - 1) i (by omega)
  have h3 := boxExtent_nonneg dims n x
  have h4 := le_boxExtent n x dims d hd
  have hpos : 0 < boxExtent dims n x + 2 * eps := by linarith
  exact ⟨div_pos (by linarith) hpos, (div_lt_one hpos).2 (by linarith)⟩

theorem trunc_mem [FloorRing K] {p : K} (h0 : 0 < p) (h1 : p < 1) (level : Nat) :
    trunc (p * ((2 ^ level : Int) : K)) = ⌊p * 2 ^ level⌋ ∧ 0 ≤ ⌊p * 2 ^ level⌋ ∧ ⌊p * 2 ^ level⌋ < 2 ^ level := by
  have hpos : (0 : K) < 2 ^ level := by positivity
  have hnn : (0 : K) ≤ p * 2 ^ level := by positivity
  have hc : ((2 ^ level : Int) : K) = 2 ^ level := by push_cast; rfl
  refine ⟨?_, Int.floor_nonneg.2 hnn, ?_⟩
  · rw [trunc, hc, if_pos hnn]
  · rw [Int.floor_lt]
    push_cast
    calc p * 2 ^ level < 1 * 2 ^ level := by exact (mul_lt_mul_iff_left₀ hpos).2 h1
      _ = 2 ^ level := one_mul _

end Points

end Morton

end Verif
