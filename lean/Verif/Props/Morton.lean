import Verif.Spec.Morton
import Verif.Lemmas.Morton
import Mathlib.Data.List.Sort
import Mathlib.Data.Rat.Floor

/-
C38 and C39: Morton index conversion and Morton sorting.
-/

namespace Verif

open Morton

/-- Components within the grid of `2^level` cells per direction. -/
def InGrid (dim level : Nat) (iX : Nat → Int) : Prop := ∀ k < dim, 0 ≤ iX k ∧ iX k < 2 ^ level

theorem Morton.toNat_eq {dim level : Nat} {iX : Nat → Int} (h : InGrid dim level iX) {k : Nat} (hk : k < dim) :
    ((iX k).toNat : Int) = iX k ∧ (iX k).toNat < 2 ^ level := by
  obtain ⟨h1, h2⟩ := h k hk
  have h3 : ((iX k).toNat : Int) = iX k := Int.toNat_of_nonneg h1
  refine ⟨h3, ?_⟩
  have : ((iX k).toNat : Int) < ((2 ^ level : Nat) : Int) := by rw [h3]; push_cast; exact h2
  exact_mod_cast this

/-- The Morton index computed for components within the grid. -/
theorem Morton.getMortonIndex_grid {dim level : Nat} (h63 : dim * level ≤ 63) {iX : Nat → Int}
    (h : InGrid dim level iX) :
    ∃ rest, getMortonIndex dim iX level =
      .ok ((ofBits (weave dim fun k => (iX k).toNat) (dim * level) : Nat), rest) := by
  obtain ⟨rest, he⟩ := getMortonIndex_congr h63 (iX := iX) (jX := fun k => if k < dim then iX k else 0)
    (fun k hk => (if_pos hk).symm) (fun k => by
      show 0 ≤ if k < dim then iX k else 0
      split
      · rename_i hk; exact (h k hk).1
      · exact le_refl _)
  refine ⟨rest, ?_⟩
  rw [he]
  congr 3
  apply ofBits_congr
  intro s hs
  have : s % dim < dim := Nat.mod_lt _ (Nat.pos_of_ne_zero fun h0 => by simp [h0] at hs)
  simp only [weave, if_pos this]

/-- C38.  The Morton index interleaves the binary digits of the cartesian
indices. -/
theorem C38_interleaves (dim level : Nat) (h63 : dim * level ≤ 63) (iX : Nat → Int) (h : InGrid dim level iX) :
    ∃ m rest, getMortonIndex dim iX level = .ok (m, rest) ∧ IsMorton dim level iX m := by
  obtain ⟨rest, he⟩ := getMortonIndex_grid h63 h
  refine ⟨_, rest, he, by positivity, ?_, ?_⟩
  · exact_mod_cast ofBits_lt fun s _ => weave_lt dim _ s
  · intro l hl k hk
    have hs : dim * l + k < dim * level := by
      calc dim * l + k < dim * l + dim := by omega
        _ = dim * (l + 1) := by ring
        _ ≤ dim * level := Nat.mul_le_mul_left _ hl
    have h1 := digit_ofBits (n := dim * level) (fun s _ => weave_lt dim (fun k => (iX k).toNat) s) hs
    rw [weave_at hk] at h1
    rw [← (toNat_eq h hk).1]
    exact_mod_cast h1

/-- C38.  Converting cartesian indices to a Morton index and back returns the
cartesian indices, and the Morton index is below `2^(dim*level)`. -/
theorem C38_to_morton_and_back (dim level : Nat) (hdim : 1 ≤ dim) (h31 : level ≤ 31) (h63 : dim * level ≤ 63)
    (iX : Nat → Int) (h : InGrid dim level iX) :
    ∃ m rest, getMortonIndex dim iX level = .ok (m, rest) ∧ 0 ≤ m ∧ m < 2 ^ (dim * level) ∧
      ∀ fuel, dim * level ≤ fuel →
        ∃ jX, getCartesianIndex fuel dim m = .ok jX ∧ ∀ k < dim, jX k = iX k := by
  obtain ⟨rest, he⟩ := getMortonIndex_grid h63 h
  have hlt : ofBits (weave dim fun k => (iX k).toNat) (dim * level) < 2 ^ (dim * level) :=
    ofBits_lt fun s _ => weave_lt dim _ s
  refine ⟨_, rest, he, by positivity, by exact_mod_cast hlt, ?_⟩
  intro fuel hf
  obtain ⟨jX, hj, hv⟩ := getCartesianIndex_eq hdim h31 hlt
    (lt_of_lt_of_le hlt (Nat.pow_le_pow_right (by omega) hf))
  refine ⟨jX, hj, fun k hk => ?_⟩
  rw [hv k hk]
  obtain ⟨e1, e2⟩ := toNat_eq h hk
  rw [← e1]
  congr 1
  refine (ofBits_congr fun l hl => ?_).trans (ofBits_digits_of_lt e2)
  have hs : dim * l + k < dim * level := by
    calc dim * l + k < dim * l + dim := by omega
      _ = dim * (l + 1) := by ring
      _ ≤ dim * level := Nat.mul_le_mul_left _ hl
  rw [digit_ofBits (fun s _ => weave_lt dim _ s) hs, weave_at hk]

/-- C38.  Converting a Morton index to cartesian indices and back returns the
Morton index, and the cartesian indices are below `2^level`. -/
theorem C38_to_cartesian_and_back (dim level fuel : Nat) (hdim : 1 ≤ dim) (h31 : level ≤ 31)
    (h63 : dim * level ≤ 63) (hf : dim * level ≤ fuel) (m : Int) (h0 : 0 ≤ m) (hm : m < 2 ^ (dim * level)) :
    ∃ iX, getCartesianIndex fuel dim m = .ok iX ∧ InGrid dim level iX ∧
      ∃ rest, getMortonIndex dim iX level = .ok (m, rest) := by
  obtain ⟨m, rfl⟩ := Int.eq_ofNat_of_zero_le h0
  have hm' : m < 2 ^ (dim * level) := by exact_mod_cast hm
  obtain ⟨iX, hi, hv⟩ := getCartesianIndex_eq hdim h31 hm'
    (lt_of_lt_of_le hm' (Nat.pow_le_pow_right (by omega) hf))
  have grid : InGrid dim level iX := by
    intro k hk
    rw [hv k hk]
    exact ⟨by positivity, by exact_mod_cast ofBits_lt fun l _ => Nat.mod_lt _ (by omega)⟩
  refine ⟨iX, hi, grid, ?_⟩
  obtain ⟨rest, he⟩ := getMortonIndex_grid h63 grid
  refine ⟨rest, ?_⟩
  rw [he]
  congr 3
  refine (ofBits_congr fun s hs => ?_).trans (ofBits_digits_of_lt hm')
  have h1 : s % dim < dim := Nat.mod_lt _ (by omega)
  have h2 : s / dim < level := Nat.div_lt_of_lt_mul hs
  rw [weave, hv _ h1, Int.toNat_natCast, digit_ofBits (fun l _ => Nat.mod_lt _ (by omega)) h2, Nat.div_add_mod]

/-- C38.  The conversion is one-to-one from the grid onto
`0 .. 2^(dim*level)-1`: every Morton index in this range belongs to exactly one
grid cell. -/
theorem C38_bijection (dim level : Nat) (hdim : 1 ≤ dim) (h31 : level ≤ 31) (h63 : dim * level ≤ 63) (m : Int)
    (h0 : 0 ≤ m) (hm : m < 2 ^ (dim * level)) :
    (∃ iX, InGrid dim level iX ∧ ∃ rest, getMortonIndex dim iX level = .ok (m, rest)) ∧
    (∀ iX jX, InGrid dim level iX → InGrid dim level jX → ∀ r r', getMortonIndex dim iX level = .ok (m, r) →
      getMortonIndex dim jX level = .ok (m, r') → ∀ k < dim, iX k = jX k) := by
  constructor
  · obtain ⟨iX, -, h1, h2⟩ := C38_to_cartesian_and_back dim level _ hdim h31 h63 (le_refl _) m h0 hm
    exact ⟨iX, h1, h2⟩
  · intro iX jX hi hj r r' ei ej k hk
    obtain ⟨m1, r1, e1, -, -, b1⟩ := C38_to_morton_and_back dim level hdim h31 h63 iX hi
    obtain ⟨m2, r2, e2, -, -, b2⟩ := C38_to_morton_and_back dim level hdim h31 h63 jX hj
    rw [ei] at e1
    rw [ej] at e2
    cases Except.ok.inj e1
    cases Except.ok.inj e2
    obtain ⟨x, ex, vx⟩ := b1 _ (le_refl _)
    obtain ⟨y, ey, vy⟩ := b2 _ (le_refl _)
    rw [ex] at ey
    cases Except.ok.inj ey
    rw [← vx k hk, ← vy k hk]

/-- Outside the range of C38: the conversion of a negative Morton index never
returns. -/
theorem C38_negative_index (dim : Nat) (m : Int) (hm : m < 0) (fuel : Nat) (iX : Nat → Int) :
    getCartesianIndex fuel dim m ≠ .ok iX := by
  intro h
  rw [getCartesianIndex, except_bind_eq_ok] at h
  obtain ⟨s, h1, -⟩ := h
  exact cartLoop_neg fuel _ hm _ h1

/-- The integer-width limit is real: in one dimension index `2^31` shifts out of
an `int`. -/
theorem C38_width_limit : getCartesianIndex 63 1 (2 ^ 31) = .error .ub := by
  have key : ∀ f t : Nat, 31 < f + t → t ≤ 31 → cartLoop 1 f (cst 1 (2 ^ 31) t) = .error .ub := by
    intro f
    induction f with
    | zero => intro t h1 h2; omega
    | succ f ih =>
      intro t h1 h2
      have h3 : ¬ (2 ^ 31 / 2 ^ t = 0) := by
        have := Nat.div_pos (Nat.pow_le_pow_right (by omega : 0 < 2) h2) (by positivity : 0 < 2 ^ t)
        omega
      rw [cartLoop, if_neg (by
        show ¬ (((2 ^ 31 / 2 ^ t : Nat) : Int) = 0)
        exact_mod_cast h3)]
      by_cases ht : t = 31
      · subst ht
        rw [cartStep, if_neg (by simp [cst]), if_pos (by simp [cst])]
        rfl
      · rw [cartStep_eq (le_refl _) _ _ (by rw [Nat.div_one]; omega)]
        exact ih (t + 1) (by omega) (by omega)
  have h0 : (⟨fun _ => 0, 0, 0, (2 ^ 31 : Int)⟩ : CState) = cst 1 (2 ^ 31) 0 := by simp [cst]
  rw [getCartesianIndex, h0, key 63 0 (by omega) (by omega)]
  rfl

/-- Cell (2, 3, 0) of a grid with four cells in each of three directions has
Morton index 26. -/
example : ∃ rest, getMortonIndex 3 (fun k => if k = 0 then 2 else if k = 1 then 3 else 0) 2 = .ok (26, rest) ∧
    InGrid 3 2 (fun k => if k = 0 then 2 else if k = 1 then 3 else 0) := by
  refine ⟨_, rfl, ?_⟩
  intro k _
  show 0 ≤ (if k = 0 then 2 else if k = 1 then 3 else 0 : Int) ∧ (if k = 0 then 2 else if k = 1 then 3 else 0 : Int) < 2 ^ 2
  split
  · omega
  · split <;> omega

/-- Sorting with a strict comparator, e.g. by merge sort. -/
theorem mergeSort_sortSpec {α : Type _} : SortSpec (α := α) fun lt l => l.mergeSort fun a b => !lt b a where
  perm := fun lt l _ => List.mergeSort_perm l _
  sorted := fun lt l h => by
    have h2 := List.pairwise_mergeSort (le := fun a b => !lt b a)
      (fun a b c h1 h2 => by
        simp only [Bool.not_eq_true'] at h1 h2 ⊢
        by_contra h3
        simp only [Bool.not_eq_false] at h3
        by_cases h4 : lt b c = true
        · exact absurd (h.trans _ _ _ h4 h3) (by simp [h1])
        · simp only [Bool.not_eq_true] at h4
          by_cases h5 : lt a b = true
          · exact absurd (h.trans _ _ _ h3 h5) (by simp [h2])
          · simp only [Bool.not_eq_true] at h5
            exact absurd (h.incomp a b c h5 h1 h4 h2).2 (by simp [h3]))
      (fun a b => by
        simp only [Bool.or_eq_true, Bool.not_eq_true']
        by_contra h3
        simp only [not_or, Bool.not_eq_false] at h3
        exact absurd (h.trans _ _ _ h3.1 h3.2) (by simp [h.irrefl])) l
    exact h2.imp fun h => by simpa using h

theorem Morton.keyOrder : StrictWeak fun a b : Nat × Int => decide (a.2 < b.2) where
  irrefl := fun a => by simp
  trans := fun a b c => by simpa using lt_trans
  incomp := fun a b c h1 h2 h3 h4 => by
    simp only [decide_eq_false_iff_not, not_lt] at *
    omega

section
variable {K : Type _} [Field K] [LinearOrder K]

omit [Field K] in
theorem Morton.minElement_isMin (v : Nat → K) : ∀ n, IsMin v (n + 1) (minElement v n) := by
  intro n
  refine ⟨?_, fun i hi => minElement_le v n i (by omega)⟩
  induction n with
  | zero => exact ⟨0, by omega, rfl⟩
  | succ n ih =>
    rw [minElement]
    split
    · exact ⟨n + 1, by omega, rfl⟩
    · obtain ⟨i, h1, h2⟩ := ih
      exact ⟨i, by omega, h2⟩

omit [Field K] in
theorem Morton.maxElement_isMax (v : Nat → K) : ∀ n, IsMax v (n + 1) (maxElement v n) := by
  intro n
  refine ⟨?_, fun i hi => le_maxElement v n i (by omega)⟩
  induction n with
  | zero => exact ⟨0, by omega, rfl⟩
  | succ n ih =>
    rw [maxElement]
    split
    · exact ⟨n + 1, by omega, rfl⟩
    · obtain ⟨i, h1, h2⟩ := ih
      exact ⟨i, by omega, h2⟩

variable [IsStrictOrderedRing K]

theorem Morton.boxExtent_isMax (n : Nat) (x : Nat → Nat → K) (d : Nat) :
    IsMax (fun d => maxElement (x d) (n - 1) - minElement (x d) (n - 1)) (d + 1) (boxExtent (d + 1) n x) := by
  refine ⟨?_, fun e he => le_boxExtent n x (d + 1) e he⟩
  induction d with
  | zero =>
    refine ⟨0, by omega, ?_⟩
    have h1 := minElement_le (x 0) (n - 1) 0 (by omega)
    have h2 := le_maxElement (x 0) (n - 1) 0 (by omega)
    rw [boxExtent, boxExtent, max_eq_right (by linarith)]
  | succ d ih =>
    rw [boxExtent]
    rcases max_choice (boxExtent (d + 1) n x)
      (maxElement (x (d + 1)) (n - 1) - minElement (x (d + 1)) (n - 1)) with h | h
    · obtain ⟨e, h1, h2⟩ := ih
      exact ⟨e, by omega, by rw [h]; exact h2⟩
    · exact ⟨d + 1, by omega, h.symm⟩

variable [FloorRing K]

omit [IsStrictOrderedRing K] in
/-- C39.  The box number of a point is determined by the point set. -/
theorem C39_box_unique {dims n level i : Nat} {x : Nat → Nat → K} {m m' : Int}
    (h : IsBox dims n x level i m) (h' : IsBox dims n x level i m') : m = m' := by
  obtain ⟨lo, hi, ext, b1, ⟨⟨e, he, b2⟩, b2'⟩, c0, c1, c2⟩ := h
  obtain ⟨lo', hi', ext', b1', ⟨⟨e', he', b3⟩, b3'⟩, c0', c1', c2'⟩ := h'
  have ulo : ∀ d < dims, lo d = lo' d := by
    intro d hd
    obtain ⟨⟨⟨i1, g1, g2⟩, g3⟩, -⟩ := b1 d hd
    obtain ⟨⟨⟨i1', g1', g2'⟩, g3'⟩, -⟩ := b1' d hd
    exact le_antisymm (g2' ▸ g3 i1' g1') (g2 ▸ g3' i1 g1)
  have uhi : ∀ d < dims, hi d = hi' d := by
    intro d hd
    obtain ⟨-, ⟨i1, g1, g2⟩, g3⟩ := b1 d hd
    obtain ⟨-, ⟨i1', g1', g2'⟩, g3'⟩ := b1' d hd
    exact le_antisymm (g2 ▸ g3' i1 g1) (g2' ▸ g3 i1' g1')
  have uext : ext = ext' := by
    apply le_antisymm
    · rw [← b2]; show hi e - lo e ≤ ext'
      rw [ulo e he, uhi e he]; exact b3' e he
    · rw [← b3]; show hi' e' - lo' e' ≤ ext
      rw [← ulo e' he', ← uhi e' he']; exact b2' e' he'
  -- two numbers below a power of two with the same digits are equal
  obtain ⟨m, rfl⟩ := Int.eq_ofNat_of_zero_le c0
  obtain ⟨m', rfl⟩ := Int.eq_ofNat_of_zero_le c0'
  have l1 : m < 2 ^ (dims * level) := by exact_mod_cast c1
  have l2 : m' < 2 ^ (dims * level) := by exact_mod_cast c1'
  rw [← ofBits_digits_of_lt l1, ← ofBits_digits_of_lt l2]
  congr 1
  apply ofBits_congr
  intro s hs
  have hd : 0 < dims := Nat.pos_of_ne_zero fun h0 => by simp [h0] at hs
  have k1 : s % dims < dims := Nat.mod_lt _ hd
  have k2 : s / dims < level := Nat.div_lt_of_lt_mul hs
  have q1 := c2 _ k2 _ k1
  have q2 := c2' _ k2 _ k1
  rw [Nat.div_add_mod] at q1 q2
  beta_reduce at q1 q2
  rw [ulo _ k1, uext, ← q2] at q1
  exact_mod_cast q1

/-- The box numbers computed by `sortByMortonIndex`. -/
theorem Morton.getBoxNumber_isBox {dims n level i : Nat} (hd : 1 ≤ dims) (hi : i < n) (h30 : level ≤ 30)
    (h63 : dims * level ≤ 63) (x : Nat → Nat → K) :
    ∃ m, getBoxNumber dims (fun dim => (x dim i - (minElement (x dim) (n - 1) - 1 / 2)) /
      (boxExtent dims n x + 2 * (1 / 2))) level = .ok m ∧ IsBox dims n x level i m := by
  have h2 : boxExtent dims n x + 2 * (1 / 2) = boxExtent dims n x + 1 := by norm_num
  have pt : ∀ d < dims, _ := fun d hd =>
    trunc_mem (normalize_mem x (by norm_num : (0 : K) < 1 / 2) hd hi).1
      (normalize_mem x (by norm_num : (0 : K) < 1 / 2) hd hi).2 level
  obtain ⟨m, rest, he, hm⟩ := C38_interleaves dims level h63
    (fun dim => trunc ((x dim i - (minElement (x dim) (n - 1) - 1 / 2)) /
      (boxExtent dims n x + 2 * (1 / 2)) * ((2 ^ level : Int) : K)))
    (fun k hk => by beta_reduce; rw [(pt k hk).1]; exact (pt k hk).2)
  refine ⟨m, ?_, ?_⟩
  · rw [getBoxNumber, if_neg (by omega), he]
    rfl
  · refine ⟨fun d => minElement (x d) (n - 1), fun d => maxElement (x d) (n - 1), boxExtent dims n x, ?_, ?_, ?_⟩
    · intro d _
      have e1 := minElement_isMin (x d) (n - 1)
      have e2 := maxElement_isMax (x d) (n - 1)
      rw [Nat.sub_add_cancel (by omega)] at e1 e2
      exact ⟨e1, e2⟩
    · have := boxExtent_isMax n x (dims - 1)
      rwa [Nat.sub_add_cancel hd] at this
    · refine ⟨hm.1, hm.2.1, fun l hl k hk => ?_⟩
      rw [hm.2.2 l hl k hk]
      beta_reduce
      rw [(pt k hk).1, h2]

/-- C39.  `sortByMortonIndex` returns for every nonempty point set (in at least
one dimension, within the integer-width limit); `perm` is then a permutation of
`0..n-1`, every coordinate vector is the old one read through `perm`, the box
number of every point is in range, and along the new order box numbers do not
decrease. -/
theorem C39_sort (sort : ((Nat × Int) → (Nat × Int) → Bool) → List (Nat × Int) → List (Nat × Int))
    (hsort : SortSpec sort) (dims n np level : Nat) (hd : 1 ≤ dims) (hn : 1 ≤ n) (hp : n ≤ np)
    (h30 : level ≤ 30) (h63 : dims * level ≤ 63) (x : Nat → Nat → K) (perm : Nat → Nat) :
    ∃ x' perm', sortByMortonIndex sort dims n np x level perm = .ok (x', perm') ∧
      (∀ i < n, perm' i < n) ∧ (∀ i < n, ∀ j < n, perm' i = perm' j → i = j) ∧
      (∀ i, n ≤ i → perm' i = perm i) ∧
      (∀ d < dims, ∀ i < n, x' d i = x d (perm' i)) ∧
      (∃ box : Nat → Int, (∀ i < n, IsBox dims n x level i (box i) ∧ 0 ≤ box i ∧ box i < 2 ^ (dims * level)) ∧
        ∀ i j, i < j → j < n → box (perm' i) ≤ box (perm' j)) := by
  obtain ⟨box, hbox⟩ := collect_exists (n := n) (f := fun i => getBoxNumber dims (fun dim =>
    (x dim i - (minElement (x dim) (n - 1) - 1 / 2)) / (boxExtent dims n x + 2 * (1 / 2))) level)
    (fun i hi => (getBoxNumber_isBox hd hi h30 h63 x).imp fun _ h => h.1)
  have hb : ∀ i < n, IsBox dims n x level i (box i) := by
    intro i hi
    obtain ⟨m, h1, h2⟩ := getBoxNumber_isBox hd hi h30 h63 x
    have h3 := collect_ok hbox i hi
    beta_reduce at h3
    rw [h1] at h3
    cases Except.ok.inj h3
    exact h2
  have hperm := hsort.perm _ ((List.range n).map fun i => (i, box i)) keyOrder
  have hsorted := hsort.sorted _ ((List.range n).map fun i => (i, box i)) keyOrder
  generalize hl : sort (fun a b => decide (a.2 < b.2)) ((List.range n).map fun i => (i, box i)) = l
    at hperm hsorted
  have hlen : l.length = n := by rw [hperm.length_eq]; simp
  have hmem : ∀ i (hi : i < l.length), l[i].1 < n ∧ l[i].2 = box l[i].1 := by
    intro i hi
    have := hperm.mem_iff.1 (List.getElem_mem hi)
    simp only [List.mem_map, List.mem_range] at this
    obtain ⟨j, h1, h2⟩ := this
    rw [← h2]
    exact ⟨h1, rfl⟩
  have hnodup : (l.map Prod.fst).Nodup := by
    have h1 : (l.map Prod.fst).Perm (List.range n) := by
      have := hperm.map Prod.fst
      simpa [List.map_map, Function.comp_def] using this
    exact h1.nodup_iff.2 List.nodup_range
  have hget : ∀ i (hi : i < n), l.getD i (0, 0) = l[i]'(by omega) := by
    intro i hi
    simp [List.getD, List.getElem?_eq_getElem (show i < l.length by omega)]
  refine ⟨fun dim i => if i < n then x dim (l.getD i (0, 0)).1 else x dim i,
    fun i => if i < n then (l.getD i (0, 0)).1 else perm i, ?_, ?_, ?_, ?_, ?_, box, ?_, ?_⟩
  · rw [sortByMortonIndex, normalizeWithinBox, if_neg (by omega)]
    simp only [except_bind_ok, if_neg (show ¬ dims = 0 by omega)]
    rw [hbox]
    simp only [except_bind_ok]
    rw [hl, hlen, if_neg (by omega)]
  · intro i hi
    beta_reduce
    rw [if_pos hi, hget i hi]
    exact (hmem i (by omega)).1
  · intro i hi j hj h
    beta_reduce at h
    rw [if_pos hi, if_pos hj, hget i hi, hget j hj] at h
    exact (hnodup.getElem_inj_iff (i := i) (j := j) (hi := by simpa [hlen]) (hj := by simpa [hlen])).1 (by
      simpa using h)
  · intro i hi
    exact if_neg (by omega)
  · intro d _ i hi
    beta_reduce
    rw [if_pos hi, if_pos hi]
  · intro i hi
    obtain ⟨-, -, -, -, -, h1, h2, -⟩ := hb i hi
    exact ⟨hb i hi, h1, h2⟩
  · intro i j hij hj
    beta_reduce
    rw [if_pos (by omega), if_pos hj, hget i (by omega), hget j hj]
    have := (List.pairwise_iff_getElem.1 hsorted) i j (by omega) (by omega) hij
    rw [← (hmem i (by omega)).2, ← (hmem j (by omega)).2]
    simpa using this

omit [IsStrictOrderedRing K] in
/-- `perm` must already have room for all points: with a shorter vector the
function writes out of bounds. -/
theorem C39_short_perm (sort : ((Nat × Int) → (Nat × Int) → Bool) → List (Nat × Int) → List (Nat × Int))
    (hsort : SortSpec sort) (dims n np level : Nat) (hp : np < n) (x : Nat → Nat → K) (perm : Nat → Nat)
    (r : (Nat → Nat → K) × (Nat → Nat)) :
    sortByMortonIndex sort dims n np x level perm ≠ .ok r := by
  intro h
  rw [sortByMortonIndex, except_bind_eq_ok] at h
  obtain ⟨xn, -, h⟩ := h
  split at h
  · cases h
  · rw [except_bind_eq_ok] at h
    obtain ⟨box, -, h⟩ := h
    have hlen := (hsort.perm _ ((List.range n).map fun i => (i, box i)) keyOrder).length_eq
    simp only [List.length_map, List.length_range] at hlen
    rw [if_pos (by rw [hlen]; exact hp)] at h
    cases h

end

/-- Three points in the plane over the rationals, sorted by merge sort on four
levels. -/
example : ∃ x' perm', sortByMortonIndex (K := ℚ) (fun lt l => l.mergeSort fun a b => !lt b a) 2 3 3
    (fun d i => if d = 0 then 3 - i else i) 4 (fun _ => 0) = .ok (x', perm') ∧ (∀ i < 3, perm' i < 3) := by
  obtain ⟨x', perm', h1, h2, -⟩ := C39_sort (K := ℚ) _ mergeSort_sortSpec 2 3 3 4 (by omega) (by omega) (by omega)
    (by omega) (by omega) (fun d i => if d = 0 then 3 - i else i) (fun _ => 0)
  exact ⟨x', perm', h1, h2⟩

end Verif
