import Verif.Model.Admissible
import Verif.Lemmas.ClusterTree
import Mathlib.Order.Bounds.Basic
import Mathlib.Algebra.BigOperators.Fin
import Mathlib.Algebra.Order.BigOperators.Group.Finset
import Mathlib.Algebra.Order.Ring.Abs
import Mathlib.Tactic.Linarith
import Mathlib.Tactic.FieldSimp
import Mathlib.Data.Set.Finite.Lattice
import Mathlib.Data.Set.Finite.Range
import Mathlib.Data.Set.Finite.Lemmas
import Mathlib.Data.Rat.Cast.Order

/-
C07: geometric admissibility.
-/

namespace Verif

/-- Specification: an axis-parallel box, one closed interval per dimension. -/
structure Box (K : Type) (d : Nat) where
  lo : Fin d → K
  hi : Fin d → K

section
variable {K : Type} [Field K] [LinearOrder K] [IsStrictOrderedRing K]

/-- The points of coordinate list `params` with indices in range `r`. -/
def pointSet (params : List (List K)) (r : IndexRange) (k : Fin params.length) : Set K :=
  { x | ∃ i : Nat, ∃ h : i < params[k].length, r.Has i ∧ params[k][i] = x }

/-- `b` is the bounding box of the points with indices in range `r`. -/
def IsBoundingBox (params : List (List K)) (r : IndexRange) (b : Box K params.length) : Prop :=
  ∀ k, IsLeast (pointSet params r k) (b.lo k) ∧ IsGreatest (pointSet params r k) (b.hi k)

/-- Squared distance of the two box centres. -/
def Box.centerDistSq {d : Nat} (a b : Box K d) : K :=
  ∑ k, ((a.lo k + a.hi k) / 2 - (b.lo k + b.hi k) / 2) ^ 2

/-- `L` is the larger of the longest sides of the boxes, each box grown by 1/2
on every side (0 in dimension 0). -/
def Box.IsDiam {d : Nat} (a b : Box K d) (L : K) : Prop :=
  IsGreatest ({0} ∪ { x | ∃ k, x = a.hi k - a.lo k + 1 } ∪ { x | ∃ k, x = b.hi k - b.lo k + 1 }) L

theorem foldl_min_isLeast (xs : List K) (x : K) :
    IsLeast { y | y ∈ x :: xs } (xs.foldl min x) := by
  induction xs generalizing x with
  | nil => simp [IsLeast, mem_lowerBounds]
  | cons a xs ih =>
    have h := ih (min x a)
    simp only [List.foldl_cons]
    constructor
    · have h1 := h.1
      simp only [Set.mem_ofPred_eq, List.mem_cons] at h1 ⊢
      rcases h1 with h1 | h1
      · rw [h1]
        rcases min_choice x a with h2 | h2 <;> simp [h2]
      · exact Or.inr (Or.inr h1)
    · intro y hy
      simp only [Set.mem_ofPred_eq, List.mem_cons] at hy
      rcases hy with rfl | rfl | hy
      · exact le_trans (h.2 (by simp)) (min_le_left y a)
      · exact le_trans (h.2 (by simp)) (min_le_right x y)
      · exact h.2 (by simp [hy])

theorem foldl_max_isGreatest (xs : List K) (x : K) :
    IsGreatest { y | y ∈ x :: xs } (xs.foldl max x) := by
  induction xs generalizing x with
  | nil => simp [IsGreatest, mem_upperBounds]
  | cons a xs ih =>
    have h := ih (max x a)
    simp only [List.foldl_cons]
    constructor
    · have h1 := h.1
      simp only [Set.mem_ofPred_eq, List.mem_cons] at h1 ⊢
      rcases h1 with h1 | h1
      · rw [h1]
        rcases max_choice x a with h2 | h2 <;> simp [h2]
      · exact Or.inr (Or.inr h1)
    · intro y hy
      simp only [Set.mem_ofPred_eq, List.mem_cons] at hy
      rcases hy with rfl | rfl | hy
      · exact (le_max_left y a).trans (h.2 (by simp))
      · exact (le_max_right x y).trans (h.2 (by simp))
      · exact h.2 (by simp [hy])

theorem coordsRange_mem {coords pts : List K} {r : IndexRange} (h : coordsRange coords r = .ok pts) :
    { y | y ∈ pts } = { x | ∃ i : Nat, ∃ h : i < coords.length, r.Has i ∧ coords[i] = x } := by
  unfold coordsRange at h
  split at h
  · rename_i hr
    simp only [Except.ok.injEq] at h
    subst h
    ext y
    simp only [Set.mem_ofPred_eq]
    constructor
    · intro hy
      obtain ⟨n, hn, rfl⟩ := List.getElem_of_mem hy
      simp only [List.length_take, List.length_drop] at hn
      refine ⟨r.start.toNat + n, by omega, ⟨by omega, by omega⟩, ?_⟩
      simp
    · rintro ⟨i, hi, ⟨h1, h2⟩, rfl⟩
      rw [List.mem_iff_getElem]
      refine ⟨i - r.start.toNat, by simp; omega, ?_⟩
      simp only [List.getElem_take, List.getElem_drop]
      congr 1
      omega
  · simp at h

theorem boxSide_spec {pts : List K} {b : K × K} (h : boxSide pts = .ok b) {lo hi : K}
    (hlo : IsLeast { y | y ∈ pts } lo) (hhi : IsGreatest { y | y ∈ pts } hi) :
    b = (-(1/2) + lo, 1/2 + hi) := by
  cases pts with
  | nil => simp [boxSide, minElement] at h
  | cons x xs =>
    simp only [boxSide, minElement, maxElement, except_bind_ok, Except.ok.injEq] at h
    rw [← h, (foldl_min_isLeast xs x).unique hlo, (foldl_max_isGreatest xs x).unique hhi]

/-- the state of the loop written as sums and maxima over the list -/
theorem boxFold_eq (bs : List ((K × K) × (K × K))) (s : K × K × K) :
    bs.foldl (fun (s : K × K × K) b =>
      (max s.1 (b.1.2 - b.1.1), max s.2.1 (b.2.2 - b.2.1),
       s.2.2 + |center b.1 - center b.2| * |center b.1 - center b.2|)) s =
    ((bs.map (fun b => b.1.2 - b.1.1)).foldl max s.1,
     (bs.map (fun b => b.2.2 - b.2.1)).foldl max s.2.1,
     s.2.2 + (bs.map (fun b => (center b.1 - center b.2) ^ 2)).sum) := by
  induction bs generalizing s with
  | nil => simp
  | cons b bs ih =>
    rw [List.foldl_cons, ih]
    simp only [List.foldl_cons, List.map_cons, List.sum_cons, abs_mul_abs_self]
    refine Prod.ext rfl (Prod.ext rfl ?_)
    simp only; ring

theorem mapM_ok_length {α β : Type} {f : α → Except Err β} {l : List α} {r : List β}
    (h : l.mapM f = .ok r) :
    r.length = l.length ∧ ∀ i (h1 : i < l.length) (h2 : i < r.length), f l[i] = .ok r[i] := by
  induction l generalizing r with
  | nil =>
    simp only [List.mapM_nil] at h
    cases h
    simp
  | cons a l ih =>
    rw [List.mapM_cons, except_bind_eq_ok] at h
    obtain ⟨b, hb, h⟩ := h
    rw [except_bind_eq_ok] at h
    obtain ⟨bs, hbs, h⟩ := h
    cases h
    obtain ⟨h1, h2⟩ := ih hbs
    refine ⟨by simp [h1], ?_⟩
    intro i hi hi2
    cases i with
    | zero => simpa using hb
    | succ i => simpa using h2 i (by simpa using hi) (by simpa using hi2)

/-- What the geometric condition computes: given bounding boxes of the two point
sets, the code accepts exactly if the block is not a vector and
`admis² · diam² < dist²`, where `dist` is the distance of the box centres and
`diam` the longest box side (boxes grown by 1/2).  In particular the decision
depends on the points only through their bounding boxes. -/
theorem C07_decision_from_bounding_boxes (admis : K) (params : List (List K)) (t : NodeInfo)
    (ans : Bool) (h : isAdmissible (.geometry admis params) t = .ok ans)
    (rb cb : Box K params.length) (hr : IsBoundingBox params t.rows rb)
    (hc : IsBoundingBox params t.cols cb) (L : K) (hL : rb.IsDiam cb L) :
    ans = true ↔ (1 < t.rows.n ∧ 1 < t.cols.n ∧ admis ^ 2 * L ^ 2 < rb.centerDistSq cb) := by
  simp only [isAdmissible, except_bind_eq_ok] at h
  obtain ⟨bs, hbs, h⟩ := h
  obtain ⟨hlen, hget⟩ := mapM_ok_length hbs
  have hbs' : bs = List.ofFn (fun k : Fin params.length =>
      ((-(1/2) + rb.lo k, 1/2 + rb.hi k), (-(1/2) + cb.lo k, 1/2 + cb.hi k))) := by
    apply List.ext_getElem (by simp [hlen])
    intro i h1 h2
    have hi : i < params.length := by omega
    have := hget i hi h1
    simp only [except_bind_eq_ok] at this
    obtain ⟨p1, hp1, r, hrr, p2, hp2, c, hcc, e⟩ := this
    have e' : (r, c) = bs[i] := Except.ok.inj e
    have a1 := boxSide_spec hrr (lo := rb.lo ⟨i, hi⟩) (hi := rb.hi ⟨i, hi⟩)
      (by rw [coordsRange_mem hp1]; exact (hr ⟨i, hi⟩).1)
      (by rw [coordsRange_mem hp1]; exact (hr ⟨i, hi⟩).2)
    have a2 := boxSide_spec hcc (lo := cb.lo ⟨i, hi⟩) (hi := cb.hi ⟨i, hi⟩)
      (by rw [coordsRange_mem hp2]; exact (hc ⟨i, hi⟩).1)
      (by rw [coordsRange_mem hp2]; exact (hc ⟨i, hi⟩).2)
    rw [← e', a1, a2, List.getElem_ofFn]
  have hdist : (boxFold bs).2.2 = rb.centerDistSq cb := by
    rw [boxFold, boxFold_eq, hbs']
    simp only [zero_add, List.map_ofFn, List.sum_ofFn, Box.centerDistSq]
    apply Finset.sum_congr rfl
    intro k _
    simp only [Function.comp, center]
    ring
  have hdiam : max (boxFold bs).1 (boxFold bs).2.1 = L := by
    refine IsGreatest.unique (s := ({0} ∪ { x | ∃ k, x = rb.hi k - rb.lo k + 1 } ∪
      { x | ∃ k, x = cb.hi k - cb.lo k + 1 })) ?_ hL
    rw [boxFold, boxFold_eq, hbs']
    simp only [List.map_ofFn]
    have g1 := foldl_max_isGreatest (List.ofFn ((fun b : (K × K) × (K × K) => b.1.2 - b.1.1) ∘
      fun k : Fin params.length =>
      ((-(1/2) + rb.lo k, 1/2 + rb.hi k), (-(1/2) + cb.lo k, 1/2 + cb.hi k)))) (0 : K)
    have g2 := foldl_max_isGreatest (List.ofFn ((fun b : (K × K) × (K × K) => b.2.2 - b.2.1) ∘
      fun k : Fin params.length =>
      ((-(1/2) + rb.lo k, 1/2 + rb.hi k), (-(1/2) + cb.lo k, 1/2 + cb.hi k)))) (0 : K)
    have s1 : ∀ k, rb.hi k - rb.lo k + 1 = 1/2 + rb.hi k - (-(1/2) + rb.lo k) := by
      intro k; ring
    have s2 : ∀ k, cb.hi k - cb.lo k + 1 = 1/2 + cb.hi k - (-(1/2) + cb.lo k) := by
      intro k; ring
    constructor
    · rcases max_choice (List.foldl max (0:K) (List.ofFn _)) (List.foldl max (0:K) (List.ofFn _))
        with h2 | h2
      · rw [h2]
        have := g1.1
        simp only [Set.mem_ofPred_eq, List.mem_cons, List.mem_ofFn, Function.comp] at this
        rcases this with h3 | ⟨k, h3⟩
        · left; left; exact h3
        · left; right; exact ⟨k, by rw [← h3, s1]⟩
      · rw [h2]
        have := g2.1
        simp only [Set.mem_ofPred_eq, List.mem_cons, List.mem_ofFn, Function.comp] at this
        rcases this with h3 | ⟨k, h3⟩
        · left; left; exact h3
        · right; exact ⟨k, by rw [← h3, s2]⟩
    · rintro x ((hx | ⟨k, hx⟩) | ⟨k, hx⟩)
      · exact le_max_of_le_left (g1.2 (by simp at hx; simp [hx]))
      · exact le_max_of_le_left (g1.2 (by
          simp only [Set.mem_ofPred_eq, List.mem_cons, List.mem_ofFn, Function.comp]
          exact Or.inr ⟨k, by rw [hx, s1]⟩))
      · exact le_max_of_le_right (g2.2 (by
          simp only [Set.mem_ofPred_eq, List.mem_cons, List.mem_ofFn, Function.comp]
          exact Or.inr ⟨k, by rw [hx, s2]⟩))
  rw [hdist, hdiam] at h
  have h := Except.ok.inj h
  rw [← h]
  simp only [Bool.and_eq_true, decide_eq_true_eq]
  have : admis * admis * L * L = admis ^ 2 * L ^ 2 := by ring
  rw [this]
  tauto

/-- A node with row and column ranges exchanged. -/
def NodeInfo.swap (t : NodeInfo) : NodeInfo := { t with rows := t.cols, cols := t.rows }

theorem boxFold_swap (bs : List ((K × K) × (K × K))) :
    (boxFold (bs.map Prod.swap)).1 = (boxFold bs).2.1 ∧
    (boxFold (bs.map Prod.swap)).2.1 = (boxFold bs).1 ∧
    (boxFold (bs.map Prod.swap)).2.2 = (boxFold bs).2.2 := by
  simp only [boxFold, boxFold_eq, List.map_map]
  refine ⟨rfl, rfl, ?_⟩
  congr 2
  apply List.map_congr_left
  intro b _
  simp only [Function.comp, Prod.fst_swap, Prod.snd_swap]
  ring

theorem boxes_swap {params : List (List K)} {r c : IndexRange} {bs}
    (h : boxes params r c = .ok bs) : boxes params c r = .ok (bs.map Prod.swap) := by
  unfold boxes at *
  induction params generalizing bs with
  | nil => cases h; rfl
  | cons p ps ih =>
    rw [List.mapM_cons, except_bind_eq_ok] at h
    obtain ⟨b, hb, h⟩ := h
    rw [except_bind_eq_ok] at h
    obtain ⟨bs', hbs, h⟩ := h
    cases h
    rw [List.mapM_cons, ih hbs]
    simp only [except_bind_eq_ok] at hb
    obtain ⟨p1, hp1, r', hrr, p2, hp2, c', hcc, e⟩ := hb
    cases e
    simp only [hp1, hrr, hp2, hcc, except_bind_ok]
    rfl

/-- C07, symmetry: exchanging rows and columns does not change the decision. -/
theorem C07_symmetric (admis : K) (params : List (List K)) (t : NodeInfo) (ans : Bool)
    (h : isAdmissible (.geometry admis params) t = .ok ans) :
    isAdmissible (.geometry admis params) t.swap = .ok ans := by
  simp only [isAdmissible, except_bind_eq_ok] at h ⊢
  obtain ⟨bs, hbs, h⟩ := h
  refine ⟨bs.map Prod.swap, boxes_swap hbs, ?_⟩
  obtain ⟨e1, e2, e3⟩ := boxFold_swap bs
  simp only [e1, e2, e3]
  rw [← h]
  congr 1
  rw [max_comm (boxFold bs).1]
  have : decide (1 < t.swap.rows.n ∧ 1 < t.swap.cols.n) = decide (1 < t.rows.n ∧ 1 < t.cols.n) := by
    exact decide_eq_decide.2 and_comm
  rw [this]

/-- C07, monotone: a block admissible for a constant is admissible for every
smaller non-negative constant. -/
theorem C07_monotone (a a' : K) (h0 : 0 ≤ a) (hle : a ≤ a') (params : List (List K))
    (t : NodeInfo) (h : isAdmissible (.geometry a' params) t = .ok true) :
    isAdmissible (.geometry a params) t = .ok true := by
  simp only [isAdmissible, except_bind_eq_ok] at h ⊢
  obtain ⟨bs, hbs, h⟩ := h
  refine ⟨bs, hbs, ?_⟩
  have h := Except.ok.inj h
  simp only [Bool.and_eq_true, decide_eq_true_eq] at h
  congr 1
  simp only [Bool.and_eq_true, decide_eq_true_eq]
  refine ⟨h.1, lt_of_le_of_lt ?_ h.2⟩
  have h1 : a * a ≤ a' * a' := mul_le_mul hle hle h0 (h0.trans hle)
  have h2 : 0 ≤ max (boxFold bs).1 (boxFold bs).2.1 * max (boxFold bs).1 (boxFold bs).2.1 :=
    mul_self_nonneg _
  rw [mul_assoc, mul_assoc (a' * a')]
  exact mul_le_mul_of_nonneg_right h1 h2

theorem boxSide_congr {p q : List K} {b c : K × K} (hb : boxSide p = .ok b) (hc : boxSide q = .ok c)
    (h : { y | y ∈ p } = { y | y ∈ q }) : b = c := by
  cases p with
  | nil => simp [boxSide, minElement] at hb
  | cons x xs =>
    rw [boxSide_spec hb (foldl_min_isLeast xs x) (foldl_max_isGreatest xs x),
      boxSide_spec hc (h ▸ foldl_min_isLeast xs x) (h ▸ foldl_max_isGreatest xs x)]

/-- C07: a block whose row and column points have the same coordinates is never
admissible, whatever the constant; neither the order of the points nor repetitions
matter. -/
theorem C07_same_points_not_admissible (a : K) (params : List (List K)) (t : NodeInfo)
    (heq : ∀ k, pointSet params t.rows k = pointSet params t.cols k) (ans : Bool)
    (h : isAdmissible (.geometry a params) t = .ok ans) : ans = false := by
  simp only [isAdmissible, except_bind_eq_ok] at h
  obtain ⟨bs, hbs, h⟩ := h
  have hz : (boxFold bs).2.2 = 0 := by
    simp only [boxFold, boxFold_eq, zero_add]
    apply List.sum_eq_zero
    intro x hx
    obtain ⟨b, hb', rfl⟩ := List.mem_map.1 hx
    have hlen := (mapM_ok_length hbs)
    obtain ⟨n, hn, rfl⟩ := List.getElem_of_mem hb'
    have := hlen.2 n (by omega) hn
    simp only [except_bind_eq_ok] at this
    obtain ⟨p1, hp1, r', hrr, p2, hp2, c', hcc, e⟩ := this
    obtain rfl : r' = c' := boxSide_congr hrr hcc (by
      rw [coordsRange_mem hp1, coordsRange_mem hp2]
      exact heq ⟨n, by omega⟩)
    have e := Except.ok.inj e
    rw [← e]; simp
  rw [hz] at h
  have h := Except.ok.inj h
  rw [← h]
  simp only [Bool.and_eq_false_iff, decide_eq_false_iff_not, not_lt]
  right
  have : a * a * max (boxFold bs).1 (boxFold bs).2.1 * max (boxFold bs).1 (boxFold bs).2.1 =
    (a * max (boxFold bs).1 (boxFold bs).2.1) * (a * max (boxFold bs).1 (boxFold bs).2.1) := by ring
  rw [this]
  exact mul_self_nonneg _

/-- C07: a block whose row and column ranges coincide is never admissible,
whatever the constant. -/
theorem C07_diagonal_not_admissible (a : K) (params : List (List K)) (t : NodeInfo)
    (heq : t.rows = t.cols) (ans : Bool) (h : isAdmissible (.geometry a params) t = .ok ans) :
    ans = false :=
  C07_same_points_not_admissible a params t (fun k => by rw [heq]) ans h

/-- C07: the decision is made if and only if both ranges are nonempty and lie inside
every coordinate list. -/
theorem C07_returns (a : K) (params : List (List K)) (t : NodeInfo) :
    (∃ ans, isAdmissible (.geometry a params) t = .ok ans) ↔
      ∀ p ∈ params, (0 ≤ t.rows.start ∧ 1 ≤ t.rows.n ∧ t.rows.start + t.rows.n ≤ p.length) ∧
        0 ≤ t.cols.start ∧ 1 ≤ t.cols.n ∧ t.cols.start + t.cols.n ≤ p.length := by
  have side : ∀ (p : List K) (r : IndexRange), (∃ b, (coordsRange p r >>= boxSide) = .ok b) ↔
      (0 ≤ r.start ∧ 1 ≤ r.n ∧ r.start + r.n ≤ p.length) := by
    intro p r
    simp only [except_bind_eq_ok, coordsRange]
    constructor
    · rintro ⟨b, pts, h1, h2⟩
      split at h1
      · rename_i hr
        refine ⟨hr.1, ?_, hr.2.2⟩
        by_contra hn
        have e := Except.ok.inj h1
        rw [show r.n.toNat = 0 by omega, List.take_zero] at e
        subst e
        simp [boxSide, minElement] at h2
      · simp at h1
    · rintro ⟨h1, h2, h3⟩
      have hb : ∃ b, boxSide ((p.drop r.start.toNat).take r.n.toNat) = .ok b := by
        cases e : (p.drop r.start.toNat).take r.n.toNat with
        | nil =>
          have := congrArg List.length e
          simp only [List.length_take, List.length_drop, List.length_nil] at this
          omega
        | cons x xs => exact ⟨_, rfl⟩
      obtain ⟨b, hb⟩ := hb
      exact ⟨b, _, if_pos ⟨h1, by omega, h3⟩, hb⟩
  have key : (∃ bs, boxes params t.rows t.cols = .ok bs) ↔ ∀ p ∈ params,
      (∃ b, (coordsRange p t.rows >>= boxSide) = .ok b) ∧ ∃ b, (coordsRange p t.cols >>= boxSide) = .ok b := by
    unfold boxes
    induction params with
    | nil => exact ⟨fun _ => by simp, fun _ => ⟨[], rfl⟩⟩
    | cons p ps ih =>
      rw [List.forall_mem_cons, ← ih]
      simp only [List.mapM_cons, except_bind_eq_ok]
      constructor
      · rintro ⟨bs, x, ⟨p1, h1, r, h2, p2, h3, c, h4, -⟩, ys, h5, -⟩
        exact ⟨⟨⟨r, p1, h1, h2⟩, c, p2, h3, h4⟩, ys, h5⟩
      · rintro ⟨⟨⟨r, p1, h1, h2⟩, c, p2, h3, h4⟩, ys, h5⟩
        exact ⟨_, _, ⟨p1, h1, r, h2, p2, h3, c, h4, rfl⟩, ys, h5, rfl⟩
  simp only [side] at key
  rw [← key]
  simp only [isAdmissible, except_bind_eq_ok]
  exact ⟨fun ⟨_, bs, h, _⟩ => ⟨bs, h⟩, fun ⟨bs, h⟩ => ⟨_, bs, h, rfl⟩⟩

/-- C07, separation: if `admis² ≥ d` (the dimension), an admissible block has
bounding boxes that are separated by more than 1 in some coordinate; in
particular no row point is a column point. -/
theorem C07_admissible_separated (a : K) (params : List (List K)) (t : NodeInfo)
    (ha : (params.length : K) ≤ a ^ 2)
    (h : isAdmissible (.geometry a params) t = .ok true)
    (rb cb : Box K params.length) (hr : IsBoundingBox params t.rows rb)
    (hc : IsBoundingBox params t.cols cb) :
    ∃ k, rb.hi k + 1 < cb.lo k ∨ cb.hi k + 1 < rb.lo k := by
  by_contra hno
  push Not at hno
  -- some diameter exists
  have hex : ∃ L, rb.IsDiam cb L := by
    unfold Box.IsDiam
    have hfin : ({0} ∪ { x | ∃ k, x = rb.hi k - rb.lo k + 1 } ∪
      { x | ∃ k, x = cb.hi k - cb.lo k + 1 } : Set K).Finite := by
      refine Set.Finite.union (Set.Finite.union (Set.finite_singleton _) ?_) ?_
      · exact (Set.finite_range (fun k => rb.hi k - rb.lo k + 1)).subset
          (by rintro x ⟨k, rfl⟩; exact ⟨k, rfl⟩)
      · exact (Set.finite_range (fun k => cb.hi k - cb.lo k + 1)).subset
          (by rintro x ⟨k, rfl⟩; exact ⟨k, rfl⟩)
    obtain ⟨L, hL1, hL2⟩ := Set.exists_max_image _ id hfin ⟨0, by simp⟩
    exact ⟨L, hL1, fun x hx => hL2 x hx⟩
  obtain ⟨L, hL⟩ := hex
  have hlt := ((C07_decision_from_bounding_boxes a params t true h rb cb hr hc L hL).1 rfl).2.2
  have h0 : 0 ≤ L := hL.2 (by simp)
  have hle : rb.centerDistSq cb ≤ params.length * L ^ 2 := by
    unfold Box.centerDistSq
    calc _ ≤ ∑ _k : Fin params.length, L ^ 2 := by
          apply Finset.sum_le_sum
          intro k _
          have l1 : rb.hi k - rb.lo k + 1 ≤ L := hL.2 (by left; right; exact ⟨k, rfl⟩)
          have l2 : cb.hi k - cb.lo k + 1 ≤ L := hL.2 (by right; exact ⟨k, rfl⟩)
          obtain ⟨n1, n2⟩ := hno k
          apply sq_le_sq'
          · linarith
          · linarith
      _ = params.length * L ^ 2 := by simp
  have : (params.length : K) * L ^ 2 ≤ a ^ 2 * L ^ 2 :=
    mul_le_mul_of_nonneg_right ha (sq_nonneg L)
  linarith

end

-- non-trivial instances: two well separated pairs of points on a line
example : isAdmissible (.geometry (1 : ℚ) [[0, 1, 10, 11]])
    { (default : NodeInfo) with rows := ⟨0, 2⟩, cols := ⟨2, 2⟩ } = .ok true := by
  simp [isAdmissible, boxes, coordsRange, boxSide, minElement, maxElement, boxFold, center]
  norm_num
example : isAdmissible (.geometry (1 : ℚ) [[0, 1, 2, 3]])
    { (default : NodeInfo) with rows := ⟨0, 2⟩, cols := ⟨2, 2⟩ } = .ok false := by
  simp [isAdmissible, boxes, coordsRange, boxSide, minElement, maxElement, boxFold, center]
  norm_num
-- the same two points in another order, listed again further on
example : isAdmissible (.geometry (0 : ℚ) [[0, 5, 5, 0]])
    { (default : NodeInfo) with rows := ⟨0, 2⟩, cols := ⟨2, 2⟩ } = .ok false := by
  simp [isAdmissible, boxes, coordsRange, boxSide, minElement, maxElement, boxFold, center]

end Verif
