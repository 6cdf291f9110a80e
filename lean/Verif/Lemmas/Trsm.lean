import Verif.Lemmas.Trmm
import Mathlib.Tactic.FieldSimp

set_option linter.unusedSectionVars false
set_option linter.unusedVariables false

namespace Verif
open Finset

variable {R : Type}

theorem loop_congr {σ : Type _} {n : Nat} {f f' : Nat → σ → Except Err σ} (s : σ)
    (h : ∀ i < n, ∀ x, f i x = f' i x) : loop n f s = loop n f' s := by
  induction n with
  | zero => rfl
  | succ n ih =>
    rw [loop_succ, loop_succ, ih (fun i hi => h i (by omega))]
    congr 1
    funext x
    exact h n (by omega) x

namespace Mat

/-- Direction of the substitution. -/
def backwards (uplo : Uplo) (side : Side) : Bool :=
  match uplo, side with
  | .upper, .left => true
  | .upper, .right => false
  | .lower, .left => false
  | .lower, .right => true

theorem solveOrder_lt {b : Bool} {n t : Nat} (h : t < n) : Dense.solveOrder b n t < n := by
  cases b <;> simp [Dense.solveOrder] <;> omega

theorem solveOrder_invol {b : Bool} {n t : Nat} (h : t < n) :
    Dense.solveOrder b n (Dense.solveOrder b n t) = t := by
  cases b <;> simp [Dense.solveOrder]; omega

theorem solveOrder_inj {b : Bool} {n t u : Nat} (h : t < n) (hu : u < n)
    (e : Dense.solveOrder b n t = Dense.solveOrder b n u) : t = u := by
  have := congrArg (Dense.solveOrder b n) e
  rwa [solveOrder_invol h, solveOrder_invol hu] at this

theorem sum_solveOrder [CommRing R] (uplo : Uplo) (side : Side) {n t : Nat} (ht : t < n) (f : Nat → R) :
    ∑ u ∈ range t, f (Dense.solveOrder (backwards uplo side) n u) =
      ∑ k ∈ range n, if strictB uplo side (Dense.solveOrder (backwards uplo side) n t) k then f k else 0 := by
  have fwd : ∑ u ∈ range t, f (Dense.solveOrder false n u) =
      ∑ k ∈ range n, if k < t then f k else 0 := by
    rw [sum_below (by omega)]
    rfl
  have bwd : ∑ u ∈ range t, f (Dense.solveOrder true n u) =
      ∑ k ∈ range n, if n - 1 - t < k then f k else 0 := by
    rw [sum_above (by omega), ← Finset.sum_range_reflect, show n - (n - 1 - t + 1) = t by omega]
    refine Finset.sum_congr rfl (fun u hu => ?_)
    have := mem_range.1 hu
    show f (n - 1 - (t - 1 - u)) = _
    congr 1
    omega
  cases uplo <;> cases side <;> simp only [backwards]
  · exact bwd.trans (Finset.sum_congr rfl fun k _ => if_congr decide_eq_true_iff.symm rfl rfl)
  · exact fwd.trans (Finset.sum_congr rfl fun k _ => if_congr decide_eq_true_iff.symm rfl rfl)
  · exact fwd.trans (Finset.sum_congr rfl fun k _ => if_congr decide_eq_true_iff.symm rfl rfl)
  · exact bwd.trans (Finset.sum_congr rfl fun k _ => if_congr decide_eq_true_iff.symm rfl rfl)

theorem solveOrder_exists {uplo : Uplo} {side : Side} {n t k : Nat} (ht : t < n) (hk : k < n)
    (hs : strictB uplo side (Dense.solveOrder (backwards uplo side) n t) k = true) :
    ∃ u < t, Dense.solveOrder (backwards uplo side) n u = k := by
  cases uplo <;> cases side <;> have hs := of_decide_eq_true hs <;>
    simp only [backwards, Dense.solveOrder] at hs ⊢
  · exact ⟨n - 1 - k, by simp at hs; omega, by simp; omega⟩
  · exact ⟨k, by simpa using hs, by simp⟩
  · exact ⟨k, by simpa using hs, by simp⟩
  · exact ⟨n - 1 - k, by simp at hs; omega, by simp; omega⟩

/-! ### dense substitution -/

section
variable [Field R]

theorem subst_spec {T : Nat → Nat → R} {σ : Nat → Nat} {n : Nat} {b : Nat → R}
    (inj : ∀ t < n, ∀ u < n, σ t = σ u → t = u) (hz : ∀ t < n, T (σ t) (σ t) ≠ 0) :
    ∀ m ≤ n, (∀ t < m, ∑ u ∈ range t, T (σ t) (σ u) * Dense.subst T σ m b (σ u) +
        T (σ t) (σ t) * Dense.subst T σ m b (σ t) = b (σ t)) ∧
      ∀ t < n, m ≤ t → Dense.subst T σ m b (σ t) = b (σ t) := by
  intro m
  induction m with
  | zero => exact fun _ => ⟨fun t ht => by omega, fun t _ _ => rfl⟩
  | succ m ih =>
    intro hm
    obtain ⟨h1, h2⟩ := ih (by omega)
    have old : ∀ t < n, t ≠ m → Dense.subst T σ (m + 1) b (σ t) = Dense.subst T σ m b (σ t) := by
      intro t ht hne
      show (if σ t = σ m then _ else _) = _
      rw [if_neg (fun e => hne (inj t ht m (by omega) e))]
    have new : Dense.subst T σ (m + 1) b (σ m) =
        (Dense.subst T σ m b (σ m) - ∑ u ∈ range m, T (σ m) (σ u) * Dense.subst T σ m b (σ u)) /
          T (σ m) (σ m) := by
      show (if σ m = σ m then _ else _) = _
      rw [if_pos rfl]
    refine ⟨fun t ht => ?_, fun t ht hle => ?_⟩
    · have es : ∑ u ∈ range t, T (σ t) (σ u) * Dense.subst T σ (m + 1) b (σ u) =
          ∑ u ∈ range t, T (σ t) (σ u) * Dense.subst T σ m b (σ u) :=
        Finset.sum_congr rfl (fun u hu => by
          have := mem_range.1 hu
          rw [old u (by omega) (by omega)])
      rw [es]
      by_cases e : t = m
      · subst e
        rw [new, h2 t (by omega) le_rfl]
        have := hz t (by omega)
        field_simp
        ring
      · rw [old t (by omega) e]
        exact h1 t (by omega)
    · rw [old t ht (by omega)]
      exact h2 t ht (by omega)

theorem subst_tri (uplo : Uplo) (side : Side) {T : Nat → Nat → R} {n : Nat} {b : Nat → R}
    (hT : ∀ d k, T d k = if k = d then T d d else if strictB uplo side d k then T d k else 0)
    (hz : ∀ t < n, T t t ≠ 0) {d : Nat} (hd : d < n) :
    ∑ k ∈ range n, T d k * Dense.subst T (Dense.solveOrder (backwards uplo side) n) n b k = b d := by
  obtain ⟨h1, -⟩ := subst_spec (T := T) (b := b) (σ := Dense.solveOrder (backwards uplo side) n) (n := n)
    (fun t ht u hu => solveOrder_inj ht hu) (fun t ht => hz _ (solveOrder_lt ht)) n le_rfl
  have h := h1 _ (solveOrder_lt (b := backwards uplo side) hd)
  rw [sum_solveOrder uplo side (solveOrder_lt hd)
    (fun k => T (Dense.solveOrder (backwards uplo side) n (Dense.solveOrder (backwards uplo side) n d)) k *
      Dense.subst T (Dense.solveOrder (backwards uplo side) n) n b k)] at h
  simp only [solveOrder_invol hd] at h
  rw [← h, add_comm]
  refine sum_diag_strict hd uplo side _ _ (fun k hk => ?_)
  rw [hT d k]
  by_cases e : k = d
  · subst e; simp
  · simp only [e, if_false]
    by_cases s : strictB uplo side d k = true
    · simp only [s, if_true]
    · simp only [s, if_false, zero_mul, Bool.false_eq_true]

theorem tri_strict (uplo : Uplo) (unit : Bool) (a : Dense R) (d k : Nat) :
    a.tri uplo unit d k = if k = d then a.tri uplo unit d d
      else if strictB uplo .left d k then a.tri uplo unit d k else 0 := by
  by_cases e : k = d
  · subst e; rw [if_pos rfl]
  · rw [if_neg e]
    have e' : ¬ d = k := fun h => e h.symm
    cases uplo
    · by_cases h : d < k
      · have : strictB .upper .left d k = true := decide_eq_true h
        rw [this, if_pos rfl]
      · have : strictB .upper .left d k = false := decide_eq_false h
        rw [this]
        simp only [Dense.tri, e', if_false, h, Bool.false_eq_true]
    · by_cases h : k < d
      · have : strictB .lower .left d k = true := decide_eq_true h
        rw [this, if_pos rfl]
      · have : strictB .lower .left d k = false := decide_eq_false h
        rw [this]
        simp only [Dense.tri, e', if_false, h, Bool.false_eq_true]

theorem tri_strict_right (uplo : Uplo) (unit : Bool) (a : Dense R) (d k : Nat) :
    a.tri uplo unit k d = if k = d then a.tri uplo unit d d
      else if strictB uplo .right d k then a.tri uplo unit k d else 0 := by
  rw [tri_strict uplo unit a k d]
  by_cases e : k = d
  · subst e; rw [if_pos rfl, if_pos rfl]
  · have e' : ¬ d = k := fun h => e h.symm
    rw [if_neg e, if_neg e']
    have : strictB uplo .left k d = strictB uplo .right d k := by cases uplo <;> rfl
    rw [this]
    split <;> rfl

variable [DecidableEq R]

theorem Dense_trsm_ok {uplo : Uplo} {side : Side} {a b d : Dense R}
    (hn : a.rows = side.pick b.rows b.cols) (h : Dense.trsm uplo side a b = .ok d) :
    d.rows = b.rows ∧ d.cols = b.cols ∧ ∀ i < b.rows, ∀ j < b.cols,
      sideProd side a.rows (triEntry uplo (decide (uplo = .lower)) (.dense a)) (.dense d) i j =
        b.val i j := by
  simp only [Dense.trsm] at h
  split at h
  · rename_i h0
    cases h
    exact ⟨rfl, rfl, fun i hi j hj => by omega⟩
  · split at h
    · rename_i _ h1
      cases h
      obtain ⟨-, -, hz⟩ := h1
      refine ⟨rfl, rfl, fun i hi j hj => ?_⟩
      have hz' : ∀ t < side.pick b.rows b.cols, a.tri uplo (decide (uplo = .lower)) t t ≠ 0 := by
        intro t ht
        have := List.all_eq_true.1 hz t (List.mem_range.2 ht)
        exact of_decide_eq_true this
      cases side
      · have := subst_tri uplo .left (T := a.tri uplo (decide (uplo = .lower)))
          (b := fun l => b.val l j) (tri_strict uplo _ a) hz' (show i < b.rows from hi)
        rw [hn]
        cases uplo <;> exact this
      · have := subst_tri uplo .right (T := fun x y => a.tri uplo (decide (uplo = .lower)) y x)
          (b := fun l => b.val i l) (fun x y => tri_strict_right uplo _ a x y) hz' (show j < b.cols from hj)
        rw [hn]
        have e : ∀ X : Dense R, sideProd .right b.cols (triEntry uplo (decide (uplo = .lower)) (.dense a))
            (.dense X) i j = ∑ k ∈ range b.cols, a.tri uplo (decide (uplo = .lower)) k j * X.val i k :=
          fun X => Finset.sum_congr rfl (fun k _ => mul_comm _ _)
        refine (e _).trans ?_
        cases uplo <;> exact this
    · cases h

theorem Dense_trsm_dims {uplo : Uplo} {side : Side} {a b d : Dense R}
    (h : Dense.trsm uplo side a b = .ok d) : d.rows = b.rows ∧ d.cols = b.cols := by
  simp only [Dense.trsm] at h
  split at h
  · cases h; exact ⟨rfl, rfl⟩
  · split at h
    · cases h; exact ⟨rfl, rfl⟩
    · cases h

end

/-! ### block substitution -/

theorem blockSubst_ok {n : Nat} {gm : Nat → Nat → Mat R → Mat R → Except Err (Mat R)}
    {sv : Nat → Mat R → Except Err (Mat R)} {σ : Nat → Nat} {x X : Nat → Mat R}
    (inj : ∀ t < n, ∀ u < n, σ t = σ u → t = u) (h : blockSubst n gm sv σ x = .ok X) :
    ∀ t < n, ∃ b, loop t (fun u b => gm (σ t) (σ u) (X (σ u)) b) (x (σ t)) = .ok b ∧
      sv (σ t) b = .ok (X (σ t)) := by
  have := loop_inv (fun m (y : Nat → Mat R) =>
    (∀ t < m, ∃ b, loop t (fun u b => gm (σ t) (σ u) (y (σ u)) b) (x (σ t)) = .ok b ∧
      sv (σ t) b = .ok (y (σ t))) ∧ ∀ t < n, m ≤ t → y (σ t) = x (σ t))
    ⟨fun t ht => by omega, fun t _ _ => rfl⟩ (fun m hm y y' hI hs => by
      simp only [except_bind_eq_ok] at hs
      obtain ⟨b, hb, b', hb', hs⟩ := hs
      cases hs
      have old : ∀ t < n, t ≠ m → (fun i => if i = σ m then b' else y i) (σ t) = y (σ t) := by
        intro t ht hne
        exact if_neg (fun e => hne (inj t ht m hm e))
      refine ⟨fun t ht => ?_, fun t ht hle => ?_⟩
      · have lc : ∀ s, loop t (fun u b => gm (σ t) (σ u) ((fun i => if i = σ m then b' else y i) (σ u)) b) s
            = loop t (fun u b => gm (σ t) (σ u) (y (σ u)) b) s := fun s =>
          loop_congr s (fun u hu b => by rw [old u (by omega) (by omega)])
        by_cases e : t = m
        · subst e
          rw [hI.2 t hm le_rfl] at hb
          refine ⟨b, (lc _).trans hb, ?_⟩
          rw [hb']
          simp
        · obtain ⟨c, hc, hc'⟩ := hI.1 t (by omega)
          exact ⟨c, (lc _).trans hc, by rw [hc', old t (by omega) e]⟩
      · rw [old t ht (by omega)]
        exact hI.2 t ht (by omega)) h
  exact this.1

theorem blockAt_ok {p q : Nat} {A : Nat → Nat → Mat R} {i j : Nat} {a : Mat R}
    (h : blockAt p q A i j = .ok a) : i < p ∧ j < q ∧ a = A i j := by
  simp only [blockAt, except_bind_eq_ok, assertM_eq_ok, decide_eq_true_eq] at h
  obtain ⟨-, h1, -, h2, h⟩ := h
  cases h
  exact ⟨h1, h2, rfl⟩

section
variable [Field R] [DecidableEq R]

/-- What the substitution loops do, in one form for the three supported cases. -/
theorem trsmHH_spec {g : GemmT R} {t : Mat R → Mat R → Except Err (Mat R)} {uplo : Uplo} {side : Side}
    {p q r s : Nat} {A B : Nat → Nat → Mat R} {B' : Mat R} (h : trsmHH g t uplo side p q A r s B = .ok B') :
    ∃ X, B' = .hier r s X ∧ ∀ i < r, ∀ j < s,
      side.pick i j < p ∧ side.pick i j < q ∧
      ∃ b, loop (Dense.solveOrder (backwards uplo side) (side.pick r s) (side.pick i j)) (fun u b => do
          let a ← side.pick
            (blockAt p q A i (Dense.solveOrder (backwards uplo side) (side.pick r s) u))
            (blockAt p q A (Dense.solveOrder (backwards uplo side) (side.pick r s) u) j)
          side.pick
            (g a (X (Dense.solveOrder (backwards uplo side) (side.pick r s) u) j) b (-1) 1 false false)
            (g (X i (Dense.solveOrder (backwards uplo side) (side.pick r s) u)) a b (-1) 1 false false))
          (B i j) = .ok b ∧
        t (A (side.pick i j) (side.pick i j)) b = .ok (X i j) := by
  cases uplo <;> cases side <;> simp only [trsmHH] at h
  · split at h
    · rename_i hs
      subst hs
      simp only [except_bind_eq_ok] at h
      obtain ⟨X, hX, h⟩ := h
      cases h
      refine ⟨_, rfl, fun i hi j hj => ?_⟩
      have hj0 : j = 0 := by omega
      subst hj0
      obtain ⟨b, hb, hb'⟩ := blockSubst_ok (fun t ht u hu => solveOrder_inj ht hu) hX _
        (solveOrder_lt (b := true) hi)
      simp only [solveOrder_invol hi, except_bind_eq_ok] at hb hb'
      obtain ⟨a, ha, hb'⟩ := hb'
      obtain ⟨h1, h2, rfl⟩ := blockAt_ok ha
      exact ⟨h1, h2, b, hb, hb'⟩
    · cases h
  · simp only [except_bind_eq_ok] at h
    obtain ⟨X, hX, h⟩ := h
    cases h
    refine ⟨_, rfl, fun i hi j hj => ?_⟩
    obtain ⟨b, hb, hb'⟩ := blockSubst_ok (fun t ht u hu => solveOrder_inj ht hu) (collect_ok hX i hi) _
      (solveOrder_lt (b := false) hj)
    simp only [solveOrder_invol hj, except_bind_eq_ok] at hb hb'
    obtain ⟨a, ha, hb'⟩ := hb'
    obtain ⟨h1, h2, rfl⟩ := blockAt_ok ha
    exact ⟨h1, h2, b, hb, hb'⟩
  · simp only [except_bind_eq_ok] at h
    obtain ⟨X, hX, h⟩ := h
    cases h
    refine ⟨_, rfl, fun i hi j hj => ?_⟩
    obtain ⟨b, hb, hb'⟩ := blockSubst_ok (fun t ht u hu => solveOrder_inj ht hu) (collect_ok hX j hj) _
      (solveOrder_lt (b := false) hi)
    simp only [solveOrder_invol hi, except_bind_eq_ok] at hb hb'
    obtain ⟨a, ha, hb'⟩ := hb'
    obtain ⟨h1, h2, rfl⟩ := blockAt_ok ha
    exact ⟨h1, h2, b, hb, hb'⟩
  · cases h

/-- The updates of one block before it is solved. -/
theorem trsm_line {ex : Prop} {g : GemmT R} (hg : GemmOk ex False g) {uplo : Uplo} {side : Side}
    {p q r s : Nat} {A X : Nat → Nat → Mat R} (hA : (Mat.hier p q A).WF) {i j : Nat} (hi : i < r)
    (hj : j < s) {c b : Mat R} (hc : c.WF) (hcs : c.Square)
    (hd : side.pick i j < p ∧ side.pick i j < q)
    (hX : ∀ u < Dense.solveOrder (backwards uplo side) (side.pick r s) (side.pick i j),
      (side.pick (X (Dense.solveOrder (backwards uplo side) (side.pick r s) u) j)
        (X i (Dense.solveOrder (backwards uplo side) (side.pick r s) u))).WF)
    (h : loop (Dense.solveOrder (backwards uplo side) (side.pick r s) (side.pick i j)) (fun u b => do
          let a ← side.pick
            (blockAt p q A i (Dense.solveOrder (backwards uplo side) (side.pick r s) u))
            (blockAt p q A (Dense.solveOrder (backwards uplo side) (side.pick r s) u) j)
          side.pick
            (g a (X (Dense.solveOrder (backwards uplo side) (side.pick r s) u) j) b (-1) 1 false false)
            (g (X i (Dense.solveOrder (backwards uplo side) (side.pick r s) u)) a b (-1) 1 false false))
          c = .ok b) (hpr : side.pick r s ≤ p) (hqr : side.pick r s ≤ q) :
    (∀ k < side.pick r s, strictB uplo side (side.pick i j) k = true →
      side.pick (GemmDims false false (A i k) (X k j) c) (GemmDims false false (X i k) (A k j) c)) ∧
    b.WF ∧ b.Square ∧ c.SameShape b ∧
    ∀ x < c.nRows, ∀ y < c.nCols, (c.denseAt x y ∨ ex) →
      b.entry x y = - offProd uplo side (side.pick r s) A X i j x y + c.entry x y := by
  have hn : side.pick i j < side.pick r s := by cases side <;> simpa [Side.pick]
  generalize hσ : Dense.solveOrder (backwards uplo side) (side.pick r s) = σ at *
  have hlt : ∀ u < σ (side.pick i j), σ u < side.pick r s := by
    intro u hu
    rw [← hσ] at hu ⊢
    have := solveOrder_lt (b := backwards uplo side) hn
    exact solveOrder_lt (by omega)
  simp only [WF] at hA
  obtain ⟨-, -, hAd⟩ := hA
  have L := loop_post hg (a := fun u => side.pick (A i (σ u)) (X i (σ u)))
    (b := fun u => side.pick (X (σ u) j) (A (σ u) j)) (β := fun _ => 1) (α := -1) (ta := false)
    (tb := false) hc hcs
    (fun u hu => by
      have := hlt u hu
      cases side
      · exact (hAd i hd.1 _ (by omega)).1
      · exact hX u hu)
    (fun u hu => by
      have := hlt u hu
      cases side
      · exact hX u hu
      · exact (hAd _ (by omega) j hd.2).1)
    (fun u _ => TransSafe_ff _ _) (fun u _ hf => hf.elim)
    (fun u _ x x' hx => by
      simp only [except_bind_eq_ok] at hx
      obtain ⟨a, ha, hx⟩ := hx
      cases side
      · obtain ⟨-, -, rfl⟩ := blockAt_ok ha
        exact hx
      · obtain ⟨-, -, rfl⟩ := blockAt_ok ha
        exact hx) (fun _ _ => rfl) h
  refine ⟨?_, L.2.1, L.2.2.1, L.2.2.2.1, ?_⟩
  · intro k hk hst
    have hst' : strictB uplo side (Dense.solveOrder (backwards uplo side) (side.pick r s)
        (σ (side.pick i j))) k = true := by
      rw [← hσ, solveOrder_invol hn]; exact hst
    obtain ⟨u, hu, rfl⟩ := solveOrder_exists (by rw [← hσ]; exact solveOrder_lt hn) hk hst'
    have := L.1 u hu
    rw [hσ]
    cases side <;> exact this
  · intro x hx y hy hP
    rw [L.2.2.2.2 x hx y hy hP]
    have e : (if σ (side.pick i j) = 0 then (1 : R) else 1) = 1 := by
      split <;> rfl
    simp only [e, one_mul, neg_mul]
    congr 2
    have := sum_solveOrder uplo side (n := side.pick r s) (t := σ (side.pick i j))
      (by rw [← hσ]; exact solveOrder_lt hn)
      (fun k => prodEntry false false (side.pick (A i k) (X i k)) (side.pick (X k j) (A k j)) x y)
    rw [hσ] at this
    rw [this, ← hσ, solveOrder_invol hn, offProd]
    refine Finset.sum_congr rfl (fun k _ => ?_)
    cases side <;> rfl

/-- Shapes along a substitution loop, given that the solver keeps the shape. -/
theorem trsmHH_shape {ex : Prop} {g : GemmT R} (hg : GemmOk ex False g)
    {t : Mat R → Mat R → Except Err (Mat R)}
    (ht : ∀ A B B', A.WF → B.WF → B.Square → t A B = .ok B' → B'.WF ∧ B'.Square ∧ B.SameShape B')
    {uplo : Uplo} {side : Side} {p q r s : Nat} {A B : Nat → Nat → Mat R} {B' : Mat R}
    (hA : (Mat.hier p q A).WF) (hB : (Mat.hier r s B).WF) (hBs : (Mat.hier r s B).Square)
    (h : trsmHH g t uplo side p q A r s B = .ok B') :
    ∃ X, B' = .hier r s X ∧
      (∀ i < r, ∀ j < s, (X i j).WF ∧ (X i j).Square ∧ (B i j).SameShape (X i j)) ∧
      side.pick r s ≤ p ∧ side.pick r s ≤ q ∧
      ∀ i < r, ∀ j < s, ∃ b,
        (∀ k < side.pick r s, strictB uplo side (side.pick i j) k = true →
          side.pick (GemmDims false false (A i k) (X k j) (B i j))
            (GemmDims false false (X i k) (A k j) (B i j))) ∧
        b.WF ∧ b.Square ∧ (B i j).SameShape b ∧
        (∀ x < (B i j).nRows, ∀ y < (B i j).nCols, ((B i j).denseAt x y ∨ ex) →
          b.entry x y = - offProd uplo side (side.pick r s) A X i j x y + (B i j).entry x y) ∧
        t (A (side.pick i j) (side.pick i j)) b = .ok (X i j) := by
  obtain ⟨X, rfl, H⟩ := trsmHH_spec h
  have hB' := hB
  have hA' := hA
  simp only [WF] at hB' hA'
  obtain ⟨hr0, hs0, hBd⟩ := hB'
  have bounds : side.pick r s ≤ p ∧ side.pick r s ≤ q := by
    cases side
    · have := H (r - 1) (by omega) 0 (by omega)
      simp only [Side.pick_left] at this ⊢
      omega
    · have := H 0 (by omega) (s - 1) (by omega)
      simp only [Side.pick_right] at this ⊢
      omega
  have key : ∀ m, ∀ i < r, ∀ j < s,
      Dense.solveOrder (backwards uplo side) (side.pick r s) (side.pick i j) = m →
      (X i j).WF ∧ (X i j).Square ∧ (B i j).SameShape (X i j) := by
    intro m
    induction m using Nat.strong_induction_on with
    | _ m ih =>
      intro i hi j hj hm
      obtain ⟨h1, h2, b, hb, hb'⟩ := H i hi j hj
      have hn : side.pick i j < side.pick r s := by cases side <;> simpa [Side.pick]
      have hlt := solveOrder_lt (b := backwards uplo side) hn
      have L := trsm_line hg hA hi hj (hBd i hi j hj).1 (hBs i hi j hj) ⟨h1, h2⟩ (fun u hu => by
        have hu' : u < side.pick r s := by omega
        have hl := solveOrder_lt (b := backwards uplo side) hu'
        have hv := solveOrder_invol (b := backwards uplo side) hu'
        cases side
        · exact (ih u (by omega) _ hl j hj hv).1
        · exact (ih u (by omega) i hi _ hl hv).1) hb bounds.1 bounds.2
      have S := ht _ _ _ (hA'.2.2 _ h1 _ h2).1 L.2.1 L.2.2.1 hb'
      exact ⟨S.1, S.2.1, L.2.2.2.1.trans S.2.2⟩
  refine ⟨X, rfl, fun i hi j hj => key _ i hi j hj rfl, bounds.1, bounds.2, fun i hi j hj => ?_⟩
  obtain ⟨h1, h2, b, hb, hb'⟩ := H i hi j hj
  have hn : side.pick i j < side.pick r s := by cases side <;> simpa [Side.pick]
  have hlt := solveOrder_lt (b := backwards uplo side) hn
  have L := trsm_line hg hA hi hj (hBd i hi j hj).1 (hBs i hi j hj) ⟨h1, h2⟩ (fun u hu => by
    have hu' : u < side.pick r s := by omega
    have hl := solveOrder_lt (b := backwards uplo side) hu'
    cases side
    · exact (key _ _ hl j hj rfl).1
    · exact (key _ i hi _ hl rfl).1) hb bounds.1 bounds.2
  exact ⟨b, L.1, L.2.1, L.2.2.1, L.2.2.2.1, L.2.2.2.2, hb'⟩

theorem trsmWith_shape {ex : Prop} {g : GemmT R} (hg : GemmOk ex False g) {side : Side} {uplo : Uplo}
    (fuel : Nat) : ∀ A B B', A.WF → B.WF → B.Square →
      trsmWith g uplo side fuel A B = .ok B' → B'.WF ∧ B'.Square ∧ B.SameShape B' := by
  induction fuel with
  | zero => intro A B B' _ _ _ h; cases h
  | succ fuel ih =>
    intro A B B' hA hB hBs h
    simp only [trsmWith] at h
    have lr : ∀ b : LowRank R, b.WF → b.Square → trsmOmm g (trsmWith g uplo side fuel) uplo side A
        (.lowRank b) = .ok B' → B'.WF ∧ B'.Square ∧ (Mat.lowRank b).SameShape B' := by
      intro b hb hbs h
      have h : (do
        let X ← trsmWith g uplo side fuel A (.dense (b.outer side))
        let X ← X.asDense
        .ok (.lowRank (b.setOuter side X))) = Except.ok B' := by
        rw [← h]; cases A <;> rfl
      simp only [except_bind_eq_ok] at h
      obtain ⟨X, hX, d, hd, h⟩ := h
      cases h
      have I := ih A (.dense (b.outer side)) X hA trivial trivial hX
      obtain rfl := asDense_ok hd
      exact ⟨setOuter_wf hb I.2.2.1.symm I.2.2.2.symm, setOuter_square hbs, setOuter_shape⟩
    cases B with
    | lowRank b => exact lr b hB hBs h
    | empty => cases A <;> cases h
    | dense b =>
      cases A with
      | lowRank a => cases h
      | empty => cases h
      | dense a =>
        simp only [trsmOmm, except_bind_eq_ok] at h
        obtain ⟨d, hd, h⟩ := h
        cases h
        have := Dense_trsm_dims hd
        exact ⟨trivial, trivial, this.1.symm, this.2.symm⟩
      | hier p q A =>
        have hA0 := hA
        simp only [WF] at hA0
        simp only [trsmOmm, except_bind_eq_ok] at h
        obtain ⟨BH, hBH, BH', hBH', h⟩ := h
        have h1 : 1 ≤ side.pick p 1 := by cases side <;> simp [Side.pick] ; omega
        have h2 : 1 ≤ side.pick 1 q := by cases side <;> simp [Side.pick] ; omega
        obtain ⟨bl, rfl, w, -, dl⟩ := split_dense_leaves h1 h2 hBH
        have I := ih _ _ _ hA w (dense_leaves dl).square hBH'
        obtain ⟨d, rfl, e1, e2, -⟩ := joinDense_entries h1 h2 hBH I.2.2 h
        exact ⟨trivial, trivial, e1.symm, e2.symm⟩
    | hier r s B =>
      cases A with
      | lowRank a => cases h
      | empty => cases h
      | dense a => cases h
      | hier p q A =>
        obtain ⟨X, rfl, key, -⟩ := trsmHH_shape hg ih hA hB hBs h
        have hB' := hB
        simp only [WF] at hB'
        have G := hier_grid (blk := X) (h := fun a => (B a 0).nRows) (w := fun b => (B 0 b).nCols)
          hB'.1 hB'.2.1 (fun i hi j hj => ⟨(key i hi j hj).1, by
            rw [((key i hi j hj).2.2.dims (hB'.2.2 i hi j hj).1).1, (hB'.2.2 i hi j hj).2.1], by
            rw [((key i hi j hj).2.2.dims (hB'.2.2 i hi j hj).1).2, (hB'.2.2 i hi j hj).2.2]⟩)
        exact ⟨G.1, fun i hi j hj => (key i hi j hj).2.1, rfl, rfl, fun i hi j hj => (key i hi j hj).2.2⟩

theorem trsmWith_ok {ex : Prop} {g : GemmT R} (hg : GemmOk ex False g) {side : Side} {uplo : Uplo}
    (fuel : Nat) : ∀ A B B', A.WF → B.WF → B.Square → A.DiagSquare →
      TriFits side A B → A.nRows = side.pick B.nRows B.nCols →
      trsmWith g uplo side fuel A B = .ok B' →
      TrsmPost ex side (triEntry uplo (decide (uplo = .lower)) A) A.nRows B B' := by
  induction fuel with
  | zero => intro A B B' _ _ _ _ _ _ h; cases h
  | succ fuel ih =>
    intro A B B' hA hB hBs hD hT hn h
    have S := trsmWith_shape hg (fuel + 1) A B B' hA hB hBs h
    simp only [trsmWith] at h
    cases B with
    | lowRank b =>
      have h : (do
        let X ← trsmWith g uplo side fuel A (.dense (b.outer side))
        let X ← X.asDense
        .ok (.lowRank (b.setOuter side X))) = Except.ok B' := by
        rw [← h]; cases A <;> rfl
      simp only [except_bind_eq_ok] at h
      obtain ⟨X, hX, d, hd, h⟩ := h
      cases h
      have hb : b.WF := hB
      have I := ih A (.dense (b.outer side)) X hA trivial trivial hD (TriFits_dense _ _ _) (by
        rw [hn]
        cases side
        · exact hb.urows.symm
        · exact hb.vcols.symm) hX
      obtain rfl := asDense_ok hd
      exact ⟨S.1, S.2.1, S.2.2, fun i hi j hj _ =>
        setOuter_trsm hb (fun x hx y hy => I.ent x hx y hy (Or.inl trivial)) i hi j hj⟩
    | empty => cases A <;> cases h
    | dense b =>
      cases A with
      | lowRank a => cases h
      | empty => cases h
      | dense a =>
        simp only [trsmOmm, except_bind_eq_ok] at h
        obtain ⟨d, hd, h⟩ := h
        cases h
        exact ⟨S.1, S.2.1, S.2.2, fun i hi j hj _ => (Dense_trsm_ok hn hd).2.2 i hi j hj⟩
      | hier p q A =>
        have hA0 := hA
        simp only [WF] at hA0
        simp only [trsmOmm, except_bind_eq_ok] at h
        obtain ⟨BH, hBH, BH', hBH', h⟩ := h
        have hpq : p = q := hD.1
        have h1 : 1 ≤ side.pick p 1 := by cases side <;> simp [Side.pick] ; omega
        have h2 : 1 ≤ side.pick 1 q := by cases side <;> simp [Side.pick] ; omega
        obtain ⟨bl, rfl, w, same, dl⟩ := split_dense_leaves h1 h2 hBH
        have I := ih _ _ _ hA w (dense_leaves dl).square hD ⟨by
            cases side <;> simp only [Side.pick]
            exact hpq,
          fun i hi j hj => by
            obtain ⟨d, hd⟩ := dl i hi j hj
            rw [hd]
            exact TriFits_dense _ _ _⟩ (by rw [hn, same.1, same.2.1]) hBH'
        obtain ⟨d, rfl, e1, e2, e3⟩ := joinDense_entries h1 h2 hBH I.shape h
        refine ⟨S.1, S.2.1, S.2.2, fun i hi j hj _ => ?_⟩
        have hi' : i < (Mat.hier (side.pick p 1) (side.pick 1 q) bl).nRows := by rw [same.1]; exact hi
        have hj' : j < (Mat.hier (side.pick p 1) (side.pick 1 q) bl).nCols := by rw [same.2.1]; exact hj
        rw [← same.2.2 i hi' j hj', ← I.ent i hi' j hj' (Or.inl ((dense_leaves dl).denseAt hi' hj' w))]
        refine sideProd_congr (fun l _ => by cases side <;> rfl) (fun l hl => ?_)
        rw [hn] at hl
        cases side
        · exact e3 l hl j hj
        · exact e3 i hi l hl
    | hier r s B =>
      cases A with
      | lowRank a => cases h
      | empty => cases h
      | dense a => cases h
      | hier p q A =>
        have hA0 := hA
        have hB' := hB
        simp only [WF] at hA0 hB'
        obtain ⟨X, rfl, key, b1, b2, L⟩ := trsmHH_shape hg (trsmWith_shape hg fuel) hA hB hBs h
        have hp : p = side.pick r s := hT.1
        have dlt : ∀ i < r, ∀ j < s, side.pick i j < p := fun i hi j hj => by
          rw [hp]; cases side <;> simpa [Side.pick]
        have hpq : p = q := hD.1
        have XB := S.2.2.dims hB
        have hh := tri_heights (uplo := uplo) hD hA S.1 hp (by rw [XB.1, XB.2]; exact hn)
          (fun i hi j hj k hk hs => by
            obtain ⟨b, gd, -⟩ := L i hi j hj
            have dm := (key i hi j hj).2.2.dims (hB'.2.2 i hi j hj).1
            have := gd k (by rw [← hp]; exact hk) hs
            cases side
            · exact ⟨this.rows.trans dm.1.symm, this.inner, this.cols.trans dm.2.symm⟩
            · exact ⟨this.rows.trans dm.1.symm, this.inner, this.cols.trans dm.2.symm⟩)
        refine trsm_blocks hD hA hB hp hh key ?_
        intro i hi j hj x hx y hy hP
        obtain ⟨b, -, bw, bs, sh, e, hb⟩ := L i hi j hj
        have hd := dlt i hi j hj
        have dmb := sh.dims (hB'.2.2 i hi j hj).1
        have dmx := (key i hi j hj).2.2.dims (hB'.2.2 i hi j hj).1
        have hXw := S.1
        simp only [WF] at hXw
        have I := ih _ _ _ (hA0.2.2 _ hd _ (by omega)).1 bw bs (hD.2 _ hd) ((hT.2 i hi j hj).shape sh) (by
          have e1 := hh _ hd
          rw [(hA0.2.2 _ hd _ (by omega)).2.1, e1, dmb.1, dmb.2, ← dmx.1, ← dmx.2]
          cases side
          · exact ((hXw.2.2 i hi j hj).2.1).symm
          · exact ((hXw.2.2 i hi j hj).2.2).symm) hb
        rw [I.ent x (by rw [dmb.1]; exact hx) y (by rw [dmb.2]; exact hy)
          (by rwa [sh.denseAt (hB'.2.2 i hi j hj).1 hx hy]), e x hx y hy hP, ← hp]
        ring

end
end Mat
end Verif
