import Verif.Lemmas.TiledTotal
import Verif.Lemmas.QrTotal

/-!
Explicit orthogonal factors: multiplying the identity with the reflectors and then
with the triangular factor.
-/

set_option linter.unusedSectionVars false

namespace Verif
open Finset

variable {R : Type} [CommRing R]

theorem refl_lin {ι : Type} [DecidableEq ι] {D : Finset ι} {n : Nat} {Y : ι → Nat → R} {T : Nat → Nat → R}
    {κ : Type} (S : Finset κ) (c : κ → R) (v : κ → ι → R) (i : ι) :
    refl D n Y T (fun x => ∑ z ∈ S, c z * v z x) i = ∑ z ∈ S, c z * refl D n Y T (v z) i := by
  have e0 : ∀ b, ∑ l ∈ D, Y l b * ∑ z ∈ S, c z * v z l = ∑ z ∈ S, c z * ∑ l ∈ D, Y l b * v z l := by
    intro b
    simp only [Finset.mul_sum]
    rw [Finset.sum_comm]
    exact Finset.sum_congr rfl fun z _ => Finset.sum_congr rfl fun l _ => by ring
  have e1 : ∀ a, ∑ b ∈ range n, T a b * ∑ l ∈ D, Y l b * ∑ z ∈ S, c z * v z l =
      ∑ z ∈ S, c z * ∑ b ∈ range n, T a b * ∑ l ∈ D, Y l b * v z l := by
    intro a
    simp only [e0]
    rw [Finset.sum_congr rfl (fun b _ => Finset.mul_sum S _ (T a b)), Finset.sum_comm]
    refine Finset.sum_congr rfl fun z _ => ?_
    rw [Finset.mul_sum]
    exact Finset.sum_congr rfl fun b _ => by ring
  simp only [refl, mul_sub, Finset.sum_sub_distrib]
  congr 1
  simp only [e1]
  rw [Finset.sum_congr rfl (fun b _ => Finset.mul_sum S _ (Y i b)), Finset.sum_comm]
  refine Finset.sum_congr rfl fun z _ => ?_
  rw [Finset.mul_sum]
  exact Finset.sum_congr rfl fun b _ => by ring

/-- Adjoint of a reflector. -/
theorem refl_adj {ι : Type} [DecidableEq ι] {D : Finset ι} {n : Nat} {Y : ι → Nat → R} {T : Nat → Nat → R}
    (v u : ι → R) :
    ∑ i ∈ D, refl D n Y T v i * u i = ∑ i ∈ D, v i * refl D n Y (tr T) u i := by
  have e1 : ∀ (x y : ι → R) (T : Nat → Nat → R), ∑ i ∈ D, (∑ a ∈ range n, Y i a * ∑ b ∈ range n, T a b * ∑ l ∈ D, Y l b * x l) * y i =
      ∑ a ∈ range n, ∑ b ∈ range n, T a b * ((∑ l ∈ D, Y l b * x l) * ∑ i ∈ D, Y i a * y i) := by
    intro x y T
    simp only [Finset.sum_mul]
    rw [Finset.sum_comm]
    refine Finset.sum_congr rfl fun a _ => ?_
    rw [Finset.sum_congr rfl (fun i _ => by
      rw [show Y i a * (∑ b ∈ range n, T a b * ∑ l ∈ D, Y l b * x l) * y i =
        (∑ b ∈ range n, T a b * ∑ l ∈ D, Y l b * x l) * (Y i a * y i) by ring]), ← Finset.mul_sum, Finset.sum_mul]
    exact Finset.sum_congr rfl fun b _ => by rw [← Finset.sum_mul]; ring
  simp only [refl, sub_mul, mul_sub, Finset.sum_sub_distrib]
  congr 1
  rw [e1, Finset.sum_congr rfl (fun i _ => mul_comm (v i) _), e1, Finset.sum_comm]
  exact Finset.sum_congr rfl fun a _ => Finset.sum_congr rfl fun b _ => by simp only [tr]; ring

/-- Reflectors preserve inner products. -/
theorem refl_inner {ι : Type} [DecidableEq ι] {D : Finset ι} {n : Nat} {Y : ι → Nat → R} {T : Nat → Nat → R}
    (h : ReflOrth D n Y T) (v u : ι → R) :
    ∑ i ∈ D, refl D n Y T v i * refl D n Y T u i = ∑ i ∈ D, v i * u i := by
  rw [refl_adj]
  exact Finset.sum_congr rfl fun i hi => by rw [(h u i hi).2]

namespace Mat

/-- What the sequences of reflectors of all block columns have in common: `L j` is
applied to block column `j`. -/
structure ColMap (p q : Nat) (h : Nat → Nat) (L : Nat → (Ix → R) → Ix → R) : Prop where
  congr : ∀ j < q, ∀ v v', EqOn p h v v' → EqOn p h (L j v) (L j v')
  lin : ∀ j < q, ∀ (S : Finset Ix) (c : Ix → R) (v : Ix → Ix → R),
    EqOn p h (L j (fun x => ∑ z ∈ S, c z * v z x)) (fun x => ∑ z ∈ S, c z * L j (v z) x)
  ext : ∀ k j, k ≤ j → j < q → ∀ v, (∀ x ∈ rowsFrom 0 p h, k < x.1 → v x = 0) → EqOn p h (L j v) (L k v)
  inner : ∀ j < q, ∀ v u, ∑ x ∈ rowsFrom 0 p h, L j v x * L j u x = ∑ x ∈ rowsFrom 0 p h, v x * u x

/-- Column `s` of block column `k` of the identity. -/
def unitv (k s : Nat) (x : Ix) : R := if x.1 = k ∧ x.2 = s then 1 else 0

variable {p q : Nat} {h : Nat → Nat} {L : Nat → (Ix → R) → Ix → R}

/-- A column that vanishes below block row `j` in terms of unit vectors. -/
theorem unit_sum {j : Nat} (v : Ix → R) (hv : ∀ x ∈ rowsFrom 0 p h, j < x.1 → v x = 0) :
    EqOn p h v (fun x => ∑ z ∈ rowsFrom 0 (j + 1) h, v z * unitv z.1 z.2 x) := by
  intro x hx
  have hx' := mem_rowsFrom.1 hx
  by_cases hxj : j < x.1
  · rw [hv x hx hxj]
    symm
    refine Finset.sum_eq_zero fun z hz => ?_
    have hz := mem_rowsFrom.1 hz
    rw [unitv, if_neg (by omega), mul_zero]
  · have hm : x ∈ rowsFrom 0 (j + 1) h := mem_rowsFrom.2 ⟨⟨Nat.zero_le _, by omega⟩, hx'.2⟩
    beta_reduce
    rw [Finset.sum_eq_single x]
    · simp [unitv]
    · intro z _ hne
      rw [unitv, if_neg, mul_zero]
      rintro ⟨a, b⟩
      exact hne (Sigma.ext a.symm (heq_of_eq b.symm))
    · intro hn; exact absurd hm hn

/-- The explicit factor times a column of the triangular factor. -/
theorem ColMap.residual (H : ColMap p q h L) {j : Nat} (hj : j < q) {v : Ix → R}
    (hv : ∀ x ∈ rowsFrom 0 p h, j < x.1 → v x = 0) {Q : Ix → Ix → R}
    (hQ : ∀ z ∈ rowsFrom 0 (j + 1) h, EqOn p h (Q z) (L z.1 (unitv z.1 z.2))) :
    EqOn p h (fun x => ∑ z ∈ rowsFrom 0 (j + 1) h, v z * Q z x) (L j v) := by
  intro x hx
  rw [H.congr j hj _ _ (unit_sum v hv) x hx, H.lin j hj _ _ _ x hx]
  refine Finset.sum_congr rfl fun z hz => ?_
  have hz' := mem_rowsFrom.1 hz
  rw [hQ z hz x hx, H.ext z.1 j (by omega) hj _ ?_ x hx]
  intro y _ hy
  rw [unitv, if_neg (by omega)]

/-- The columns of the explicit factor are orthonormal. -/
theorem ColMap.orthonormal (H : ColMap p q h L) (hqp : q ≤ p) {a b : Ix} (ha : a ∈ rowsFrom 0 q h)
    (hb : b ∈ rowsFrom 0 q h) {u v : Ix → R}
    (hu : EqOn p h u (L a.1 (unitv a.1 a.2))) (hv : EqOn p h v (L b.1 (unitv b.1 b.2))) :
    ∑ x ∈ rowsFrom 0 p h, u x * v x = if a = b then 1 else 0 := by
  have ha' := mem_rowsFrom.1 ha
  have hb' := mem_rowsFrom.1 hb
  set j := max a.1 b.1 with hj
  have hjq : j < q := by omega
  have zero : ∀ c : Ix, c.1 ≤ j → EqOn p h (L j (unitv c.1 c.2)) (L c.1 (unitv c.1 c.2)) := fun c hc =>
    H.ext c.1 j hc hjq _ (fun y _ hy => by rw [unitv, if_neg (by omega)])
  rw [Finset.sum_congr rfl (fun x hx => by
    rw [hu x hx, hv x hx, ← zero a (by omega) x hx, ← zero b (by omega) x hx]), H.inner j hjq]
  have hm : a ∈ rowsFrom 0 p h := mem_rowsFrom.2 ⟨⟨Nat.zero_le _, by omega⟩, ha'.2⟩
  rw [Finset.sum_eq_single a]
  · simp only [unitv, and_self, if_true, one_mul]
    by_cases e : a = b
    · subst e; simp
    · rw [if_neg e, if_neg]
      rintro ⟨e1, e2⟩
      exact e (Sigma.ext e1 (heq_of_eq e2))
  · intro z _ hne
    rw [unitv, if_neg, zero_mul]
    rintro ⟨e1, e2⟩
    exact hne (Sigma.ext e1 (heq_of_eq e2))
  · intro hn; exact absurd hm hn

/-! ### blocked -/

theorem hop_lin {Y : Nat → Nat → Mat R} {t : Nat → Dense R} {trans : Bool} {k : Nat}
    (S : Finset Ix) (c : Ix → R) (v : Ix → Ix → R) (x : Ix) :
    hop p h Y t trans k (fun x => ∑ z ∈ S, c z * v z x) x = ∑ z ∈ S, c z * hop p h Y t trans k (v z) x := by
  unfold hop
  split
  · exact refl_lin S c v x
  · rfl

theorem hops_lin {Y : Nat → Nat → Mat R} {t : Nat → Dense R} {trans : Bool} {ks : List Nat}
    (S : Finset Ix) (c : Ix → R) (v : Ix → Ix → R) (x : Ix) :
    hops p h Y t trans ks (fun x => ∑ z ∈ S, c z * v z x) x = ∑ z ∈ S, c z * hops p h Y t trans ks (v z) x := by
  induction ks generalizing v with
  | nil => rfl
  | cons k ks ih =>
    show hops p h Y t trans ks (hop p h Y t trans k _) x = ∑ z ∈ S, c z * hops p h Y t trans ks (hop p h Y t trans k (v z)) x
    rw [show hop p h Y t trans k (fun x => ∑ z ∈ S, c z * v z x) = fun x => ∑ z ∈ S, c z * hop p h Y t trans k (v z) x
      from funext (hop_lin S c v)]
    exact ih _

theorem refl_zero {ι : Type} [DecidableEq ι] {D : Finset ι} {n : Nat} {Y : ι → Nat → R} {T : Nat → Nat → R}
    {v : ι → R} (hv : ∀ i ∈ D, v i = 0) (i : ι) : refl D n Y T v i = v i := by
  unfold refl
  rw [Finset.sum_eq_zero, sub_zero]
  intro a _
  rw [Finset.sum_eq_zero, mul_zero]
  intro b _
  rw [Finset.sum_eq_zero, mul_zero]
  intro l hl
  rw [hv l hl, mul_zero]

theorem hop_fix {Y : Nat → Nat → Mat R} {t : Nat → Dense R} {trans : Bool} {k : Nat} {v : Ix → R}
    (hv : ∀ x ∈ rowsFrom 0 p h, k ≤ x.1 → v x = 0) : hop p h Y t trans k v = v := by
  funext x
  unfold hop
  split
  · exact refl_zero (fun i hi => hv i (rowsFrom_sub hi) (mem_rowsFrom.1 hi).1.1) x
  · rfl

theorem hop_inner {Y : Nat → Nat → Mat R} {t : Nat → Dense R} {k : Nat}
    (ho : ReflOrth (rowsFrom k p h) (h k) (refv k (fun i => Y i k)) ((t k).tri .upper false)) (v u : Ix → R) :
    ∑ x ∈ rowsFrom 0 p h, hop p h Y t false k v x * hop p h Y t false k u x = ∑ x ∈ rowsFrom 0 p h, v x * u x := by
  have hs : rowsFrom k p h ⊆ rowsFrom 0 p h := fun x hx => rowsFrom_sub hx
  rw [← Finset.sum_sdiff hs, ← Finset.sum_sdiff (f := fun x => v x * u x) hs]
  have hk : ∀ x ∈ rowsFrom k p h, k ≤ x.1 := fun x hx => (mem_rowsFrom.1 hx).1.1
  congr 1
  · refine Finset.sum_congr rfl fun x hx => ?_
    rw [Finset.mem_sdiff] at hx
    have : ¬ k ≤ x.1 := fun hh => hx.2 (by
      have := mem_rowsFrom.1 hx.1
      exact mem_rowsFrom.2 ⟨⟨hh, this.1.2⟩, this.2⟩)
    simp only [hop, if_neg this]
  · rw [← refl_inner ho v u]
    refine Finset.sum_congr rfl fun x hx => ?_
    simp only [hop, if_pos (hk x hx)]
    rfl

theorem hops_inner {Y : Nat → Nat → Mat R} {t : Nat → Dense R} {ks : List Nat}
    (ho : ∀ k ∈ ks, ReflOrth (rowsFrom k p h) (h k) (refv k (fun i => Y i k)) ((t k).tri .upper false)) (v u : Ix → R) :
    ∑ x ∈ rowsFrom 0 p h, hops p h Y t false ks v x * hops p h Y t false ks u x = ∑ x ∈ rowsFrom 0 p h, v x * u x := by
  induction ks generalizing v u with
  | nil => rfl
  | cons k ks ih =>
    rw [← hop_inner (ho k List.mem_cons_self) v u]
    exact ih (fun k' hk' => ho k' (List.mem_cons_of_mem _ hk')) _ _

theorem blocked_colMap {Y : Nat → Nat → Mat R} {t : Nat → Dense R}
    (ho : ∀ k < q, ReflOrth (rowsFrom k p h) (h k) (refv k (fun i => Y i k)) ((t k).tri .upper false)) :
    ColMap p q h (fun j => hops p h Y t false (order false j)) where
  congr := fun j _ v v' e => hops_congr e
  lin := fun j _ S c v x _ => hops_lin S c v x
  ext := by
    intro k j hkj hj v hv
    induction j with
    | zero =>
      obtain rfl : k = 0 := by omega
      exact fun _ _ => rfl
    | succ j ih =>
      by_cases e : k = j + 1
      · subst e; exact fun _ _ => rfl
      · have e2 : order false (j + 1) = (j + 1) :: order false j := by
          simp [order, List.range_succ]
        intro x hx
        rw [← ih (by omega) (by omega) x hx]
        show hops p h Y t false (order false (j + 1)) v x = _
        rw [e2]
        show hops p h Y t false (order false j) (hop p h Y t false (j + 1) v) x = _
        rw [hop_fix (fun x hx hle => hv x hx (by omega))]
  inner := fun j hj v u => hops_inner (fun k hk => ho k (by have := mem_order.1 hk; omega)) v u

/-! ### tiled -/

theorem thop_lin {w : Nat → Nat} {Y : Nat → Nat → Mat R} {t : Nat → Nat → Dense R} {trans : Bool} {e : Nat × Nat}
    (S : Finset Ix) (c : Ix → R) (v : Ix → Ix → R) (x : Ix) :
    thop h w Y t trans e (fun x => ∑ z ∈ S, c z * v z x) x = ∑ z ∈ S, c z * thop h w Y t trans e (v z) x := by
  unfold thop
  split
  · exact refl_lin S c v x
  · rfl

theorem thops_lin {w : Nat → Nat} {Y : Nat → Nat → Mat R} {t : Nat → Nat → Dense R} {trans : Bool}
    {ks : List (Nat × Nat)} (S : Finset Ix) (c : Ix → R) (v : Ix → Ix → R) (x : Ix) :
    thops h w Y t trans ks (fun x => ∑ z ∈ S, c z * v z x) x = ∑ z ∈ S, c z * thops h w Y t trans ks (v z) x := by
  induction ks generalizing v with
  | nil => rfl
  | cons k ks ih =>
    show thops h w Y t trans ks (thop h w Y t trans k _) x = ∑ z ∈ S, c z * thops h w Y t trans ks (thop h w Y t trans k (v z)) x
    rw [show thop h w Y t trans k (fun x => ∑ z ∈ S, c z * v z x) = fun x => ∑ z ∈ S, c z * thop h w Y t trans k (v z) x
      from funext (thop_lin S c v)]
    exact ih _

theorem thop_fix {w : Nat → Nat} {Y : Nat → Nat → Mat R} {t : Nat → Nat → Dense R} {trans : Bool} {e : Nat × Nat}
    {v : Ix → R} (H : InRange p h w e) (hv : ∀ x ∈ rowsFrom 0 p h, e.1 ≤ x.1 → v x = 0) :
    thop h w Y t trans e v = v := by
  funext x
  unfold thop
  split
  · refine refl_zero (fun i hi => hv i (H.sub hi) ?_) x
    rcases mem_pairRows.1 hi with ⟨a, -⟩ | ⟨a, -⟩
    · have := H.le; omega
    · omega
  · rfl

theorem thop_inner {w : Nat → Nat} {Y : Nat → Nat → Mat R} {t : Nat → Nat → Dense R} {e : Nat × Nat}
    (H : InRange p h w e) (ho : TOrth h w Y t e) (v u : Ix → R) :
    ∑ x ∈ rowsFrom 0 p h, thop h w Y t false e v x * thop h w Y t false e u x = ∑ x ∈ rowsFrom 0 p h, v x * u x := by
  have hs : pairRows e.1 e.2 (w e.1) h ⊆ rowsFrom 0 p h := fun x hx => H.sub hx
  rw [← Finset.sum_sdiff hs, ← Finset.sum_sdiff (f := fun x => v x * u x) hs]
  congr 1
  · refine Finset.sum_congr rfl fun x hx => ?_
    rw [Finset.mem_sdiff] at hx
    simp only [thop, if_neg hx.2]
  · rw [← refl_inner ho v u]
    refine Finset.sum_congr rfl fun x hx => ?_
    simp only [thop, if_pos hx]
    rfl

theorem thops_inner {w : Nat → Nat} {Y : Nat → Nat → Mat R} {t : Nat → Nat → Dense R} {ks : List (Nat × Nat)}
    (ho : ∀ e ∈ ks, InRange p h w e ∧ TOrth h w Y t e) (v u : Ix → R) :
    ∑ x ∈ rowsFrom 0 p h, thops h w Y t false ks v x * thops h w Y t false ks u x = ∑ x ∈ rowsFrom 0 p h, v x * u x := by
  induction ks generalizing v u with
  | nil => rfl
  | cons k ks ih =>
    have := ho k List.mem_cons_self
    rw [← thop_inner this.1 this.2 v u]
    exact ih (fun k' hk' => ho k' (List.mem_cons_of_mem _ hk')) _ _

theorem thops_fix {w : Nat → Nat} {Y : Nat → Nat → Mat R} {t : Nat → Nat → Dense R} {trans : Bool}
    {ks : List (Nat × Nat)} {v : Ix → R} (H : ∀ e ∈ ks, InRange p h w e ∧ ∀ x ∈ rowsFrom 0 p h, e.1 ≤ x.1 → v x = 0) :
    thops h w Y t trans ks v = v := by
  induction ks with
  | nil => rfl
  | cons k ks ih =>
    show thops h w Y t trans ks (thop h w Y t trans k v) = v
    have := H k List.mem_cons_self
    rw [thop_fix this.1 this.2]
    exact ih (fun e he => H e (List.mem_cons_of_mem _ he))

theorem tiled_colMap {w : Nat → Nat} {Y : Nat → Nat → Mat R} {t : Nat → Nat → Dense R}
    (ho : ∀ k < q, ∀ i, k ≤ i → i < p → InRange p h w (k, i) ∧ TOrth h w Y t (k, i)) :
    ColMap p q h (fun j => thops h w Y t false (torder false p j)) where
  congr := fun j hj v v' e => thops_congr (fun e he => by
    obtain ⟨e1, e2, e3⟩ := mem_torder.1 he
    exact (ho e.1 (by omega) e.2 e2 e3).1) e
  lin := fun j _ S c v x _ => thops_lin S c v x
  ext := by
    intro k j hkj hj v hv
    induction j with
    | zero =>
      obtain rfl : k = 0 := by omega
      exact fun _ _ => rfl
    | succ j ih =>
      by_cases e : k = j + 1
      · subst e; exact fun _ _ => rfl
      · have e2 : torder false p (j + 1) = torderStep false p (j + 1) ++ torder false p j := by
          simp only [torder, torderStep, Bool.false_eq_true, if_false]
          rw [pairs_succ p (j + 1), List.reverse_append]
        intro x hx
        rw [← ih (by omega) (by omega) x hx]
        show thops h w Y t false (torder false p (j + 1)) v x = _
        rw [e2, thops, List.foldl_append]
        show thops h w Y t false (torder false p j) (thops h w Y t false _ v) x = _
        rw [thops_fix (p := p) (ks := torderStep false p (j + 1))]
        intro e he
        have he : e ∈ stepPairs p (j + 1) := by simpa [torderStep] using he
        obtain ⟨e1, e3, e4⟩ := mem_stepPairs.1 he
        exact ⟨(ho e.1 (by omega) e.2 (by omega) e4).1, fun x hx hle => hv x hx (by omega)⟩
  inner := fun j hj v u => thops_inner (fun e he => by
    obtain ⟨e1, e2, e3⟩ := mem_torder.1 he
    exact ho e.1 (by omega) e.2 e2 e3) v u

end Mat
end Verif
